import Verif.Props.Narrow
/-! C140: rules that allow. -/
namespace Verif
open Sample Spec

/-- An action that neither denies nor skips. -/
def Spec.Gentle (a : PAct) : Prop := a.tk ≠ .deny ∧ a.tk ≠ .skip

/-- `ds` is `cs` with chains added anywhere, all of whose actions are as `A` says. -/
inductive Spec.AddsOnly (A : PAct → Prop) : List (List PRule) → List (List PRule) → Prop
  | nil : AddsOnly A [] []
  | same {c : List PRule} {cs ds : List (List PRule)} : AddsOnly A cs ds → AddsOnly A (c :: cs) (c :: ds)
  | extra {c : List PRule} {cs ds : List (List PRule)} : (∀ p ∈ c, ∀ a ∈ p.acts.action, A a) → AddsOnly A cs ds → AddsOnly A cs (c :: ds)

/-- C140: adding rules that neither deny nor skip to a rule text, say exceptions that allow, never
makes it refuse more: whatever the calls, each verdict that is disruptive with the longer text is
disruptive with the shorter. -/
def C140_statement : Prop :=
  ∀ (lib : Lib) (vo : VarOrd) (ord : IterOrd) (text text' : Bytes) (dirs dirs' : List PDir) (set set' : DireSet), Program text dirs → Program text' dirs' →
    switches dirs = switches dirs' → AddsOnly Gentle (chainsOf (rulesIn dirs)) (chainsOf (rulesIn dirs')) →
    DireSet.addSecLangString lib vo [] text = .ok (set, none) → DireSet.addSecLangString lib vo [] text' = .ok (set', none) →
    ∀ (ops : List Op) (n : Nat) (t t' : Tx) (os os' : List Out) (tr tr' : Trace),
      (set.execute newEngine).newTransaction.steps ((set.execute newEngine).env lib ord) (set.execute newEngine).ruleSet n ops = .ok (t, os, tr) →
      (set'.execute newEngine).newTransaction.steps ((set'.execute newEngine).env lib ord) (set'.execute newEngine).ruleSet n ops = .ok (t', os', tr') →
      Pairs (fun v v' => v'.disruptive = true → v.disruptive = true) (shown os) (shown os')

theorem Spec.AddsOnly.filter {A : PAct → Prop} (f : List PRule → Bool) {cs ds : List (List PRule)} (h : AddsOnly A cs ds) : AddsOnly A (cs.filter f) (ds.filter f) := by
  induction h with
  | nil => exact .nil
  | @same c _ _ _ ih =>
    simp only [List.filter_cons]
    split
    · exact .same ih
    · exact ih
  | @extra c _ _ hx _ ih =>
    simp only [List.filter_cons]
    split
    · exact .extra hx ih
    · exact ih

theorem Spec.AddsOnly.mem {A : PAct → Prop} {cs ds : List (List PRule)} (h : AddsOnly A cs ds) : ∀ c ∈ cs, c ∈ ds := by
  induction h with
  | nil => simp
  | same _ ih =>
    intro c hc
    rcases List.mem_cons.1 hc with rfl | hc
    · exact List.mem_cons_self
    · exact List.mem_cons_of_mem _ (ih c hc)
  | extra _ _ ih => intro c hc; exact List.mem_cons_of_mem _ (ih c hc)

theorem Spec.AddsOnly.either {A : PAct → Prop} {cs ds : List (List PRule)} (h : AddsOnly A cs ds) : ∀ c ∈ ds, c ∈ cs ∨ ∀ p ∈ c, ∀ a ∈ p.acts.action, A a := by
  induction h with
  | nil => simp
  | same _ ih =>
    intro c hc
    rcases List.mem_cons.1 hc with rfl | hc
    · exact .inl List.mem_cons_self
    · exact (ih c hc).imp (List.mem_cons_of_mem _) id
  | extra hx _ ih =>
    intro c hc
    rcases List.mem_cons.1 hc with rfl | hc
    · exact .inr hx
    · exact ih c hc

/-! ### One machine on its way -/

section
variable {K : Type} {S : Sight K}

/-- An action that does not go back behind phase `q`. -/
def Onwards (q : Int) (a : PAct) : Prop := a.tk = .allow → Unquoted a.arg b!"request" → q < 4

/-- A machine that has moved on, in phase `q` or behind it. -/
structure MovedOn (q : Int) (m m' : Mach K) : Prop where
  known : m'.known = m.known
  aborted : m'.aborted = m.aborted
  phase : q ≤ m.phase → q ≤ m'.phase
  verdict : m.verdict.disruptive = true → m'.verdict.disruptive = true

theorem MovedOn.trans {q : Int} {m m' m'' : Mach K} (h : MovedOn q m m') (h' : MovedOn q m' m'') : MovedOn q m m'' :=
  ⟨h'.known.trans h.known, h'.aborted.trans h.aborted, fun e => h'.phase (h.phase e), fun e => h'.verdict (h.verdict e)⟩

theorem movedOn_act {q : Int} (hq : q ≤ 6) {a : PAct} (h : Onwards q a) (m : Mach K) : MovedOn q m (act S m a) := by
  cases hk : a.tk <;> simp only [act, hk] <;> try exact ⟨rfl, rfl, id, id⟩
  case deny => exact ⟨rfl, rfl, id, fun _ => rfl⟩
  case allow =>
    split
    · exact ⟨rfl, rfl, fun _ => by show q ≤ max 0 (min 6 7); omega, id⟩
    · split
      · exact ⟨rfl, rfl, fun e => by show q ≤ max 0 (min (m.phase + 1) 7); omega, id⟩
      · split
        · rename_i hu
          have := h hk hu
          exact ⟨rfl, rfl, fun _ => by show q ≤ max 0 (min 4 7); omega, id⟩
        · exact ⟨rfl, rfl, id, id⟩

theorem movedOn_acts {q : Int} (hq : q ≤ 6) : ∀ {as : List PAct}, (∀ a ∈ as, Onwards q a) → ∀ m : Mach K, MovedOn q m (as.foldl (act S) m)
  | [], _, _ => ⟨rfl, rfl, id, id⟩
  | a :: _, h, m => (movedOn_act hq (h a List.mem_cons_self) m).trans (movedOn_acts hq (fun b hb => h b (List.mem_cons_of_mem _ hb)) _)

theorem movedOn_fire {q : Int} (hq : q ≤ 6) : ∀ {c : List PRule}, (∀ p ∈ c, ∀ a ∈ p.acts.action, Onwards q a) → ∀ m : Mach K, MovedOn q m (fire S m c)
  | [], _, _ => ⟨rfl, rfl, id, id⟩
  | p :: c, h, m =>
    (movedOn_acts hq (fun a ha => h p List.mem_cons_self a (mem_inOrder ha)) m).trans (movedOn_fire (c := c) hq (fun q hq => h q (List.mem_cons_of_mem _ hq)) _)

theorem movedOn_walk {q : Int} (hq : q ≤ 6) : ∀ {cs : List (List PRule)}, (∀ c ∈ cs, ∀ p ∈ c, ∀ a ∈ p.acts.action, Onwards q a) → ∀ (i : Nat) (b : Bool) (m : Mach K),
    MovedOn q m (walk S q i b cs m)
  | [], _, _, _, _ => by simp only [walk]; exact ⟨rfl, rfl, id, id⟩
  | c :: cs, h, i, true, m => by
    simp only [walk]
    exact movedOn_walk hq (fun c hc => h c (List.mem_cons_of_mem _ hc)) _ _ _
  | c :: cs, h, i, false, m => by
    have h0 : MovedOn q m { m with rule := (i : Int) } := ⟨rfl, rfl, id, id⟩
    have h1 := h0.trans (movedOn_fire (S := S) hq (h c List.mem_cons_self) { m with rule := (i : Int) })
    have ih := fun b m => movedOn_walk hq (cs := cs) (fun c hc => h c (List.mem_cons_of_mem _ hc)) (i + 1) b m
    simp only [walk]
    split
    · split
      · exact h1
      · exact h1.trans (ih _ _)
    · split
      · exact h0
      · exact h0.trans (ih _ _)

theorem gentle_act {a : PAct} (h : a.tk ≠ .deny) (m : Mach K) : (act S m a).verdict.disruptive = m.verdict.disruptive := by
  cases hk : a.tk <;> simp only [act, hk] <;> try rfl
  case deny => exact absurd hk h
  case allow =>
    repeat' split
    all_goals rfl

theorem gentle_acts : ∀ {as : List PAct}, (∀ a ∈ as, a.tk ≠ .deny) → ∀ m : Mach K, (as.foldl (act S) m).verdict.disruptive = m.verdict.disruptive
  | [], _, _ => rfl
  | a :: _, h, m => (gentle_acts (fun b hb => h b (List.mem_cons_of_mem _ hb)) _).trans (gentle_act (h a List.mem_cons_self) m)

theorem gentle_fire : ∀ {c : List PRule}, (∀ p ∈ c, ∀ a ∈ p.acts.action, a.tk ≠ .deny) → ∀ m : Mach K, (fire S m c).verdict.disruptive = m.verdict.disruptive
  | [], _, _ => rfl
  | p :: c, h, m =>
    (gentle_fire (c := c) (fun q hq => h q (List.mem_cons_of_mem _ hq)) _).trans (gentle_acts (fun a ha => h p List.mem_cons_self a (mem_inOrder ha)) m)

/-! ### Old rules that do not allow -/

/-- The second machine is as far as the first, or further, and refuses no more. -/
structure FurtherOn (m m' : Mach K) : Prop where
  known : m'.known = m.known
  aborted : m'.aborted = m.aborted
  low : 0 ≤ m.phase
  phase : m.phase ≤ m'.phase
  verdict : m'.verdict.disruptive = true → m.verdict.disruptive = true

theorem furtherOn_walk {q : Int} (hq0 : 0 ≤ q) (hq6 : q ≤ 6) : ∀ {cs ds : List (List PRule)}, AddsOnly Gentle cs ds → StrictRules cs →
    (∀ c ∈ ds, ∀ p ∈ c, ∀ a ∈ p.acts.action, Onwards q a) →
    ∀ (i j : Nat) {m m' : Mach K}, Beside m' m → m.phase = q → FurtherOn (walk S q i false cs m) (walk S q j false ds m') := by
  intro cs ds hcs
  induction hcs with
  | nil => intro _ _ i j m m' h _; simp only [walk]; exact ⟨h.known.symm, h.aborted.symm, by omega, by rw [h.phase]; omega, h.verdict⟩
  | @same c cs ds _ ih =>
    intro hc hd i j m m' h hq
    have hcs : StrictRules cs := fun c' h' => hc c' (List.mem_cons_of_mem c h')
    have hds := fun c' h' => hd c' (List.mem_cons_of_mem c h')
    have h0 : Beside { m' with rule := (j : Int) } { m with rule := (i : Int) } := ⟨h.known, h.aborted, h.phase, h.verdict⟩
    have h1 := beside_fire (S := S) c h0
    have hp : (fire S { m with rule := (i : Int) } c).phase = q := (strict_fire (hc c List.mem_cons_self) _).trans hq
    have hp' : (fire S { m' with rule := (j : Int) } c).phase = q := h1.phase.symm.trans hp
    have hw := fun b m => movedOn_walk (S := S) hq6 hds (j + 1) b m
    have stop : ∀ {m m' : Mach K}, Beside m' m → m.phase = q → ∀ b, m.verdict.disruptive = true → FurtherOn m (walk S q (j + 1) b ds m') := by
      intro m m' h e b hd
      have := hw b m'
      exact ⟨this.known.trans h.known.symm, this.aborted.trans h.aborted.symm, by omega, by rw [e]; exact this.phase (by rw [← h.phase, e]; exact Int.le_refl _), fun _ => hd⟩
    simp only [walk]
    rw [h.known] at *
    split
    · rw [calm_skips (fun p hp a ha => strict_calm (hc c List.mem_cons_self p hp a ha))]
      by_cases hs : (fire S { m' with rule := (j : Int) } c).verdict.disruptive = true
      · rw [if_pos (.inl (h1.verdict hs)), if_pos (.inl hs)]
        exact ⟨h1.known.symm, h1.aborted.symm, by rw [hp]; omega, by rw [hp, hp']; omega, fun _ => h1.verdict hs⟩
      · rw [if_neg (c := (fire S { m' with rule := (j : Int) } c).verdict.disruptive = true ∨ _) (fun e => e.elim hs fun e => e hp')]
        by_cases hs' : (fire S { m with rule := (i : Int), known := m'.known } c).verdict.disruptive = true
        · rw [if_pos (.inl hs')]
          exact stop h1 hp _ hs'
        · rw [if_neg (fun e => e.elim hs' fun e => e hp)]
          exact ih hcs hds _ _ h1 hp
    · by_cases hs : m'.verdict.disruptive = true
      · rw [if_pos (h.verdict hs), if_pos hs]
        exact ⟨h0.known.symm, h0.aborted.symm, by show 0 ≤ m.phase; omega, by show m.phase ≤ m'.phase; rw [h.phase]; omega, fun _ => h.verdict hs⟩
      · rw [if_neg hs]
        split
        · rename_i hd
          exact stop h0 hq _ hd
        · exact ih hcs hds _ _ h0 hq
  | @extra c cs ds hx _ ih =>
    intro hc hd i j m m' h hq
    have hds := fun c' h' => hd c' (List.mem_cons_of_mem c h')
    have h0 : Beside { m' with rule := (j : Int) } m := ⟨h.known, h.aborted, h.phase, h.verdict⟩
    have hf := movedOn_fire (S := S) hq6 (hd c List.mem_cons_self) { m' with rule := (j : Int) }
    have hg := gentle_fire (S := S) (fun p hp a ha => (hx p hp a ha).1) { m' with rule := (j : Int) }
    obtain ⟨w1, w2, w3, w4⟩ := strict_walk (S := S) hc i m hq
    have stop : ∀ {m1 : Mach K}, m1.known = m.known → m1.aborted = m.aborted → q ≤ m1.phase → (m1.verdict.disruptive = true → m.verdict.disruptive = true) →
        FurtherOn (walk S q i false cs m) m1 := by
      intro m1 e1 e2 e3 e4
      exact ⟨e1.trans w1.symm, e2.trans w2.symm, by rw [w3]; omega, by rw [w3, hq]; exact e3, fun e => w4.2 (.inl (e4 e))⟩
    have e3 : q ≤ (fire S { m' with rule := (j : Int) } c).phase := hf.phase (by show q ≤ m'.phase; rw [← h.phase, hq]; exact Int.le_refl _)
    have e4 : (fire S { m' with rule := (j : Int) } c).verdict.disruptive = true → m.verdict.disruptive = true := fun e => h.verdict (hg ▸ e)
    conv => rhs; simp only [walk]
    split
    · rw [noSkip_skips (fun p hp a ha => (hx p hp a ha).2)]
      split
      · exact stop (hf.known.trans h.known.symm) (hf.aborted.trans h.aborted.symm) e3 e4
      · rename_i hs
        exact ih hc hds _ _ ⟨h.known.trans hf.known.symm, h.aborted.trans hf.aborted.symm,
          hq.trans (Decidable.byContradiction fun e => hs (.inr fun e' => e e'.symm)), e4⟩ hq
    · split
      · exact stop h.known.symm h.aborted.symm (by show q ≤ m'.phase; rw [← h.phase, hq]; exact Int.le_refl _) h.verdict
      · exact ih hc hds _ _ h0 hq

theorem noReturn_onwards {cs : List (List PRule)} (h : NoReturn cs) {q : Int} : ∀ c ∈ cs.filter (fun c => chainPhase c = q), ∀ p ∈ c, ∀ a ∈ p.acts.action, Onwards q a := by
  intro c hc p hp a ha e hu
  obtain ⟨c1, c2⟩ := List.mem_filter.1 hc
  have c2 : chainPhase c = q := by simpa using c2
  refine Decidable.byContradiction fun hn => h c c1 (by omega) p hp a ha e hu

theorem furtherOn_call {cs ds : List (List PRule)} (h : AddsOnly Gentle cs ds) (hc : StrictRules cs) (hr : NoReturn ds)
    (h5 : ∀ c ∈ ds, 0 ≤ chainPhase c ∧ chainPhase c ≤ 5) (op : Op) {m m' : Mach K} (hm : FurtherOn m m') :
    FurtherOn (call S cs m op).1 (call S ds m' op).1 ∧
      Pairs (fun v v' : Intervention => v'.disruptive = true → v.disruptive = true) (call S cs m op).2 (call S ds m' op).2 := by
  obtain ⟨h1, h2, h0, h3, h4⟩ := hm
  have hk : S.learn m'.known op = S.learn m.known op := by rw [h1]
  cases hq : phaseOf op with
  | some q =>
    simp only [call, hq]
    by_cases g1 : q ≤ m.phase
    · rw [if_pos g1, if_pos (show q ≤ m'.phase by omega)]
      exact ⟨⟨hk, h2, h0, h3, h4⟩, .nil⟩
    · rw [if_neg g1]
      obtain ⟨a1, a2, a3, a4⟩ := phase_walk (S := S) hc (fun c h' => h5 c (h.mem c h')) q { m with known := S.learn m.known op }
      by_cases g2 : q ≤ m'.phase
      · rw [if_pos g2]
        split
        · exact ⟨⟨hk, h2, by show 0 ≤ max 0 (min q 7); omega, by show max 0 (min q 7) ≤ m'.phase; omega, h4⟩, .nil⟩
        · exact ⟨⟨hk.trans a1.symm, h2.trans a2.symm, by rw [a3]; omega, by show _ ≤ m'.phase; rw [a3]; omega, fun e => a4.2 (.inl (h4 e))⟩, .nil⟩
      · rw [if_neg g2]
        by_cases g3 : m.aborted = true
        · rw [if_pos g3, if_pos (h2.trans g3)]
          exact ⟨⟨hk, h2, by show 0 ≤ max 0 (min q 7); omega, Int.le_refl _, h4⟩, .nil⟩
        · rw [if_neg g3, if_neg (fun e => g3 (h2.symm.trans e))]
          refine ⟨?_, .nil⟩
          have hb : Beside (goto q { m' with known := S.learn m'.known op }) (goto q { m with known := S.learn m.known op }) := ⟨hk.symm, h2.symm, rfl, h4⟩
          by_cases he : (ds.filter fun c => chainPhase c = q) = []
          · have he' : (cs.filter fun c => chainPhase c = q) = [] := by
              rw [List.filter_eq_nil_iff] at he ⊢
              exact fun c hcm => he c (h.mem c hcm)
            rw [he, he']
            simp only [walk]
            exact ⟨hk, h2, by show 0 ≤ max 0 (min q 7); omega, Int.le_refl _, h4⟩
          · obtain ⟨c, hcm⟩ := List.exists_mem_of_ne_nil _ he
            obtain ⟨c1, c2⟩ := List.mem_filter.1 hcm
            have := h5 c c1
            have c2 : chainPhase c = q := by simpa using c2
            refine furtherOn_walk (by omega) (by omega) (h.filter _) (fun c hcm => hc c (List.mem_filter.1 hcm).1) (noReturn_onwards hr) 0 0 hb ?_
            show max 0 (min q 7) = q
            omega
  | none =>
    cases op <;> simp only [phaseOf, reduceCtorEq] at hq <;> simp only [call, phaseOf]
    case result =>
      rw [h2]
      refine ⟨?_, .cons h4 .nil⟩
      split
      · exact ⟨hk, rfl, h0, h3, h4⟩
      · exact ⟨hk, rfl, h0, h3, id⟩
    case intervention => exact ⟨⟨hk, h2, h0, h3, h4⟩, .cons h4 .nil⟩
    case resetIntervention => exact ⟨⟨hk, h2, h0, h3, id⟩, .nil⟩
    case abortWithStatus => exact ⟨⟨hk, rfl, h0, h3, id⟩, .nil⟩
    case abortWithError => exact ⟨⟨hk, rfl, h0, h3, id⟩, .nil⟩
    case jumpToPhase i => exact ⟨⟨hk, h2, by show 0 ≤ max 0 (min i 7); omega, Int.le_refl _, h4⟩, .nil⟩
    case nextPhase =>
      exact ⟨⟨hk, h2, by show 0 ≤ max 0 (min (m.phase + 1) 7); omega, by show max 0 (min (m.phase + 1) 7) ≤ max 0 (min (m'.phase + 1) 7); omega, h4⟩, .nil⟩
    all_goals exact ⟨⟨hk, h2, h0, h3, h4⟩, .nil⟩

theorem furtherOn_run {cs ds : List (List PRule)} (h : AddsOnly Gentle cs ds) (hc : StrictRules cs) (hr : NoReturn ds)
    (h5 : ∀ c ∈ ds, 0 ≤ chainPhase c ∧ chainPhase c ≤ 5) : ∀ (ops : List Op) {m m' : Mach K}, FurtherOn m m' →
    Pairs (fun v v' : Intervention => v'.disruptive = true → v.disruptive = true) (Spec.run S cs m ops).2 (Spec.run S ds m' ops).2
  | [], _, _, _ => .nil
  | op :: ops, _, _, hm => by
    obtain ⟨g1, g2⟩ := furtherOn_call (S := S) h hc hr h5 op hm
    simp only [Spec.run]
    exact g2.append (furtherOn_run h hc hr h5 ops g1)

/-! ### Old rules that allow, up to the first refusal -/

/-- An action that neither denies nor skips, and allows everything if it allows. -/
def Spec.Excusing (a : PAct) : Prop := a.tk ≠ .deny ∧ Calm a

/-- The second machine is in the same phase as the first, or past all of them, and refuses no more. -/
structure PastAll (m m' : Mach K) : Prop where
  known : m'.known = m.known
  aborted : m'.aborted = m.aborted
  phase : m'.phase = m.phase ∨ 6 ≤ m'.phase
  verdict : m'.verdict.disruptive = true → m.verdict.disruptive = true

theorem kept_walk {q : Int} : ∀ (cs : List (List PRule)) (i : Nat) (b : Bool) (m : Mach K),
    (walk S q i b cs m).known = m.known ∧ (walk S q i b cs m).aborted = m.aborted := by
  have one : ∀ (a : PAct) (m : Mach K), (act S m a).known = m.known ∧ (act S m a).aborted = m.aborted := by
    intro a m
    rw [act.eq_def]
    repeat' split
    all_goals exact ⟨rfl, rfl⟩
  have many : ∀ (as : List PAct) (m : Mach K), (as.foldl (act S) m).known = m.known ∧ (as.foldl (act S) m).aborted = m.aborted := by
    intro as
    induction as with
    | nil => intro m; exact ⟨rfl, rfl⟩
    | cons a as ih => intro m; exact ⟨(ih _).1.trans (one a m).1, (ih _).2.trans (one a m).2⟩
  have fires : ∀ (c : List PRule) (m : Mach K), (fire S m c).known = m.known ∧ (fire S m c).aborted = m.aborted := by
    intro c
    induction c with
    | nil => intro m; exact ⟨rfl, rfl⟩
    | cons p c ih => intro m; exact ⟨(ih _).1.trans (many _ m).1, (ih _).2.trans (many _ m).2⟩
  intro cs
  induction cs with
  | nil => intro i b m; rw [walk]; exact ⟨rfl, rfl⟩
  | cons c cs ih =>
    intro i b m
    cases b with
    | true => simp only [walk]; exact ih _ _ _
    | false =>
      have hf := fires c { m with rule := (i : Int) }
      simp only [walk]
      split
      · split
        · exact hf
        · exact ⟨(ih _ _ _).1.trans hf.1, (ih _ _ _).2.trans hf.2⟩
      · split
        · exact ⟨rfl, rfl⟩
        · exact ih _ _ _

theorem pastAll_walk {q : Int} : ∀ {cs ds : List (List PRule)}, AddsOnly Excusing cs ds → (∀ c ∈ cs, ∀ p ∈ c, ∀ a ∈ p.acts.action, a.tk ≠ .skip) →
    ∀ (i j : Nat) {m m' : Mach K}, Beside m' m → m.phase = q →
      (walk S q i false cs m).verdict.disruptive = true ∨ PastAll (walk S q i false cs m) (walk S q j false ds m') := by
  intro cs ds hcs
  induction hcs with
  | nil => intro _ i j m m' h _; right; simp only [walk]; exact ⟨h.known.symm, h.aborted.symm, .inl h.phase.symm, h.verdict⟩
  | @same c cs ds _ ih =>
    intro hc i j m m' h hq
    have hcs := fun c' h' => hc c' (List.mem_cons_of_mem c h')
    have h0 : Beside { m' with rule := (j : Int) } { m with rule := (i : Int) } := ⟨h.known, h.aborted, h.phase, h.verdict⟩
    have h1 := beside_fire (S := S) c h0
    simp only [walk]
    rw [h.known] at *
    split
    · rw [noSkip_skips (hc c List.mem_cons_self)]
      by_cases hs : (fire S { m with rule := (i : Int), known := m'.known } c).verdict.disruptive = true
      · left
        rw [if_pos (.inl hs)]
        exact hs
      · have hs2 : ¬ (fire S { m' with rule := (j : Int) } c).verdict.disruptive = true := fun e => hs (h1.verdict e)
        by_cases hp : (fire S { m with rule := (i : Int), known := m'.known } c).phase = q
        · rw [if_neg (c := (fire S { m with rule := (i : Int), known := m'.known } c).verdict.disruptive = true ∨ _) (fun e => e.elim hs fun e => e hp),
            if_neg (c := (fire S { m' with rule := (j : Int) } c).verdict.disruptive = true ∨ _) (fun e => e.elim hs2 fun e => e (h1.phase.symm.trans hp))]
          exact ih hcs _ _ h1 hp
        · rw [if_pos (c := (fire S { m with rule := (i : Int), known := m'.known } c).verdict.disruptive = true ∨ _) (.inr hp),
            if_pos (c := (fire S { m' with rule := (j : Int) } c).verdict.disruptive = true ∨ _) (.inr fun e => hp (h1.phase.trans e))]
          exact .inr ⟨h1.known.symm, h1.aborted.symm, .inl h1.phase.symm, h1.verdict⟩
    · by_cases hs : m.verdict.disruptive = true
      · left
        rw [if_pos hs]
        exact hs
      · rw [if_neg hs, if_neg (fun e => hs (h.verdict e))]
        exact ih hcs _ _ h0 hq
  | @extra c cs ds hx _ ih =>
    intro hc i j m m' h hq
    have h0 : Beside { m' with rule := (j : Int) } m := ⟨h.known, h.aborted, h.phase, h.verdict⟩
    have hf := calm_fire (S := S) (fun p hp a ha => (hx p hp a ha).2) { m' with rule := (j : Int) }
    have hg := gentle_fire (S := S) (fun p hp a ha => (hx p hp a ha).1) { m' with rule := (j : Int) }
    by_cases hd : m.verdict.disruptive = true
    · exact .inl (firm_walk cs i false hd)
    have hd' : ¬ m'.verdict.disruptive = true := fun e => hd (h.verdict e)
    obtain ⟨w1, w2⟩ := kept_walk (S := S) (q := q) cs i false m
    conv => rhs; rhs; simp only [walk]
    split
    · rw [calm_skips (fun p hp a ha => (hx p hp a ha).2)]
      split
      · rename_i hs
        right
        have hs := hs.resolve_left (by rw [hg]; exact hd')
        refine ⟨(hf.known.trans h.known.symm).trans w1.symm, (hf.aborted.trans h.aborted.symm).trans w2.symm, .inr ?_, fun e => absurd (hg ▸ e) hd'⟩
        rcases hf.phase with e | e
        · exact absurd (e.trans (h.phase.symm.trans hq)) hs
        · rw [e]; exact Int.le_refl _
      · rename_i hs
        exact ih hc _ _ ⟨h.known.trans hf.known.symm, h.aborted.trans hf.aborted.symm,
          hq.trans (Decidable.byContradiction fun e => hs (.inr fun e' => e e'.symm)), fun e => h.verdict (hg ▸ e)⟩ hq
    · exact ih hc _ _ h0 hq

theorem pastAll_call {cs ds : List (List PRule)} (h : AddsOnly Excusing cs ds) (hc : ∀ c ∈ cs, ∀ p ∈ c, ∀ a ∈ p.acts.action, a.tk ≠ .skip)
    (h5 : ∀ c ∈ ds, 0 ≤ chainPhase c ∧ chainPhase c ≤ 5) (op : Op) {m m' : Mach K} (hm : PastAll m m') :
    (call S cs m op).1.verdict.disruptive = true ∨ PastAll (call S cs m op).1 (call S ds m' op).1 := by
  obtain ⟨h1, h2, h3, h4⟩ := hm
  have hk : S.learn m'.known op = S.learn m.known op := by rw [h1]
  cases hq : phaseOf op with
  | some q =>
    simp only [call, hq]
    by_cases h6 : 6 ≤ m'.phase
    · -- The second machine does nothing any more.
      right
      have hd : ∀ (e : m'.verdict.disruptive = true), (if q ≤ m.phase then (({ m with known := S.learn m.known op } : Mach K), ([] : List Intervention))
          else if m.aborted = true then (goto q { m with known := S.learn m.known op }, [])
          else (walk S q 0 false (cs.filter fun c => chainPhase c = q) (goto q { m with known := S.learn m.known op }), [])).1.verdict.disruptive = true := by
        intro e
        have e := h4 e
        split
        · exact e
        · split
          · exact e
          · exact firm_walk _ _ _ e
      have hl : (if q ≤ m.phase then (({ m with known := S.learn m.known op } : Mach K), ([] : List Intervention))
          else if m.aborted = true then (goto q { m with known := S.learn m.known op }, [])
          else (walk S q 0 false (cs.filter fun c => chainPhase c = q) (goto q { m with known := S.learn m.known op }), [])).1.known = S.learn m.known op ∧
        (if q ≤ m.phase then (({ m with known := S.learn m.known op } : Mach K), ([] : List Intervention))
          else if m.aborted = true then (goto q { m with known := S.learn m.known op }, [])
          else (walk S q 0 false (cs.filter fun c => chainPhase c = q) (goto q { m with known := S.learn m.known op }), [])).1.aborted = m.aborted := by
        split
        · exact ⟨rfl, rfl⟩
        · split
          · exact ⟨rfl, rfl⟩
          · exact kept_walk (S := S) _ _ _ _
      by_cases g2 : q ≤ m'.phase
      · rw [if_pos g2]
        exact ⟨hk.trans hl.1.symm, h2.trans hl.2.symm, .inr h6, hd⟩
      · rw [if_neg g2]
        have he : (ds.filter fun c => chainPhase c = q) = [] := by
          rw [List.filter_eq_nil_iff]
          intro c hcm
          have := h5 c hcm
          simp only [decide_eq_true_eq]
          omega
        rw [he]
        simp only [walk, ite_self]
        exact ⟨hk.trans hl.1.symm, h2.trans hl.2.symm, .inr (by show 6 ≤ max 0 (min q 7); omega), hd⟩
    · have h3 := h3.resolve_right h6
      by_cases g1 : q ≤ m.phase
      · rw [if_pos g1, if_pos (show q ≤ m'.phase by omega)]
        exact .inr ⟨hk, h2, .inl h3, h4⟩
      · rw [if_neg g1, if_neg (show ¬ q ≤ m'.phase by omega)]
        by_cases g3 : m.aborted = true
        · rw [if_pos g3, if_pos (h2.trans g3)]
          exact .inr ⟨hk, h2, .inl rfl, h4⟩
        · rw [if_neg g3, if_neg (fun e => g3 (h2.symm.trans e))]
          have hb : Beside (goto q { m' with known := S.learn m'.known op }) (goto q { m with known := S.learn m.known op }) := ⟨hk.symm, h2.symm, rfl, h4⟩
          by_cases he : (ds.filter fun c => chainPhase c = q) = []
          · have he' : (cs.filter fun c => chainPhase c = q) = [] := by
              rw [List.filter_eq_nil_iff] at he ⊢
              exact fun c hcm => he c (h.mem c hcm)
            rw [he, he']
            simp only [walk]
            exact .inr ⟨hk, h2, .inl rfl, h4⟩
          · obtain ⟨c, hcm⟩ := List.exists_mem_of_ne_nil _ he
            obtain ⟨c1, c2⟩ := List.mem_filter.1 hcm
            have := h5 c c1
            have c2 : chainPhase c = q := by simpa using c2
            refine pastAll_walk (h.filter _) (fun c hcm => hc c (List.mem_filter.1 hcm).1) 0 0 hb ?_
            show max 0 (min q 7) = q
            omega
  | none =>
    right
    cases op <;> simp only [phaseOf, reduceCtorEq] at hq <;> simp only [call, phaseOf]
    case result =>
      rw [h2]
      split
      · exact ⟨hk, rfl, h3, h4⟩
      · exact ⟨hk, rfl, h3, id⟩
    case intervention => exact ⟨hk, h2, h3, h4⟩
    case resetIntervention => exact ⟨hk, h2, h3, id⟩
    case abortWithStatus => exact ⟨hk, rfl, h3, id⟩
    case abortWithError => exact ⟨hk, rfl, h3, id⟩
    case jumpToPhase i => exact ⟨hk, h2, .inl rfl, h4⟩
    case nextPhase =>
      refine ⟨hk, h2, ?_, h4⟩
      show max 0 (min (m'.phase + 1) 7) = max 0 (min (m.phase + 1) 7) ∨ 6 ≤ max 0 (min (m'.phase + 1) 7)
      omega
    all_goals exact ⟨hk, h2, h3, h4⟩

theorem pastAll_run {cs ds : List (List PRule)} (h : AddsOnly Excusing cs ds) (hc : ∀ c ∈ cs, ∀ p ∈ c, ∀ a ∈ p.acts.action, a.tk ≠ .skip)
    (h5 : ∀ c ∈ ds, 0 ≤ chainPhase c ∧ chainPhase c ≤ 5) : ∀ (ops : List Op), (∀ op ∈ ops, op ≠ .resetIntervention) → ∀ {m m' : Mach K},
    (m.verdict.disruptive = true ∨ PastAll m m') → RefusesAsSoon (Spec.run S ds m' ops).2 (Spec.run S cs m ops).2
  | [], _, _, _, _ => .nil
  | op :: ops, hr, m, m', hm => by
    have ih := fun {m m'} => pastAll_run h hc h5 ops (fun o ho => hr o (List.mem_cons_of_mem _ ho)) (m := m) (m' := m')
    simp only [Spec.run]
    rcases call_shows (S := S) cs ds op m m' with ⟨e1, e2⟩ | ⟨e0, e1, e2⟩
    · rw [e1, e2]
      rcases hm with hd | hb
      · exact .now _ hd _ _
      · by_cases hd : m.verdict.disruptive = true
        · exact .now _ hd _ _
        · refine .later (ih (pastAll_call h hc h5 op hb)) ?_ _
          cases hv : m'.verdict.disruptive with
          | true => exact absurd (hb.verdict hv) hd
          | false => rfl
    · rw [e1, e2]
      refine ih ?_
      rcases hm with hd | hb
      · exact .inl (firm_call cs (hr op List.mem_cons_self) e0 hd)
      · exact pastAll_call h hc h5 op hb

end

theorem Spec.AddsOnly.noReturn {cs ds : List (List PRule)} (h : AddsOnly Excusing cs ds) (hr : NoReturn cs) : NoReturn ds := by
  intro c hc h4 p hp a ha e hu
  rcases h.either c hc with h' | h'
  · exact hr c h' h4 p hp a ha e hu
  · have := ((h' p hp a ha).2.2 e).unique hu
    cases this

/-! ### C140 -/

/-- C140 if the old rules neither skip nor allow, and no rule reads a body; the new ones may allow
everything, the phase, or the request (that not in response phases).  Missing: old rules that
allow, see `C140_first_refusal_partial`; that skip, see `C140_refuted`; bodies, see below. -/
theorem C140_allowing_partial {lib : Lib} {vo : VarOrd} {ord : IterOrd} {text text' : Bytes} {dirs dirs' : List PDir} (ht : Program text dirs)
    (ht' : Program text' dirs') (hok : ∀ d ∈ dirs, DirOk lib d) (hok' : ∀ d ∈ dirs', DirOk lib d) (h : AddsOnly Gentle (chainsOf (rulesIn dirs)) (chainsOf (rulesIn dirs')))
    (hv : ∀ p ∈ rulesIn dirs', ∀ v ∈ p.vars, readsBody v.tk = false)
    (hs : StrictRules (chainsOf (rulesIn dirs))) (hret : NoReturn (chainsOf (rulesIn dirs'))) (ops : List Op) :
    BothShow (Pairs fun v v' => v'.disruptive = true → v.disruptive = true) lib vo ord text text' (enough dirs dirs') ops := by
  have hv0 : ∀ p ∈ rulesIn dirs, ∀ v ∈ p.vars, readsBody v.tk = false := by
    intro p hp
    obtain ⟨c, h1, h2⟩ := in_chain hp
    exact hv p (mem_chainsOf (h.mem c h1) h2)
  obtain ⟨set, h1, h2⟩ := C87_machine (vo := vo) (ord := ord) ht hok hv0 (strict_noReturn hs)
  obtain ⟨set', h1', h2'⟩ := C87_machine (vo := vo) (ord := ord) ht' hok' hv hret
  refine ⟨set, set', h1, h1', fun n hn => ?_⟩
  obtain ⟨t, os, tr, g1, g2⟩ := h2 ops n (by simp only [enough] at hn; omega)
  obtain ⟨t', os', tr', g1', g2'⟩ := h2' ops n (by simp only [enough] at hn; omega)
  refine ⟨t, t', os, os', tr, tr', g1, g1', ?_⟩
  rw [g2, g2']
  exact furtherOn_run h hs hret (fun c h => ⟨chain_low ht' h, chain_five ht' h⟩) ops ⟨rfl, rfl, Int.le_refl _, Int.le_refl _, id⟩

/-- The same with bodies of up to 131072 bytes, if rules read arguments from the body only
once the form is settled, and well-formed.  Missing: larger bodies, malformed forms. -/
theorem C140_bodies_partial {lib : Lib} {vo : VarOrd} {ord : IterOrd} {text text' : Bytes} {dirs dirs' : List PDir} (ht : Program text dirs)
    (ht' : Program text' dirs') (hok : ∀ d ∈ dirs, DirOk lib d) (hok' : ∀ d ∈ dirs', DirOk lib d) (hsw : switches dirs = switches dirs')
    (h : AddsOnly Gentle (chainsOf (rulesIn dirs)) (chainsOf (rulesIn dirs'))) (hs : StrictRules (chainsOf (rulesIn dirs))) (hret : NoReturn (chainsOf (rulesIn dirs')))
    {ops : List Op} {q : Int} (hsize : (sent false ops).length ≤ 131072)
    (hform : ∀ c ∈ chainsOf (rulesIn dirs'), 1 ≤ chainPhase c → (∃ p ∈ c, ∃ v ∈ p.vars, readsArgs v.tk = true) → q ≤ chainPhase c ∧ FormSettled lib q ops) :
    BothShow (Pairs fun v v' => v'.disruptive = true → v.disruptive = true) lib vo ord text text' (enough dirs dirs') ops := by
  obtain ⟨set, h1, h2⟩ := C88_machine (vo := vo) (ord := ord) ht hok (strict_noReturn hs)
  obtain ⟨set', h1', h2'⟩ := C88_machine (vo := vo) (ord := ord) ht' hok' hret
  refine ⟨set, set', h1, h1', fun n hn => ?_⟩
  obtain ⟨t, os, tr, g1, g2⟩ := h2 (q := q) hsize (fun c hc => hform c (h.mem c hc)) n (by simp only [enough] at hn; omega)
  obtain ⟨t', os', tr', g1', g2'⟩ := h2' hsize hform n (by simp only [enough] at hn; omega)
  refine ⟨t, t', os, os', tr, tr', g1, g1', ?_⟩
  obtain ⟨e1, e2⟩ := switches_access hsw
  rw [g2, g2', ← e1, ← e2]
  exact furtherOn_run h hs hret (fun c h => ⟨chain_low ht' h, chain_five ht' h⟩) ops ⟨rfl, rfl, Int.le_refl _, Int.le_refl _, id⟩

/-- The same with a multipart form. -/
theorem C140_multipart_partial {lib : Lib} (hm : lib.ReadsMedia) (hl : lib.ReadsForms) {vo : VarOrd} {ord : IterOrd} {text text' : Bytes} {dirs dirs' : List PDir}
    (ht : Program text dirs) (ht' : Program text' dirs') (hok : ∀ d ∈ dirs, DirOk lib d) (hok' : ∀ d ∈ dirs', DirOk lib d) (hsw : switches dirs = switches dirs')
    (h : AddsOnly Gentle (chainsOf (rulesIn dirs)) (chainsOf (rulesIn dirs'))) (hs : StrictRules (chainsOf (rulesIn dirs))) (hret : NoReturn (chainsOf (rulesIn dirs')))
    {ops : List Op} {q : Int} {bnd : Bytes} {ps : List (Option Bytes × Bytes)} (hf : ReadsSentForm (chainsOf (rulesIn dirs')) q bnd ps ops) :
    BothShow (Pairs fun v v' => v'.disruptive = true → v.disruptive = true) lib vo ord text text' (enough dirs dirs') ops := by
  obtain ⟨set, h1, h2⟩ := C133_machine hm hl (vo := vo) (ord := ord) ht hok (strict_noReturn hs)
  obtain ⟨set', h1', h2'⟩ := C133_machine hm hl (vo := vo) (ord := ord) ht' hok' hret
  refine ⟨set, set', h1, h1', fun n hn => ?_⟩
  obtain ⟨t, os, tr, g1, g2⟩ := h2 (q := q) hf.size (fun c hc => hf.form c (h.mem c hc)) n (by simp only [enough] at hn; omega)
  obtain ⟨t', os', tr', g1', g2'⟩ := h2' hf.size hf.form n (by simp only [enough] at hn; omega)
  refine ⟨t, t', os, os', tr, tr', g1, g1', ?_⟩
  obtain ⟨e1, e2⟩ := switches_access hsw
  rw [g2, g2', ← e1, ← e2]
  exact furtherOn_run h hs hret (fun c h => ⟨chain_low ht' h, chain_five ht' h⟩) ops ⟨rfl, rfl, Int.le_refl _, Int.le_refl _, id⟩

/-- Whatever the old rules allow: what is refused with the new rules, which allow everything if
they allow, is refused without, and no later; if the old ones do not skip, no rule reads a body,
and the host does not reset a verdict it has not looked at. -/
theorem C140_first_refusal_partial {lib : Lib} {vo : VarOrd} {ord : IterOrd} {text text' : Bytes} {dirs dirs' : List PDir}
    (ht : Program text dirs) (ht' : Program text' dirs') (hok : ∀ d ∈ dirs, DirOk lib d) (hok' : ∀ d ∈ dirs', DirOk lib d)
    (hadd : AddsOnly Excusing (chainsOf (rulesIn dirs)) (chainsOf (rulesIn dirs'))) (hv : ∀ p ∈ rulesIn dirs', ∀ v ∈ p.vars, readsBody v.tk = false)
    (hc : ∀ p ∈ rulesIn dirs, ∀ a ∈ p.acts.action, a.tk ≠ .skip) (hret : NoReturn (chainsOf (rulesIn dirs))) {ops : List Op} (hr : ∀ op ∈ ops, op ≠ .resetIntervention) :
    BothShow (fun vs vs' => RefusesAsSoon vs' vs) lib vo ord text text' (enough dirs dirs') ops := by
  have hc0 : ∀ c ∈ chainsOf (rulesIn dirs), ∀ p ∈ c, ∀ a ∈ p.acts.action, a.tk ≠ .skip := fun c h p hp => hc p (mem_chainsOf h hp)
  have hv0 : ∀ p ∈ rulesIn dirs, ∀ v ∈ p.vars, readsBody v.tk = false := by
    intro p hp
    obtain ⟨c, h1, h2⟩ := in_chain hp
    exact hv p (mem_chainsOf (hadd.mem c h1) h2)
  obtain ⟨set, h1, h2⟩ := C87_machine (vo := vo) (ord := ord) ht hok hv0 hret
  obtain ⟨set', h1', h2'⟩ := C87_machine (vo := vo) (ord := ord) ht' hok' hv (hadd.noReturn hret)
  refine ⟨set, set', h1, h1', fun n hn => ?_⟩
  obtain ⟨t, os, tr, g1, g2⟩ := h2 ops n (by simp only [enough] at hn; omega)
  obtain ⟨t', os', tr', g1', g2'⟩ := h2' ops n (by simp only [enough] at hn; omega)
  refine ⟨t, t', os, os', tr, tr', g1, g1', ?_⟩
  show RefusesAsSoon (shown os') (shown os)
  rw [g2, g2']
  exact pastAll_run hadd hc0 (fun c h => ⟨chain_low ht' h, chain_five ht' h⟩) ops hr (.inr ⟨rfl, rfl, .inl rfl, id⟩)

/-- The same with bodies, under the conditions of `C140_bodies_partial`. -/
theorem C140_first_refusal_bodies_partial {lib : Lib} {vo : VarOrd} {ord : IterOrd} {text text' : Bytes} {dirs dirs' : List PDir}
    (ht : Program text dirs) (ht' : Program text' dirs') (hok : ∀ d ∈ dirs, DirOk lib d) (hok' : ∀ d ∈ dirs', DirOk lib d) (hsw : switches dirs = switches dirs')
    (hadd : AddsOnly Excusing (chainsOf (rulesIn dirs)) (chainsOf (rulesIn dirs'))) (hc : ∀ p ∈ rulesIn dirs, ∀ a ∈ p.acts.action, a.tk ≠ .skip)
    (hret : NoReturn (chainsOf (rulesIn dirs))) {ops : List Op} (hr : ∀ op ∈ ops, op ≠ .resetIntervention) {q : Int} (hsize : (sent false ops).length ≤ 131072)
    (hform : ∀ c ∈ chainsOf (rulesIn dirs'), 1 ≤ chainPhase c → (∃ p ∈ c, ∃ v ∈ p.vars, readsArgs v.tk = true) → q ≤ chainPhase c ∧ FormSettled lib q ops) :
    BothShow (fun vs vs' => RefusesAsSoon vs' vs) lib vo ord text text' (enough dirs dirs') ops := by
  have hc0 : ∀ c ∈ chainsOf (rulesIn dirs), ∀ p ∈ c, ∀ a ∈ p.acts.action, a.tk ≠ .skip := fun c h p hp => hc p (mem_chainsOf h hp)
  obtain ⟨set, h1, h2⟩ := C88_machine (vo := vo) (ord := ord) ht hok hret
  obtain ⟨set', h1', h2'⟩ := C88_machine (vo := vo) (ord := ord) ht' hok' (hadd.noReturn hret)
  refine ⟨set, set', h1, h1', fun n hn => ?_⟩
  obtain ⟨t, os, tr, g1, g2⟩ := h2 (q := q) hsize (fun c h => hform c (hadd.mem c h)) n (by simp only [enough] at hn; omega)
  obtain ⟨t', os', tr', g1', g2'⟩ := h2' hsize hform n (by simp only [enough] at hn; omega)
  refine ⟨t, t', os, os', tr, tr', g1, g1', ?_⟩
  obtain ⟨e1, e2⟩ := switches_access hsw
  show RefusesAsSoon (shown os') (shown os)
  rw [g2, g2', ← e1, ← e2]
  exact pastAll_run hadd hc0 (fun c h => ⟨chain_low ht' h, chain_five ht' h⟩) ops hr (.inr ⟨rfl, rfl, .inl rfl, id⟩)

/-- The same with a multipart form. -/
theorem C140_first_refusal_multipart_partial {lib : Lib} (hm : lib.ReadsMedia) (hl : lib.ReadsForms) {vo : VarOrd} {ord : IterOrd} {text text' : Bytes} {dirs dirs' : List PDir}
    (ht : Program text dirs) (ht' : Program text' dirs') (hok : ∀ d ∈ dirs, DirOk lib d) (hok' : ∀ d ∈ dirs', DirOk lib d) (hsw : switches dirs = switches dirs')
    (hadd : AddsOnly Excusing (chainsOf (rulesIn dirs)) (chainsOf (rulesIn dirs'))) (hc : ∀ p ∈ rulesIn dirs, ∀ a ∈ p.acts.action, a.tk ≠ .skip)
    (hret : NoReturn (chainsOf (rulesIn dirs))) {ops : List Op} (hr : ∀ op ∈ ops, op ≠ .resetIntervention)
    {q : Int} {bnd : Bytes} {ps : List (Option Bytes × Bytes)} (hf : ReadsSentForm (chainsOf (rulesIn dirs')) q bnd ps ops) :
    BothShow (fun vs vs' => RefusesAsSoon vs' vs) lib vo ord text text' (enough dirs dirs') ops := by
  have hc0 : ∀ c ∈ chainsOf (rulesIn dirs), ∀ p ∈ c, ∀ a ∈ p.acts.action, a.tk ≠ .skip := fun c h p hp => hc p (mem_chainsOf h hp)
  obtain ⟨set, h1, h2⟩ := C133_machine hm hl (vo := vo) (ord := ord) ht hok hret
  obtain ⟨set', h1', h2'⟩ := C133_machine hm hl (vo := vo) (ord := ord) ht' hok' (hadd.noReturn hret)
  refine ⟨set, set', h1, h1', fun n hn => ?_⟩
  obtain ⟨t, os, tr, g1, g2⟩ := h2 (q := q) hf.size (fun c h => hf.form c (hadd.mem c h)) n (by simp only [enough] at hn; omega)
  obtain ⟨t', os', tr', g1', g2'⟩ := h2' hf.size hf.form n (by simp only [enough] at hn; omega)
  refine ⟨t, t', os, os', tr, tr', g1, g1', ?_⟩
  obtain ⟨e1, e2⟩ := switches_access hsw
  show RefusesAsSoon (shown os') (shown os)
  rw [g2, g2', ← e1, ← e2]
  exact pastAll_run hadd hc0 (fun c h => ⟨chain_low ht' h, chain_five ht' h⟩) ops hr (.inr ⟨rfl, rfl, .inl rfl, id⟩)

/-! ### Concrete cases -/

/-- A rule on the method, in a phase, with one action. -/
def Sample.when (ph : Int) (meth : Bytes) (a : PAct) : PRule where
  vars := [theMethod]
  op := { tk := .rx, arg := meth }
  acts := { id := 1, phase := ph, action := [a] }

theorem Sample.when_ok {lib : Lib} {ph : Int} {meth : Bytes} {a : PAct} (hrx : ∃ f, lib.rx meth = some f) (ha : ActOk a) : DirOk lib (.rule (when ph meth a)) where
  vars := by
    intro w hw
    rw [List.mem_singleton.1 hw]
    exact ⟨by decide, fun _ re hre => absurd ⟨re, hre⟩ (notRegex rfl)⟩
  op := hrx.elim fun _ hf => ⟨_, .rx rfl hf⟩
  acts := by intro b hb; rw [List.mem_singleton.1 hb]; exact ha

theorem Sample.allow_ok : ActOk ⟨.allow, []⟩ ∧ ActOk ⟨.allow, b!"phase"⟩ :=
  ⟨.inl ⟨.allow _, .allow ((trimQuote_iff [] []).1 (by decide))⟩, .inl ⟨.allow _, .allow ((trimQuote_iff b!"phase" b!"phase").1 (by decide))⟩⟩

theorem Sample.allow_all : Unquoted ([] : Bytes) [] := (trimQuote_iff _ _).1 (by decide)

theorem Sample.not_request {a : PAct} (h : a ∈ [(⟨.allow, []⟩ : PAct), ⟨.allow, b!"phase"⟩, ⟨.deny, []⟩]) : ¬ Unquoted a.arg b!"request" := by
  simp only [List.mem_cons, List.not_mem_nil, or_false] at h
  rcases h with rfl | rfl | rfl
  · exact fun h' => absurd (allow_all.unique h') (by decide)
  · exact fun h' => absurd (((trimQuote_iff b!"phase" b!"phase").1 (by decide)).unique h') (by decide)
  · exact fun h' => absurd (allow_all.unique h') (by decide)

/-- Three rules on POST: refused, allowed, refused, in three phases; and one on PUT which logs. -/
def Sample.waver (between : Bytes) : Bytes :=
  b!"SecRule REQUEST_METHOD \"@rx POST\" \"id:1,phase:2,deny\"\n" ++ between ++
  b!"SecRule REQUEST_METHOD \"@rx POST\" \"id:1,phase:3,allow\"\nSecRule REQUEST_METHOD \"@rx POST\" \"id:1,phase:4,deny\"\n"

def Sample.ignoreOps : List Op :=
  [.processRequestURL none b!"POST" [], .processRequestHeader none, .processRequestBody, .result, .processResponseHeaders 200 [] none, .result]

/-- A refusal ends a phase at its first rule.  A host that goes on after it without a look at the
verdict is, with a rule before the one that allows, refused again. -/
theorem C140_refuted : ¬ C140_statement := by
  intro h
  have p1 : Program (waver []) [.rule (when 2 b!"POST" ⟨.deny, []⟩), .rule (when 3 b!"POST" ⟨.allow, []⟩), .rule (when 4 b!"POST" ⟨.deny, []⟩)] :=
    (C53_exact id _ _).1 (by decide +kernel)
  have p2 : Program (waver b!"SecRule REQUEST_METHOD \"@rx PUT\" \"id:1,phase:3,log\"\n")
    [.rule (when 2 b!"POST" ⟨.deny, []⟩), .rule (when 3 b!"PUT" ⟨.log, []⟩), .rule (when 3 b!"POST" ⟨.allow, []⟩), .rule (when 4 b!"POST" ⟨.deny, []⟩)] :=
    (C53_exact id _ _).1 (by decide +kernel)
  obtain ⟨set, t, os, tr, a1, a2, a3⟩ := textVerdicts_run (lib := lib) (text := waver []) (n := 9) (ops := ignoreOps) (a := [true, false]) (by decide +kernel)
  obtain ⟨set', t', os', tr', b1, b2, b3⟩ := textVerdicts_run (lib := lib) (text := waver b!"SecRule REQUEST_METHOD \"@rx PUT\" \"id:1,phase:3,log\"\n") (n := 9)
    (ops := ignoreOps) (a := [true, true]) (by decide +kernel)
  have hp := h lib varOrd Sample.ord _ _ _ _ set set' p1 p2 rfl
    (.same (.extra (by intro p hp a ha; rw [List.mem_singleton.1 hp] at ha; rw [List.mem_singleton.1 ha]; exact ⟨nofun, nofun⟩) (.same (.same .nil)))) a1 b1
    _ 9 t t' os os' tr tr' a2 b2
  generalize shown os = l at a3 hp
  generalize shown os' = l' at b3 hp
  cases hp with
  | nil => cases a3
  | cons _ hp =>
    cases hp with
    | nil => simp at a3
    | cons hv _ =>
      simp only [List.map_cons, List.cons.injEq] at a3 b3
      have := hv b3.2.1
      rw [a3.2.1] at this; cases this

/-- Whoever is allowed less may be refused later: `allow:phase` before `allow`. -/
theorem C140_allow_less :
    textVerdicts lib b!"SecRule REQUEST_METHOD \"@rx POST\" \"id:1,phase:2,allow\"\nSecRule REQUEST_METHOD \"@rx POST\" \"id:1,phase:4,deny\"\n" 9 goOnOps =
      some [false, false] ∧
    textVerdicts lib b!"SecRule REQUEST_METHOD \"@rx POST\" \"id:1,phase:2,allow:phase\"\nSecRule REQUEST_METHOD \"@rx POST\" \"id:1,phase:2,allow\"\nSecRule REQUEST_METHOD \"@rx POST\" \"id:1,phase:4,deny\"\n" 9 goOnOps =
      some [false, true] := by
  decide +kernel

/-- POST is refused in three phases, but allowed for one of them. -/
example (ops : List Op) : BothShow (Pairs fun v v' => v'.disruptive = true → v.disruptive = true) lib varOrd Sample.ord
    b!"SecRule REQUEST_METHOD \"@rx POST\" \"id:1,phase:2,deny\"\nSecRule REQUEST_METHOD \"@rx POST\" \"id:1,phase:3,deny\"\n"
    b!"SecRule REQUEST_METHOD \"@rx POST\" \"id:1,phase:2,allow:phase\"\nSecRule REQUEST_METHOD \"@rx POST\" \"id:1,phase:2,deny\"\nSecRule REQUEST_METHOD \"@rx POST\" \"id:1,phase:3,deny\"\n"
    5 ops := by
  have hall : ∀ p ∈ [when 2 b!"POST" ⟨.allow, b!"phase"⟩, when 2 b!"POST" ⟨.deny, []⟩, when 3 b!"POST" ⟨.deny, []⟩],
      DirOk lib (.rule p) ∧ (∀ v ∈ p.vars, readsBody v.tk = false) ∧ ∀ a ∈ p.acts.action, ¬ Unquoted a.arg b!"request" := by
    intro p hp
    simp only [List.mem_cons, List.not_mem_nil, or_false] at hp
    rcases hp with rfl | rfl | rfl
    · exact ⟨when_ok ⟨_, rfl⟩ allow_ok.2, fun v hv => by rw [List.mem_singleton.1 hv]; rfl, fun a ha => not_request (by rw [List.mem_singleton.1 ha]; simp)⟩
    · exact ⟨when_ok ⟨_, rfl⟩ (.inl ⟨_, .deny⟩), fun v hv => by rw [List.mem_singleton.1 hv]; rfl, fun a ha => not_request (by rw [List.mem_singleton.1 ha]; simp)⟩
    · exact ⟨when_ok ⟨_, rfl⟩ (.inl ⟨_, .deny⟩), fun v hv => by rw [List.mem_singleton.1 hv]; rfl, fun a ha => not_request (by rw [List.mem_singleton.1 ha]; simp)⟩
  refine C140_allowing_partial (dirs := [when 2 b!"POST" ⟨.deny, []⟩, when 3 b!"POST" ⟨.deny, []⟩].map .rule)
    (dirs' := [when 2 b!"POST" ⟨.allow, b!"phase"⟩, when 2 b!"POST" ⟨.deny, []⟩, when 3 b!"POST" ⟨.deny, []⟩].map .rule)
    ((C53_exact id _ _).1 (by decide +kernel)) ((C53_exact id _ _).1 (by decide +kernel)) ?_ ?_
    (.extra (by intro p hp a ha; rw [List.mem_singleton.1 hp] at ha; rw [List.mem_singleton.1 ha]; exact ⟨nofun, nofun⟩) (.same (.same .nil))) ?_ (denying_strict ?_) ?_ ops
  · intro d hd
    obtain ⟨p, hp, rfl⟩ := List.mem_map.1 hd
    exact (hall p (List.mem_cons_of_mem _ hp)).1
  · intro d hd
    obtain ⟨p, hp, rfl⟩ := List.mem_map.1 hd
    exact (hall p hp).1
  · intro p hp
    exact (hall p hp).2.1
  · intro c hc p hp
    have hc : c ∈ [[when 2 b!"POST" ⟨.deny, []⟩], [when 3 b!"POST" ⟨.deny, []⟩]] := hc
    simp only [List.mem_cons, List.not_mem_nil, or_false] at hc
    rcases hc with rfl | rfl <;> rw [List.mem_singleton.1 hp] <;> rfl
  · intro c hc _ p hp a ha _
    exact (hall p (mem_chainsOf (ps := [when 2 b!"POST" ⟨.allow, b!"phase"⟩, when 2 b!"POST" ⟨.deny, []⟩, when 3 b!"POST" ⟨.deny, []⟩]) hc hp)).2.2 a ha

/-- The text of `C140_refuted` with an exception put before its rules: nothing is refused earlier. -/
example (ops : List Op) (hr : ∀ op ∈ ops, op ≠ .resetIntervention) : BothShow (fun vs vs' => RefusesAsSoon vs' vs) lib varOrd Sample.ord (waver [])
    (b!"SecRule REQUEST_METHOD \"@rx PUT\" \"id:1,phase:2,allow\"\n" ++ waver []) 6 ops := by
  have hall : ∀ p ∈ [when 2 b!"PUT" ⟨.allow, []⟩, when 2 b!"POST" ⟨.deny, []⟩, when 3 b!"POST" ⟨.allow, []⟩, when 4 b!"POST" ⟨.deny, []⟩],
      DirOk lib (.rule p) ∧ (∀ v ∈ p.vars, readsBody v.tk = false) ∧ ∀ a ∈ p.acts.action, a.tk ≠ .skip ∧ ¬ Unquoted a.arg b!"request" := by
    intro p hp
    simp only [List.mem_cons, List.not_mem_nil, or_false] at hp
    have nd : ActOk ⟨.deny, []⟩ := .inl ⟨_, .deny⟩
    rcases hp with rfl | rfl | rfl | rfl
    · exact ⟨when_ok ⟨_, rfl⟩ allow_ok.1, fun v hv => by rw [List.mem_singleton.1 hv]; rfl, fun a ha => by rw [List.mem_singleton.1 ha]; exact ⟨nofun, not_request (by simp)⟩⟩
    · exact ⟨when_ok ⟨_, rfl⟩ nd, fun v hv => by rw [List.mem_singleton.1 hv]; rfl, fun a ha => by rw [List.mem_singleton.1 ha]; exact ⟨nofun, not_request (by simp)⟩⟩
    · exact ⟨when_ok ⟨_, rfl⟩ allow_ok.1, fun v hv => by rw [List.mem_singleton.1 hv]; rfl, fun a ha => by rw [List.mem_singleton.1 ha]; exact ⟨nofun, not_request (by simp)⟩⟩
    · exact ⟨when_ok ⟨_, rfl⟩ nd, fun v hv => by rw [List.mem_singleton.1 hv]; rfl, fun a ha => by rw [List.mem_singleton.1 ha]; exact ⟨nofun, not_request (by simp)⟩⟩
  refine C140_first_refusal_partial (dirs := [when 2 b!"POST" ⟨.deny, []⟩, when 3 b!"POST" ⟨.allow, []⟩, when 4 b!"POST" ⟨.deny, []⟩].map .rule)
    (dirs' := [when 2 b!"PUT" ⟨.allow, []⟩, when 2 b!"POST" ⟨.deny, []⟩, when 3 b!"POST" ⟨.allow, []⟩, when 4 b!"POST" ⟨.deny, []⟩].map .rule)
    ((C53_exact id _ _).1 (by decide +kernel)) ((C53_exact id _ _).1 (by decide +kernel)) ?_ ?_
    (.extra (by intro p hp a ha; rw [List.mem_singleton.1 hp] at ha; rw [List.mem_singleton.1 ha]; exact ⟨nofun, nofun, fun _ => allow_all⟩) (.same (.same (.same .nil))))
    ?_ ?_ ?_ hr
  · intro d hd
    obtain ⟨p, hp, rfl⟩ := List.mem_map.1 hd
    exact (hall p (List.mem_cons_of_mem _ hp)).1
  · intro d hd
    obtain ⟨p, hp, rfl⟩ := List.mem_map.1 hd
    exact (hall p hp).1
  · intro p hp
    exact (hall p hp).2.1
  · intro p hp a ha
    exact ((hall p (List.mem_cons_of_mem _ hp)).2.2 a ha).1
  · intro c hc _ p hp a ha _
    exact ((hall p (List.mem_cons_of_mem _ (mem_chainsOf (ps := [when 2 b!"POST" ⟨.deny, []⟩, when 3 b!"POST" ⟨.allow, []⟩, when 4 b!"POST" ⟨.deny, []⟩]) hc hp))).2.2 a ha).2

/-- A rule on a field of a form, and an exception. -/
def Sample.exceptDirs : List PDir := .reqBody true :: [when 3 b!"evil" ⟨.allow, []⟩, evilIn [named .argsPost b!"a"] false].map .rule

theorem Sample.except_ok {lib : Lib} (hrx : ∃ f, lib.rx b!"evil" = some f) : ∀ d ∈ exceptDirs, DirOk lib d := by
  intro d hd
  rcases List.mem_cons.1 hd with rfl | hd
  · trivial
  rcases List.mem_cons.1 hd with rfl | hd
  · exact when_ok hrx allow_ok.1
  · exact twoFields_ok hrx (rs := [evilIn [named .argsPost b!"a"] false]) (fun p hp => ⟨_, _, .inl rfl, List.mem_singleton.1 hp⟩) d (List.mem_cons_of_mem _ hd)

theorem Sample.except_adds {A : PAct → Prop} (h : A ⟨.allow, []⟩) :
    AddsOnly A (chainsOf (rulesIn (.reqBody true :: [evilIn [named .argsPost b!"a"] false].map .rule))) (chainsOf (rulesIn exceptDirs)) :=
  .extra (by intro p hp a ha; rw [List.mem_singleton.1 hp] at ha; rw [List.mem_singleton.1 ha]; exact h) (.same .nil)

theorem Sample.except_noReturn : NoReturn (chainsOf (rulesIn exceptDirs)) := by
  intro c hc _ p hp a ha _
  have hc : c ∈ [[when 3 b!"evil" ⟨.allow, []⟩], [evilIn [named .argsPost b!"a"] false]] := hc
  simp only [List.mem_cons, List.not_mem_nil, or_false] at hc
  rcases hc with rfl | rfl <;> rw [List.mem_singleton.1 hp] at ha <;> rw [List.mem_singleton.1 ha] <;> exact not_request (by simp)

theorem Sample.field_acts : ∀ p ∈ rulesIn (.reqBody true :: [evilIn [named .argsPost b!"a"] false].map .rule), ∀ a ∈ p.acts.action, a = ⟨.deny, []⟩ := by
  intro p hp a ha
  have hp : p ∈ [evilIn [named .argsPost b!"a"] false] := hp
  rw [List.mem_singleton.1 hp] at ha
  exact List.mem_singleton.1 ha

/-- A urlencoded form with anything in it. -/
example (x y : Bytes) (hsize : x.length + y.length ≤ 131072) :
    BothShow (Pairs fun v v' => v'.disruptive = true → v.disruptive = true) lib varOrd Sample.ord
      b!"SecRequestBodyAccess On\nSecRule ARGS_POST:a \"@rx evil\" \"id:1,phase:3,deny\"\n"
      b!"SecRequestBodyAccess On\nSecRule REQUEST_METHOD \"@rx evil\" \"id:1,phase:3,allow\"\nSecRule ARGS_POST:a \"@rx evil\" \"id:1,phase:3,deny\"\n" 4 (formOps x y ++ [.result]) ∧
    BothShow (fun vs vs' => RefusesAsSoon vs' vs) lib varOrd Sample.ord
      b!"SecRequestBodyAccess On\nSecRule ARGS_POST:a \"@rx evil\" \"id:1,phase:3,deny\"\n"
      b!"SecRequestBodyAccess On\nSecRule REQUEST_METHOD \"@rx evil\" \"id:1,phase:3,allow\"\nSecRule ARGS_POST:a \"@rx evil\" \"id:1,phase:3,deny\"\n" 4 (formOps x y ++ [.result]) := by
  have hform : ∀ c ∈ chainsOf (rulesIn exceptDirs), 1 ≤ chainPhase c → (∃ p ∈ c, ∃ v ∈ p.vars, readsArgs v.tk = true) →
      (3 : Int) ≤ chainPhase c ∧ FormSettled lib 3 (formOps x y ++ [.result]) := by
    intro c hc _ _
    have hc : c ∈ [[when 3 b!"evil" ⟨.allow, []⟩], [evilIn [named .argsPost b!"a"] false]] := hc
    simp only [List.mem_cons, List.not_mem_nil, or_false] at hc
    rcases hc with rfl | rfl <;> exact ⟨by show (3 : Int) ≤ 3; omega, (formOps_settled x y).result⟩
  have hok : ∀ d ∈ .reqBody true :: [evilIn [named .argsPost b!"a"] false].map .rule, DirOk lib d :=
    twoFields_ok ⟨_, rfl⟩ fun p hp => ⟨_, _, .inl rfl, List.mem_singleton.1 hp⟩
  have hstrict : StrictRules (chainsOf (rulesIn (.reqBody true :: [evilIn [named .argsPost b!"a"] false].map .rule))) :=
    fun c hc p hp a ha => by rw [field_acts p (mem_chainsOf hc hp) a ha]; exact ⟨nofun, nofun⟩
  refine ⟨C140_bodies_partial (q := 3) (dirs' := exceptDirs) ((C53_exact id _ _).1 (by decide +kernel)) ((C53_exact id _ _).1 (by decide +kernel)) hok (except_ok ⟨_, rfl⟩) rfl
      (except_adds ⟨nofun, nofun⟩) hstrict except_noReturn (by simpa [formOps, sent, chunkOf] using hsize) hform,
    C140_first_refusal_bodies_partial (q := 3) (dirs' := exceptDirs) ((C53_exact id _ _).1 (by decide +kernel)) ((C53_exact id _ _).1 (by decide +kernel)) hok (except_ok ⟨_, rfl⟩) rfl
      (except_adds ⟨nofun, nofun, fun _ => allow_all⟩) (fun p hp a ha => by rw [field_acts p hp a ha]; nofun) (strict_noReturn hstrict) ?_
      (by simpa [formOps, sent, chunkOf] using hsize) hform⟩
  intro op ho
  simp only [formOps, List.cons_append, List.nil_append, List.mem_cons, List.not_mem_nil, or_false] at ho
  rcases ho with rfl | rfl | rfl | rfl | rfl | rfl | rfl <;> nofun

/-- A multipart form with anything in its field. -/
example {x y v : Bytes} (hxy : x ++ y = sentBody v) (h : 13 ∉ v) (hd : v.head? ≠ some 45) (hlen : (sentBody v).length ≤ 4096) :
    BothShow (Pairs fun v v' => v'.disruptive = true → v.disruptive = true) formLib varOrd Sample.ord
      b!"SecRequestBodyAccess On\nSecRule ARGS_POST:a \"@rx evil\" \"id:1,phase:3,deny\"\n"
      b!"SecRequestBodyAccess On\nSecRule REQUEST_METHOD \"@rx evil\" \"id:1,phase:3,allow\"\nSecRule ARGS_POST:a \"@rx evil\" \"id:1,phase:3,deny\"\n" 4 (sentOps x y ++ [.result]) ∧
    BothShow (fun vs vs' => RefusesAsSoon vs' vs) formLib varOrd Sample.ord
      b!"SecRequestBodyAccess On\nSecRule ARGS_POST:a \"@rx evil\" \"id:1,phase:3,deny\"\n"
      b!"SecRequestBodyAccess On\nSecRule REQUEST_METHOD \"@rx evil\" \"id:1,phase:3,allow\"\nSecRule ARGS_POST:a \"@rx evil\" \"id:1,phase:3,deny\"\n" 4 (sentOps x y ++ [.result]) := by
  have hf : ReadsSentForm (chainsOf (rulesIn exceptDirs)) 3 b!"foo" [(some b!"a", v), (none, b!"evil")] (sentOps x y ++ [.result]) :=
    ⟨(evil_reads (cs := []) nofun hxy h hd hlen).size, by
      intro c hc _ _
      have hc : c ∈ [[when 3 b!"evil" ⟨.allow, []⟩], [evilIn [named .argsPost b!"a"] false]] := hc
      simp only [List.mem_cons, List.not_mem_nil, or_false] at hc
      rcases hc with rfl | rfl <;> exact ⟨by show (3 : Int) ≤ 3; omega, (sentOps_sent hxy h hd hlen).result⟩⟩
  have hok : ∀ d ∈ .reqBody true :: [evilIn [named .argsPost b!"a"] false].map .rule, DirOk formLib d :=
    twoFields_ok ⟨_, rfl⟩ fun p hp => ⟨_, _, .inl rfl, List.mem_singleton.1 hp⟩
  have hstrict : StrictRules (chainsOf (rulesIn (.reqBody true :: [evilIn [named .argsPost b!"a"] false].map .rule))) :=
    fun c hc p hp a ha => by rw [field_acts p (mem_chainsOf hc hp) a ha]; exact ⟨nofun, nofun⟩
  refine ⟨C140_multipart_partial formEnv_media formLib_reads (dirs' := exceptDirs) ((C53_exact id _ _).1 (by decide +kernel)) ((C53_exact id _ _).1 (by decide +kernel)) hok
      (except_ok ⟨_, rfl⟩) rfl (except_adds ⟨nofun, nofun⟩) hstrict except_noReturn hf,
    C140_first_refusal_multipart_partial formEnv_media formLib_reads (dirs' := exceptDirs) ((C53_exact id _ _).1 (by decide +kernel)) ((C53_exact id _ _).1 (by decide +kernel)) hok
      (except_ok ⟨_, rfl⟩) rfl (except_adds ⟨nofun, nofun, fun _ => allow_all⟩) (fun p hp a ha => by rw [field_acts p hp a ha]; nofun) (strict_noReturn hstrict) ?_ hf⟩
  intro op ho
  simp only [sentOps, List.cons_append, List.nil_append, List.mem_cons, List.not_mem_nil, or_false] at ho
  rcases ho with rfl | rfl | rfl | rfl | rfl | rfl | rfl <;> nofun

end Verif
