import Verif.Props.Policy
import Verif.Props.Media
/-! C112: more rules never let more through. -/
namespace Verif
open Sample Spec

/-! ### The claim -/

/-- An action that neither skips nor allows. -/
def Spec.Strict (a : PAct) : Prop := a.tk ≠ .skip ∧ a.tk ≠ .allow

/-- `ds` is `cs` with chains added anywhere, none of which skips or allows. -/
inductive Spec.Adds : List (List PRule) → List (List PRule) → Prop
  | nil : Adds [] []
  | same {c : List PRule} {cs ds : List (List PRule)} : Adds cs ds → Adds (c :: cs) (c :: ds)
  | extra {c : List PRule} {cs ds : List (List PRule)} : (∀ p ∈ c, ∀ a ∈ p.acts.action, Strict a) → Adds cs ds → Adds cs (c :: ds)

/-- The directives that are not rules. -/
def Spec.switches (dirs : List PDir) : List PDir := dirs.filter fun | .rule _ => false | _ => true

/-- C112: adding rules that neither skip nor allow to a rule text never lets through what was
refused: whatever the calls, each verdict that is disruptive with the shorter text is
disruptive with the longer. -/
def C112_statement : Prop :=
  ∀ (lib : Lib) (vo : VarOrd) (ord : IterOrd) (text text' : Bytes) (dirs dirs' : List PDir) (set set' : DireSet), Program text dirs → Program text' dirs' →
    switches dirs = switches dirs' → Adds (chainsOf (rulesIn dirs)) (chainsOf (rulesIn dirs')) →
    DireSet.addSecLangString lib vo [] text = .ok (set, none) → DireSet.addSecLangString lib vo [] text' = .ok (set', none) →
    ∀ (ops : List Op) (n : Nat) (t t' : Tx) (os os' : List Out) (tr tr' : Trace),
      (set.execute newEngine).newTransaction.steps ((set.execute newEngine).env lib ord) (set.execute newEngine).ruleSet n ops = .ok (t, os, tr) →
      (set'.execute newEngine).newTransaction.steps ((set'.execute newEngine).env lib ord) (set'.execute newEngine).ruleSet n ops = .ok (t', os', tr') →
      Pairs (fun v v' => v.disruptive = true → v'.disruptive = true) (shown os) (shown os')

/-! ### Two machines side by side -/

section
variable {K : Type} {S : Sight K}

/-- The second machine refuses whenever the first does, and has gone as far. -/
structure Beside (m m' : Mach K) : Prop where
  known : m'.known = m.known
  aborted : m'.aborted = m.aborted
  phase : m'.phase = m.phase
  verdict : m.verdict.disruptive = true → m'.verdict.disruptive = true

/-- The same, but the first may have left by `allow`. -/
structure Behind (m m' : Mach K) : Prop where
  known : m'.known = m.known
  aborted : m'.aborted = m.aborted
  phase : m'.phase = m.phase ∨ 6 ≤ m.phase ∧ m'.phase ≤ m.phase
  verdict : m.verdict.disruptive = true → m'.verdict.disruptive = true

theorem Beside.behind {m m' : Mach K} (h : Beside m m') : Behind m m' := ⟨h.known, h.aborted, .inl h.phase, h.verdict⟩

/-- An action that does not skip, and allows everything if it allows. -/
def Spec.Calm (a : PAct) : Prop := a.tk ≠ .skip ∧ (a.tk = .allow → Unquoted a.arg [])

/-- One machine on its way: it goes on refusing, and may leave by `allow`. -/
structure Marching (m m' : Mach K) : Prop where
  known : m'.known = m.known
  aborted : m'.aborted = m.aborted
  phase : m'.phase = m.phase ∨ m'.phase = 6
  verdict : m.verdict.disruptive = true → m'.verdict.disruptive = true

theorem Marching.refl (m : Mach K) : Marching m m := ⟨rfl, rfl, .inl rfl, id⟩

theorem Marching.trans {m m' m'' : Mach K} (h : Marching m m') (h' : Marching m' m'') : Marching m m'' :=
  ⟨h'.known.trans h.known, h'.aborted.trans h.aborted, by
    rcases h'.phase with e | e
    · rw [e]; exact h.phase
    · exact .inr e, fun d => h'.verdict (h.verdict d)⟩

theorem calm_act {a : PAct} (h : Calm a) (m : Mach K) : Marching m (act S m a) := by
  cases hk : a.tk <;> simp only [act, hk] <;> try exact ⟨rfl, rfl, .inl rfl, id⟩
  case deny => exact ⟨rfl, rfl, .inl rfl, fun _ => rfl⟩
  case allow =>
    rw [if_pos (h.2 hk)]
    exact ⟨rfl, rfl, .inr rfl, id⟩

theorem calm_acts : ∀ {as : List PAct}, (∀ a ∈ as, Calm a) → ∀ m : Mach K, Marching m (as.foldl (act S) m)
  | [], _, m => .refl m
  | a :: as, h, m => (calm_act (h a List.mem_cons_self) m).trans (calm_acts (fun b hb => h b (List.mem_cons_of_mem _ hb)) _)

theorem calm_fire : ∀ {c : List PRule}, (∀ p ∈ c, ∀ a ∈ p.acts.action, Calm a) → ∀ m : Mach K, Marching m (fire S m c)
  | [], _, m => .refl m
  | p :: c, h, m =>
    (calm_acts (fun a ha => h p List.mem_cons_self a (mem_inOrder ha)) m).trans (calm_fire (c := c) (fun q hq => h q (List.mem_cons_of_mem _ hq)) _)

theorem calm_walk {q : Int} : ∀ {cs : List (List PRule)}, (∀ c ∈ cs, ∀ p ∈ c, ∀ a ∈ p.acts.action, Calm a) → ∀ (i : Nat) (b : Bool) (m : Mach K),
    Marching m (walk S q i b cs m)
  | [], _, _, _, m => by simp only [walk]; exact .refl m
  | c :: cs, h, i, true, m => by
    simp only [walk]
    exact calm_walk (fun c hc => h c (List.mem_cons_of_mem _ hc)) _ _ _
  | c :: cs, h, i, false, m => by
    have h0 : Marching m { m with rule := (i : Int) } := ⟨rfl, rfl, .inl rfl, id⟩
    have h1 := h0.trans (calm_fire (S := S) (h c List.mem_cons_self) { m with rule := (i : Int) })
    have ih := fun b m => calm_walk (q := q) (cs := cs) (fun c hc => h c (List.mem_cons_of_mem _ hc)) (i + 1) b m
    simp only [walk]
    split
    · split
      · exact h1
      · exact h1.trans (ih _ _)
    · split
      · exact h0
      · exact h0.trans (ih _ _)

theorem beside_act (a : PAct) {m m' : Mach K} (h : Beside m m') : Beside (act S m a) (act S m' a) := by
  obtain ⟨h1, h2, h3, h4⟩ := h
  cases hk : a.tk <;> simp only [act, hk] <;> try exact ⟨h1, h2, h3, h4⟩
  case deny => exact ⟨h1, h2, h3, fun _ => rfl⟩
  case allow =>
    split
    · exact ⟨h1, h2, rfl, h4⟩
    · split
      · exact ⟨h1, h2, by simp only [goto, h3], h4⟩
      · split
        · exact ⟨h1, h2, rfl, h4⟩
        · exact ⟨h1, h2, h3, h4⟩

theorem beside_acts : ∀ (as : List PAct) {m m' : Mach K}, Beside m m' → Beside (as.foldl (act S) m) (as.foldl (act S) m')
  | [], _, _, h => h
  | a :: as, _, _, h => beside_acts as (beside_act a h)

theorem beside_fire : ∀ (c : List PRule) {m m' : Mach K}, Beside m m' → Beside (fire S m c) (fire S m' c)
  | [], _, _, h => h
  | p :: c, _, _, h => beside_fire c (beside_acts _ h)

theorem strict_calm {a : PAct} (h : Strict a) : Calm a := ⟨h.1, fun e => absurd e h.2⟩

theorem strict_act {a : PAct} (h : Strict a) (m : Mach K) : (act S m a).phase = m.phase := by
  cases hk : a.tk <;> simp only [act, hk]
  case allow => exact absurd hk h.2
  all_goals rfl

theorem strict_acts : ∀ {as : List PAct}, (∀ a ∈ as, Strict a) → ∀ m : Mach K, (as.foldl (act S) m).phase = m.phase
  | [], _, _ => rfl
  | a :: as, h, m => (strict_acts (fun b hb => h b (List.mem_cons_of_mem _ hb)) _).trans (strict_act (h a List.mem_cons_self) m)

theorem strict_fire : ∀ {c : List PRule}, (∀ p ∈ c, ∀ a ∈ p.acts.action, Strict a) → ∀ m : Mach K, (fire S m c).phase = m.phase
  | [], _, _ => rfl
  | p :: c, h, m =>
    (strict_fire (c := c) (fun q hq => h q (List.mem_cons_of_mem _ hq)) _).trans (strict_acts (fun a ha => h p List.mem_cons_self a (mem_inOrder ha)) m)

theorem calm_skips {c : List PRule} (h : ∀ p ∈ c, ∀ a ∈ p.acts.action, Calm a) : skips c = false := by
  simp only [skips, List.any_eq_false, Bool.not_eq_true]
  intro p hp a ha
  rw [decide_eq_false_iff_not]
  exact (h p hp a ha).1

/-- The second goes no further, the first goes on. -/
theorem Beside.left {m m' m1 : Mach K} (h : Beside m m') (h1 : Marching m m1) (hm : m.phase ≤ 6) (hd : m'.verdict.disruptive = true) : Behind m1 m' := by
  refine ⟨h.known.trans h1.known.symm, h.aborted.trans h1.aborted.symm, ?_, fun _ => hd⟩
  rcases h1.phase with e | e
  · exact .inl (h.phase.trans e.symm)
  · right; rw [e, h.phase]; exact ⟨Int.le_refl _, hm⟩

theorem behind_walk {q : Int} : ∀ {cs ds : List (List PRule)}, Adds cs ds → (∀ c ∈ cs, ∀ p ∈ c, ∀ a ∈ p.acts.action, Calm a) →
    ∀ (i j : Nat) {m m' : Mach K}, Beside m m' → m.phase = q → q ≤ 6 → Behind (walk S q i false cs m) (walk S q j false ds m') := by
  intro cs ds hcs
  induction hcs with
  | nil => intro _ i j m m' h _ _; simp only [walk]; exact h.behind
  | @same c cs ds _ ih =>
    intro hc i j m m' h hq hm
    have hcs := fun c' h' => hc c' (List.mem_cons_of_mem c h')
    have h0 : Beside { m with rule := (i : Int) } { m' with rule := (j : Int) } := ⟨h.known, h.aborted, h.phase, h.verdict⟩
    rw [h.known] at h0
    have h1 := beside_fire (S := S) c h0
    have hw := fun b m => calm_walk (S := S) (q := q) hcs (i + 1) b m
    simp only [walk]
    rw [h.known]
    split
    · rw [calm_skips (hc c List.mem_cons_self)]
      by_cases hs : (fire S { m with rule := (i : Int) } c).verdict.disruptive = true ∨ (fire S { m with rule := (i : Int) } c).phase ≠ q
      · rw [if_pos hs, if_pos (by rw [h1.phase]; exact hs.imp h1.verdict id)]
        exact h1.behind
      · rw [if_neg hs]
        have hp : (fire S { m with rule := (i : Int) } c).phase = q := Decidable.byContradiction fun e => hs (.inr e)
        split
        · rename_i hs'
          refine h1.left (hw _ _) (hp ▸ hm) ?_
          rcases hs' with hd | hq
          · exact hd
          · rw [h1.phase] at hq; exact absurd hp hq
        · exact ih hcs _ _ h1 hp hm
    · by_cases hs : m.verdict.disruptive = true
      · rw [if_pos hs, if_pos (h.verdict hs)]
        exact h0.behind
      · rw [if_neg hs]
        split
        · rename_i hd
          exact h0.left (hw _ _) (hq ▸ hm) hd
        · exact ih hcs _ _ h0 hq hm
  | @extra c cs ds hx _ ih =>
    intro hc i j m m' h hq hm
    have h0 : Beside m { m' with rule := (j : Int) } := ⟨h.known, h.aborted, h.phase, h.verdict⟩
    have hf := calm_fire (S := S) (fun p hp a ha => strict_calm (hx p hp a ha)) { m' with rule := (j : Int) }
    have h1 : Beside m (fire S { m' with rule := (j : Int) } c) :=
      ⟨hf.known.trans h.known, hf.aborted.trans h.aborted, (strict_fire hx _).trans h.phase, fun d => hf.verdict (h.verdict d)⟩
    have hw := calm_walk (S := S) (q := q) hc i false m
    conv => rhs; simp only [walk]
    split
    · rw [calm_skips (fun p hp a ha => strict_calm (hx p hp a ha))]
      split
      · rename_i hs
        refine h1.left hw (hq ▸ hm) ?_
        rcases hs with hd | hne
        · exact hd
        · exact absurd (h1.phase.trans hq) hne
      · exact ih hc _ _ h1 hq hm
    · split
      · rename_i hd
        exact h0.left hw (hq ▸ hm) hd
      · exact ih hc _ _ h0 hq hm

theorem Spec.Adds.filter (f : List PRule → Bool) {cs ds : List (List PRule)} (h : Adds cs ds) : Adds (cs.filter f) (ds.filter f) := by
  induction h with
  | nil => exact .nil
  | @same c _ _ _ ih =>
    simp only [List.filter_cons]
    split
    · exact .same ih
    · exact ih
  | @extra c _ _ hx _ ih =>
    simp only [List.filter_cons]
    split
    · exact .extra hx ih
    · exact ih

theorem Spec.Adds.mem {cs ds : List (List PRule)} (h : Adds cs ds) : ∀ c ∈ cs, c ∈ ds := by
  induction h with
  | nil => simp
  | same _ ih =>
    intro c hc
    rcases List.mem_cons.1 hc with rfl | hc
    · exact List.mem_cons_self
    · exact List.mem_cons_of_mem _ (ih c hc)
  | extra _ _ ih => intro c hc; exact List.mem_cons_of_mem _ (ih c hc)

/-- The longer list is calm as well. -/
theorem Spec.Adds.calm {cs ds : List (List PRule)} (h : Adds cs ds) (hc : ∀ c ∈ cs, ∀ p ∈ c, ∀ a ∈ p.acts.action, Calm a) :
    ∀ c ∈ ds, ∀ p ∈ c, ∀ a ∈ p.acts.action, Calm a := by
  induction h with
  | nil => exact hc
  | same _ ih =>
    intro c h
    rcases List.mem_cons.1 h with rfl | h
    · exact hc _ List.mem_cons_self
    · exact ih (fun c' h' => hc c' (List.mem_cons_of_mem _ h')) c h
  | extra hx _ ih =>
    intro c h
    rcases List.mem_cons.1 h with rfl | h
    · exact fun p hp a ha => strict_calm (hx p hp a ha)
    · exact ih hc c h

theorem behind_call {cs ds : List (List PRule)} (h : Adds cs ds) (hc : ∀ c ∈ cs, ∀ p ∈ c, ∀ a ∈ p.acts.action, Calm a)
    (h5 : ∀ c ∈ ds, 0 ≤ chainPhase c ∧ chainPhase c ≤ 5) (op : Op) {m m' : Mach K} (hm : Behind m m') :
    Behind (call S cs m op).1 (call S ds m' op).1 ∧
      Pairs (fun v v' => v.disruptive = true → v'.disruptive = true) (call S cs m op).2 (call S ds m' op).2 := by
  obtain ⟨h1, h2, h3, h4⟩ := hm
  have hle : m'.phase ≤ m.phase := by rcases h3 with h3 | h3 <;> omega
  have hk : S.learn m'.known op = S.learn m.known op := by rw [h1]
  cases hq : phaseOf op with
  | some q =>
    simp only [call, hq]
    by_cases g1 : q ≤ m.phase
    · rw [if_pos g1]
      by_cases g2 : q ≤ m'.phase
      · rw [if_pos g2]
        exact ⟨⟨hk, h2, h3, h4⟩, .nil⟩
      · rw [if_neg g2]
        have g3 : 6 ≤ m.phase ∧ m'.phase ≤ m.phase := h3.resolve_left (by omega)
        split
        · exact ⟨⟨hk, h2, .inr ⟨g3.1, by show max 0 (min q 7) ≤ m.phase; omega⟩, h4⟩, .nil⟩
        · have hw := calm_walk (S := S) (q := q) (cs := ds.filter fun c => chainPhase c = q)
            (fun c hcm => h.calm hc c (List.mem_filter.1 hcm).1) 0 false (goto q { m' with known := S.learn m'.known op })
          refine ⟨⟨hw.known.trans hk, hw.aborted.trans h2, .inr ⟨g3.1, ?_⟩, fun d => hw.verdict (h4 d)⟩, .nil⟩
          rcases hw.phase with e | e
          · rw [e]; show max 0 (min q 7) ≤ m.phase; omega
          · rw [e]; exact g3.1
    · rw [if_neg g1, if_neg (show ¬ q ≤ m'.phase by omega), h2]
      have hb : Beside (goto q { m with known := S.learn m.known op }) (goto q { m' with known := S.learn m'.known op }) := ⟨hk, h2, rfl, h4⟩
      rw [h2] at hb
      split
      · exact ⟨hb.behind, .nil⟩
      · refine ⟨?_, .nil⟩
        by_cases he : (ds.filter fun c => chainPhase c = q) = []
        · have he' : (cs.filter fun c => chainPhase c = q) = [] := by
            rw [List.filter_eq_nil_iff] at he ⊢
            exact fun c hcm => he c (h.mem c hcm)
          rw [he, he']
          simp only [walk]
          exact hb.behind
        · obtain ⟨c, hcm⟩ := List.exists_mem_of_ne_nil _ he
          obtain ⟨c1, c2⟩ := List.mem_filter.1 hcm
          have := h5 c c1
          have c2 : chainPhase c = q := by simpa using c2
          refine behind_walk (h.filter _) (fun c hcm => hc c (List.mem_filter.1 hcm).1) 0 0 hb ?_ (by omega)
          show max 0 (min q 7) = q
          omega
  | none =>
    cases op <;> simp only [phaseOf, reduceCtorEq] at hq <;> simp only [call, phaseOf]
    case result =>
      rw [h2]
      refine ⟨?_, .cons h4 .nil⟩
      split
      · exact ⟨hk, rfl, h3, h4⟩
      · exact ⟨hk, rfl, h3, id⟩
    case intervention => exact ⟨⟨hk, h2, h3, h4⟩, .cons h4 .nil⟩
    case resetIntervention => exact ⟨⟨hk, h2, h3, id⟩, .nil⟩
    case abortWithStatus => exact ⟨⟨hk, rfl, h3, fun _ => rfl⟩, .nil⟩
    case abortWithError => exact ⟨⟨hk, rfl, h3, fun _ => rfl⟩, .nil⟩
    case jumpToPhase i => exact ⟨⟨hk, h2, .inl rfl, h4⟩, .nil⟩
    case nextPhase =>
      refine ⟨⟨hk, h2, ?_, h4⟩, .nil⟩
      show max 0 (min (m'.phase + 1) 7) = max 0 (min (m.phase + 1) 7) ∨ 6 ≤ max 0 (min (m.phase + 1) 7) ∧ max 0 (min (m'.phase + 1) 7) ≤ max 0 (min (m.phase + 1) 7)
      omega
    all_goals exact ⟨⟨hk, h2, h3, h4⟩, .nil⟩

theorem behind_run {cs ds : List (List PRule)} (h : Adds cs ds) (hc : ∀ c ∈ cs, ∀ p ∈ c, ∀ a ∈ p.acts.action, Calm a)
    (h5 : ∀ c ∈ ds, 0 ≤ chainPhase c ∧ chainPhase c ≤ 5) : ∀ (ops : List Op) {m m' : Mach K}, Behind m m' →
    Pairs (fun v v' => v.disruptive = true → v'.disruptive = true) (run S cs m ops).2 (run S ds m' ops).2
  | [], _, _, _ => .nil
  | op :: ops, _, _, hm => by
    obtain ⟨g1, g2⟩ := behind_call (S := S) h hc h5 op hm
    exact Pairs.append g2 (behind_run h hc h5 ops g1)

end

/-! ### When it holds -/

theorem chain_low {text : Bytes} {dirs : List PDir} (ht : Program text dirs) {c : List PRule} (hc : c ∈ chainsOf (rulesIn dirs)) :
    0 ≤ chainPhase c := by
  cases c with
  | nil => simp [chainPhase]
  | cons p ps =>
    have := C55_legal_phase ((C53_exact id _ _).2 ht) (mem_rulesIn.1 (mem_chainsOf hc List.mem_cons_self))
    simp only [chainPhase, List.head?_cons, Option.map_some, Option.getD_some]
    omega

/-- Every rule is in a chain. -/
theorem in_chain : ∀ {ps : List PRule} {p : PRule}, p ∈ ps → ∃ c ∈ chainsOf ps, p ∈ c := by
  intro ps
  induction ps with
  | nil => intro p h; cases h
  | cons q ps ih =>
    intro p h
    simp only [chainsOf]
    rcases List.mem_cons.1 h with rfl | h
    · split
      · split
        · exact ⟨_, List.mem_cons_self, List.mem_cons_self⟩
        · exact ⟨_, List.mem_cons_self, List.mem_cons_self⟩
      · exact ⟨_, List.mem_cons_self, List.mem_cons_self⟩
    · obtain ⟨c, h1, h2⟩ := ih h
      split
      · split
        · rename_i e; rw [e] at h1; cases h1
        · rename_i c' cs e
          rw [e] at h1
          rcases List.mem_cons.1 h1 with rfl | h1
          · exact ⟨_, List.mem_cons_self, List.mem_cons_of_mem _ h2⟩
          · exact ⟨c, List.mem_cons_of_mem _ h1, h2⟩
      · exact ⟨c, List.mem_cons_of_mem _ h1, h2⟩

theorem calm_noReturn {chains : List (List PRule)} (h : ∀ c ∈ chains, ∀ p ∈ c, ∀ a ∈ p.acts.action, Calm a) : NoReturn chains := by
  intro c hc _ p hp a ha e hu
  have := ((h c hc p hp a ha).2 e).unique hu
  cases this

/-- C112: so it is if no rule reads a body and the old rules do not skip either; they may allow,
but then everything. -/
theorem C112_more_rules_partial {lib : Lib} {vo : VarOrd} {ord : IterOrd} {text text' : Bytes} {dirs dirs' : List PDir}
    (ht : Program text dirs) (ht' : Program text' dirs') (hok : ∀ d ∈ dirs, DirOk lib d) (hok' : ∀ d ∈ dirs', DirOk lib d)
    (hadd : Adds (chainsOf (rulesIn dirs)) (chainsOf (rulesIn dirs'))) (hv : ∀ p ∈ rulesIn dirs', ∀ v ∈ p.vars, readsBody v.tk = false)
    (hc : ∀ p ∈ rulesIn dirs, ∀ a ∈ p.acts.action, Calm a) :
    ∃ set set', DireSet.addSecLangString lib vo [] text = .ok (set, none) ∧ DireSet.addSecLangString lib vo [] text' = .ok (set', none) ∧
      ∀ ops n, (chainsOf (rulesIn dirs)).length + 2 ≤ n → (chainsOf (rulesIn dirs')).length + 2 ≤ n → ∃ t t' os os' tr tr',
        (set.execute newEngine).newTransaction.steps ((set.execute newEngine).env lib ord) (set.execute newEngine).ruleSet n ops = .ok (t, os, tr) ∧
        (set'.execute newEngine).newTransaction.steps ((set'.execute newEngine).env lib ord) (set'.execute newEngine).ruleSet n ops = .ok (t', os', tr') ∧
        Pairs (fun v v' => v.disruptive = true → v'.disruptive = true) (shown os) (shown os') := by
  have hc0 : ∀ c ∈ chainsOf (rulesIn dirs), ∀ p ∈ c, ∀ a ∈ p.acts.action, Calm a := fun c h p hp => hc p (mem_chainsOf h hp)
  have hv0 : ∀ p ∈ rulesIn dirs, ∀ v ∈ p.vars, readsBody v.tk = false := by
    intro p hp
    obtain ⟨c, h1, h2⟩ := in_chain hp
    exact hv p (mem_chainsOf (hadd.mem c h1) h2)
  obtain ⟨set, h1, h2⟩ := C87_machine (vo := vo) (ord := ord) ht hok hv0 (calm_noReturn hc0)
  obtain ⟨set', h1', h2'⟩ := C87_machine (vo := vo) (ord := ord) ht' hok' hv (calm_noReturn (hadd.calm hc0))
  refine ⟨set, set', h1, h1', fun ops n hn hn' => ?_⟩
  obtain ⟨t, os, tr, g1, g2⟩ := h2 ops n hn
  obtain ⟨t', os', tr', g1', g2'⟩ := h2' ops n hn'
  refine ⟨t, t', os, os', tr, tr', g1, g1', ?_⟩
  rw [g2, g2']
  exact behind_run hadd hc0 (fun c h => ⟨chain_low ht' h, chain_five ht' h⟩) ops ⟨rfl, rfl, .inl rfl, id⟩

/-! ### The refutation -/

/-- The verdicts of a text: disruptive or not. -/
def Sample.textVerdicts (lib : Lib) (text : Bytes) (n : Nat) (ops : List Op) : Option (List Bool) :=
  match DireSet.addSecLangString lib varOrd [] text with
  | .ok (set, none) =>
    match (set.execute newEngine).newTransaction.steps ((set.execute newEngine).env lib Sample.ord) (set.execute newEngine).ruleSet n ops with
    | .ok (_, os, _) => some ((shown os).map (·.disruptive))
    | _ => none
  | _ => none

/-- The first rule skips the second, the second would skip the third. -/
def Sample.skipText (between : Bytes) : Bytes :=
  b!"SecRule REQUEST_METHOD \"@rx POST\" \"id:1,phase:2,skip:1\"\n" ++ between ++
  b!"SecRule REQUEST_METHOD \"@rx POST\" \"id:2,phase:2,skip:1\"\nSecRule REQUEST_METHOD \"@rx POST\" \"id:3,phase:2,deny\"\n"

def Sample.skipBefore : List PRule := [methodIs 1 false b!"POST" [⟨.skip, b!"1"⟩]]

def Sample.skipAfter : List PRule := [methodIs 2 false b!"POST" [⟨.skip, b!"1"⟩], methodIs 3 false b!"POST" [⟨.deny, []⟩]]

def Sample.logRule : PRule := methodIs 9 false b!"PUT" [⟨.log, []⟩]

def Sample.logText : Bytes := b!"SecRule REQUEST_METHOD \"@rx PUT\" \"id:9,phase:2,log\"\n"

def Sample.postOps : List Op := [.processConnection [] [] [] [], .processRequestURL none b!"POST" [], .processRequestHeader none, .result]

theorem C112_refuted : ¬ C112_statement := by
  intro h
  have h1 : textVerdicts lib (skipText []) 9 postOps = some [true] := by decide +kernel
  have h2 : textVerdicts lib (skipText logText) 9 postOps = some [false] := by decide +kernel
  have p1 : Program (skipText []) ((skipBefore ++ skipAfter).map .rule) := (C53_exact id _ _).1 (by decide +kernel)
  have p2 : Program (skipText logText) ((skipBefore ++ logRule :: skipAfter).map .rule) := (C53_exact id _ _).1 (by decide +kernel)
  simp only [textVerdicts] at h1 h2
  split at h1
  · rename_i set e1
    split at h1
    · rename_i t os tr r1
      split at h2
      · rename_i set' e2
        split at h2
        · rename_i t' os' tr' r2
          have := h lib varOrd Sample.ord _ _ _ _ set set' p1 p2 rfl
            (.same (.extra (by intro p hp a ha; rw [List.mem_singleton.1 hp] at ha; rw [List.mem_singleton.1 ha]; exact ⟨nofun, nofun⟩) (.same (.same .nil)))) e1 e2
            postOps 9 t t' os os' tr tr' r1 r2
          simp only [Option.some.injEq] at h1 h2
          generalize shown os = xs at h1 this
          generalize shown os' = ys at h2 this
          cases this with
          | nil => cases h1
          | cons hd _ =>
            simp only [List.map_cons, List.cons.injEq] at h1 h2
            have := hd h1.1
            rw [h2.1] at this
            cases this
        · cases h2
      · cases h2
    · cases h1
  · cases h1

/-- A text with a plain `allow`, and a rule added in front of it. -/
example : ∃ set set', DireSet.addSecLangString lib varOrd []
      b!"SecRule REQUEST_METHOD \"@rx GET\" \"id:1,phase:2,allow\"\nSecRule REQUEST_METHOD \"@rx POST\" \"id:3,phase:2,deny\"\n" = .ok (set, none) ∧
    DireSet.addSecLangString lib varOrd []
      (logText ++ b!"SecRule REQUEST_METHOD \"@rx GET\" \"id:1,phase:2,allow\"\nSecRule REQUEST_METHOD \"@rx POST\" \"id:3,phase:2,deny\"\n") = .ok (set', none) ∧
    ∃ t t' os os' tr tr',
      (set.execute newEngine).newTransaction.steps ((set.execute newEngine).env lib Sample.ord) (set.execute newEngine).ruleSet 5 postOps = .ok (t, os, tr) ∧
      (set'.execute newEngine).newTransaction.steps ((set'.execute newEngine).env lib Sample.ord) (set'.execute newEngine).ruleSet 5 postOps = .ok (t', os', tr') ∧
      Pairs (fun v v' => v.disruptive = true → v'.disruptive = true) (shown os) (shown os') := by
  have act : ∀ a ∈ [(⟨.allow, []⟩ : PAct), ⟨.deny, []⟩, ⟨.log, []⟩], ActOk a := by
    intro a ha
    simp only [List.mem_cons, List.not_mem_nil, or_false] at ha
    rcases ha with rfl | rfl | rfl
    · exact .inl ⟨.allow [], .allow ((trimQuote_iff _ _).1 (by decide))⟩
    · exact .inl ⟨_, .deny⟩
    · exact .inl ⟨_, .log⟩
  obtain ⟨set, set', h1, h2, h3⟩ := C112_more_rules_partial (lib := lib) (vo := varOrd) (ord := Sample.ord)
    (dirs := [methodIs 1 false b!"GET" [⟨.allow, []⟩], methodIs 3 false b!"POST" [⟨.deny, []⟩]].map .rule)
    (dirs' := [logRule, methodIs 1 false b!"GET" [⟨.allow, []⟩], methodIs 3 false b!"POST" [⟨.deny, []⟩]].map .rule)
    (text := b!"SecRule REQUEST_METHOD \"@rx GET\" \"id:1,phase:2,allow\"\nSecRule REQUEST_METHOD \"@rx POST\" \"id:3,phase:2,deny\"\n")
    (text' := logText ++ b!"SecRule REQUEST_METHOD \"@rx GET\" \"id:1,phase:2,allow\"\nSecRule REQUEST_METHOD \"@rx POST\" \"id:3,phase:2,deny\"\n")
    ((C53_exact id _ _).1 (by decide +kernel)) ((C53_exact id _ _).1 (by decide +kernel))
    (by
      intro d hd
      simp only [List.map_cons, List.map_nil, List.mem_cons, List.not_mem_nil, or_false] at hd
      rcases hd with rfl | rfl <;> exact methodIs_ok fun a ha => act a (by rw [List.mem_singleton.1 ha]; simp))
    (by
      intro d hd
      simp only [List.map_cons, List.map_nil, List.mem_cons, List.not_mem_nil, or_false] at hd
      rcases hd with rfl | rfl | rfl <;> exact methodIs_ok fun a ha => act a (by rw [List.mem_singleton.1 ha]; simp))
    (.extra (by intro p hp a ha; rw [List.mem_singleton.1 hp] at ha; rw [List.mem_singleton.1 ha]; exact ⟨nofun, nofun⟩) (.same (.same .nil)))
    (by
      intro p hp v hv
      have hp : p ∈ [logRule, methodIs 1 false b!"GET" [⟨.allow, []⟩], methodIs 3 false b!"POST" [⟨.deny, []⟩]] := hp
      simp only [List.mem_cons, List.not_mem_nil, or_false] at hp
      rcases hp with rfl | rfl | rfl <;> (rw [List.mem_singleton.1 hv]; rfl))
    (by
      intro p hp a ha
      have hp : p ∈ [methodIs 1 false b!"GET" [⟨.allow, []⟩], methodIs 3 false b!"POST" [⟨.deny, []⟩]] := hp
      simp only [List.mem_cons, List.not_mem_nil, or_false] at hp
      rcases hp with rfl | rfl <;> rw [List.mem_singleton.1 ha]
      · exact ⟨nofun, fun _ => (trimQuote_iff _ _).1 (by decide)⟩
      · exact ⟨nofun, nofun⟩)
  exact ⟨set, set', h1, h2, h3 postOps 5 (by decide) (by decide)⟩

/-- It is false without skip, too, if rules read forms: a malformed form shows nothing when it
is first read, so that a rule that reads it before changes the count. -/
theorem C112_forms : textVerdicts mediaLib
      b!"SecRequestBodyAccess On\nSecRule &ARGS_POST \"@eq 0\" \"id:1,phase:3,deny\"\n" 9
      [.processRequestURL none b!"POST" [], .processRequestHeader (some [(b!"Content-Type", [b!"application/x-www-form-urlencoded"])]),
        .appendRequestBody b!"a=1&b=%" {}, .processRequestBody, .result] = some [true] ∧
    textVerdicts mediaLib
      b!"SecRequestBodyAccess On\nSecRule ARGS_POST \"@rx z\" \"id:2,phase:3,log\"\nSecRule &ARGS_POST \"@eq 0\" \"id:1,phase:3,deny\"\n" 9
      [.processRequestURL none b!"POST" [], .processRequestHeader (some [(b!"Content-Type", [b!"application/x-www-form-urlencoded"])]),
        .appendRequestBody b!"a=1&b=%" {}, .processRequestBody, .result] = some [false] := by decide +kernel

end Verif
