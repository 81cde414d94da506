import Verif.Props.Machine
/-!
C83: the verdict of a whole rule text of `deny` rules and chains, from the machine.
-/
namespace Verif
open Sample Spec

/-! ### The machine on mild chains -/

section
variable {K : Type} {S : Sight K}

/-- The status belongs to the verdict. -/
def Spec.Mach.Coherent (m : Mach K) : Prop := m.verdict.status = if m.verdict.disruptive then 403 else 200

/-- Nothing but the verdict (and the number of the rule) has changed; the verdict became
disruptive exactly if `D`. -/
structure Spec.Moved (D : Prop) (m m' : Mach K) : Prop where
  known : m'.known = m.known
  phase : m'.phase = m.phase
  chosen : m'.chosen = m.chosen
  aborted : m'.aborted = m.aborted
  status : m.chosen = none → m.Coherent → m'.Coherent
  verdict : m'.verdict.disruptive = true ↔ m.verdict.disruptive = true ∨ D

theorem Spec.Moved.refl (m : Mach K) : Moved False m m := ⟨rfl, rfl, rfl, rfl, fun _ h => h, by simp⟩

theorem Spec.Moved.trans {D E : Prop} {m m' m'' : Mach K} (h : Moved D m m') (h' : Moved E m' m'') : Moved (D ∨ E) m m'' :=
  ⟨h'.known.trans h.known, h'.phase.trans h.phase, h'.chosen.trans h.chosen, h'.aborted.trans h.aborted,
    fun a b => h'.status (h.chosen.trans a) (h.status a b), by rw [h'.verdict, h.verdict, or_assoc]⟩

theorem Spec.Moved.congr {D E : Prop} {m m' : Mach K} (h : Moved D m m') (hd : D ↔ E) : Moved E m m' :=
  ⟨h.known, h.phase, h.chosen, h.aborted, h.status, by rw [h.verdict, hd]⟩

theorem mild_act {a : PAct} (h : Mild a) (m : Mach K) : Moved (a.tk = .deny) m (act S m a) := by
  rcases h with h | h | h | ⟨k, h⟩
  · refine Moved.congr (D := True) ?_ (by simp [h])
    simp only [act, h]
    refine ⟨rfl, rfl, rfl, rfl, fun hc hs => ?_, by simp [say]⟩
    show denialStatus m = 403
    simp only [Mach.Coherent] at hs
    simp only [denialStatus, hc]
    split
    · rename_i hne
      cases hd : m.verdict.disruptive with
      | true => rw [hd] at hs; exact hs
      | false => rw [hd] at hs; exact absurd hs hne
    · rfl
  · refine Moved.congr (D := False) ?_ (by simp [h])
    simp only [act, h]
    exact ⟨rfl, rfl, rfl, rfl, fun _ hs => hs, by simp [say]⟩
  · refine Moved.congr (D := False) ?_ (by simp [h])
    simp only [act, h]
    exact .refl _
  · have hn : a.tk ≠ .deny := by intro e; rw [e] at h; cases h
    refine Moved.congr (D := False) ?_ (by simp [hn])
    have : act S m a = m := by
      simp only [act]
      revert h
      cases a.tk <;> intro h <;> first | rfl | cases h
    rw [this]; exact .refl _

theorem mild_acts : ∀ {as : List PAct}, (∀ a ∈ as, Mild a) → ∀ m : Mach K, Moved (∃ a ∈ as, a.tk = .deny) m (as.foldl (act S) m) := by
  intro as
  induction as with
  | nil => intro _ m; exact (Moved.refl m).congr (by simp)
  | cons a as ih =>
    intro h m
    exact ((mild_act (h a List.mem_cons_self) m).trans (ih (fun a ha => h a (List.mem_cons_of_mem _ ha)) _)).congr (by simp)

theorem mild_fire : ∀ {c : List PRule}, (∀ p ∈ c, ∀ a ∈ p.acts.action, Mild a) → ∀ m : Mach K, Moved (Denies c) m (fire S m c) := by
  intro c
  induction c with
  | nil => intro _ m; exact (Moved.refl m).congr (by simp [Denies])
  | cons p c ih =>
    intro h m
    have h1 := mild_acts (S := S) (as := inOrder p.acts.action) (fun a ha => h p List.mem_cons_self a (mem_inOrder ha)) m
    refine (h1.trans (ih (fun p hp => h p (List.mem_cons_of_mem _ hp)) _)).congr ?_
    simp only [Denies, List.mem_cons, exists_eq_or_imp]
    refine or_congr_left ⟨fun ⟨a, ha, e⟩ => ⟨a, mem_inOrder ha, e⟩, fun ⟨a, ha, e⟩ => ⟨a, ?_, e⟩⟩
    simp only [inOrder, List.mem_flatMap, List.mem_filter]
    exact ⟨3, by simp, ha, by simp [e, turn]⟩

theorem mild_skips {c : List PRule} (h : ∀ p ∈ c, ∀ a ∈ p.acts.action, Mild a) : skips c = false := by
  simp only [skips, List.any_eq_false, Bool.not_eq_true]
  intro p hp a ha
  have := h p hp a ha
  rw [decide_eq_false_iff_not]
  intro e
  rw [Mild, e] at this
  simp [metaName] at this

theorem mild_walk {q : Int} : ∀ {cs : List (List PRule)}, (∀ c ∈ cs, ∀ p ∈ c, ∀ a ∈ p.acts.action, Mild a) → ∀ (i : Nat) (m : Mach K), m.phase = q →
    Moved (∃ c ∈ cs, Denies c ∧ ∀ p ∈ c, S.holds m.known p) m (walk S q i false cs m) := by
  intro cs
  induction cs with
  | nil => intro _ i m _; exact (Moved.refl m).congr (by simp)
  | cons c cs ih =>
    intro h i m hq
    have h0 : Moved False m { m with rule := (i : Int) } := ⟨rfl, rfl, rfl, rfl, fun _ h => h, by simp⟩
    simp only [walk]
    split
    · rename_i hall
      have h1 := (h0.trans (mild_fire (S := S) (h c List.mem_cons_self) { m with rule := (i : Int) })).congr (E := Denies c) (by simp)
      split
      · rename_i hst
        refine { h1 with verdict := ?_ }
        have hd : (fire S { m with rule := (i : Int) } c).verdict.disruptive = true := by
          rcases hst with hd | hne
          · exact hd
          · exact absurd (h1.phase.trans hq) hne
        simp only [hd, true_iff]
        rcases h1.verdict.1 hd with h | h
        · exact .inl h
        · exact .inr ⟨c, List.mem_cons_self, h, hall⟩
      · rename_i hst
        rw [mild_skips (h c List.mem_cons_self)]
        have h2 := ih (fun c hc => h c (List.mem_cons_of_mem _ hc)) (i + 1) _ (h1.phase.trans hq)
        rw [h1.known] at h2
        refine (h1.trans h2).congr ?_
        simp only [List.mem_cons, exists_eq_or_imp]
        exact or_congr_left ⟨fun h => ⟨h, hall⟩, fun h => h.1⟩
    · rename_i hall
      split
      · rename_i hd
        refine { h0 with verdict := ?_ }
        show m.verdict.disruptive = true ↔ _
        have hd : m.verdict.disruptive = true := hd
        simp [hd]
      · have h2 := ih (fun c hc => h c (List.mem_cons_of_mem _ hc)) (i + 1) { m with rule := (i : Int) } hq
        refine (h0.trans h2).congr ?_
        simp only [List.mem_cons, exists_eq_or_imp, false_or]
        refine ⟨.inr, fun h => h.resolve_left fun h => hall h.2⟩

/-- The phase is the highest processed so far. -/
def InPhase (pre : List Op) (p : Int) : Prop :=
  ∀ q : Int, 1 ≤ q → q ≤ 7 → (p < q ↔ ∀ o ∈ pre, ∀ q', phaseOf o = some q' → q' < q)

/-- The machine after the calls `pre`. -/
structure Reached (S : Sight K) (k0 : K) (chains : List (List PRule)) (pre : List Op) (m : Mach K) : Prop where
  known : m.known = pre.foldl S.learn k0
  aborted : m.aborted = false
  chosen : m.chosen = none
  status : m.Coherent
  low : 0 ≤ m.phase
  high : m.phase ≤ 7
  phase : InPhase pre m.phase
  verdict : m.verdict.disruptive = true ↔
    ∃ c ∈ chains, ∃ k, 1 ≤ chainPhase c ∧ ProcessedBy (fun pre => pre.foldl S.learn k0) pre (chainPhase c) k ∧ Denies c ∧ ∀ p ∈ c, S.holds k p

theorem reached_call {k0 : K} {chains : List (List PRule)} (hm : ∀ c ∈ chains, ∀ p ∈ c, ∀ a ∈ p.acts.action, Mild a)
    (h5 : ∀ c ∈ chains, chainPhase c ≤ 5) {pre : List Op} {m : Mach K} {op : Op} (hr : Reached S k0 chains pre m)
    (hk : op.keepsCursor = true) (hna : op.aborts = false) (hnr : op.readsVerdict = false) :
    Reached S k0 chains (pre ++ [op]) (call S chains m op).1 := by
  have hph : ∀ q : Int, (∀ o ∈ pre ++ [op], ∀ q', phaseOf o = some q' → q' < q) ↔
      (∀ o ∈ pre, ∀ q', phaseOf o = some q' → q' < q) ∧ ∀ q', phaseOf op = some q' → q' < q := by
    intro q
    simp only [List.mem_append, List.mem_singleton]
    exact ⟨fun h => ⟨fun o ho => h o (.inl ho), h op (.inr rfl)⟩, fun h o ho => ho.elim (h.1 o) (fun e => e ▸ h.2)⟩
  have hold : ∀ q k, ProcessedBy (fun pre => pre.foldl S.learn k0) pre q k → ProcessedBy (fun pre => pre.foldl S.learn k0) (pre ++ [op]) q k := by
    rintro q k ⟨a, call, b, rfl, h⟩
    exact ⟨a, call, b ++ [op], by simp, h⟩
  have hnew : ∀ q k, ProcessedBy (fun pre => pre.foldl S.learn k0) (pre ++ [op]) q k → ProcessedBy (fun pre => pre.foldl S.learn k0) pre q k ∨
      (phaseOf op = some q ∧ (∀ o ∈ pre, ∀ q', phaseOf o = some q' → q' < q) ∧ k = (pre ++ [op]).foldl S.learn k0) := by
    rintro q k ⟨a, call, b, e, h1, h2, h3⟩
    rcases List.eq_nil_or_concat b with rfl | ⟨b', x, rfl⟩
    · obtain ⟨e1, e2⟩ := List.append_inj' e rfl
      cases e2; subst e1
      exact .inr ⟨h1, h2, h3⟩
    · rw [List.concat_eq_append, ← List.cons_append, ← List.append_assoc] at e
      obtain ⟨e1, e2⟩ := List.append_inj' e rfl
      exact .inl ⟨a, call, b', e1, h1, h2, h3⟩
  have hkn : S.learn m.known op = (pre ++ [op]).foldl S.learn k0 := by rw [hr.known, List.foldl_append]; rfl
  cases hop : phaseOf op with
  | none =>
    have quiet : ∀ m' : Mach K, m'.known = S.learn m.known op → m'.aborted = m.aborted → m'.chosen = m.chosen → m'.phase = m.phase →
        m'.verdict.status = m.verdict.status → m'.verdict.disruptive = m.verdict.disruptive → Reached S k0 chains (pre ++ [op]) m' := by
      intro m' e1 e2 e3 e4 e5 e6
      refine {
        known := e1.trans hkn, aborted := e2.trans hr.aborted, chosen := e3.trans hr.chosen
        status := by simp only [Mach.Coherent, e5, e6]; exact hr.status
        low := by rw [e4]; exact hr.low
        high := by rw [e4]; exact hr.high
        phase := fun q h1 h7 => ?_
        verdict := ?_ }
      · rw [e4, hph, hr.phase q h1 h7, hop]
        exact ⟨fun h => ⟨h, fun _ h => (by cases h)⟩, fun h => h.1⟩
      · rw [e6, hr.verdict]
        constructor
        · rintro ⟨c, hcm, k, h1, h2, h3⟩; exact ⟨c, hcm, k, h1, hold _ _ h2, h3⟩
        · rintro ⟨c, hcm, k, h1, h2, h3⟩
          rcases hnew _ _ h2 with h2 | ⟨h2, _⟩
          · exact ⟨c, hcm, k, h1, h2, h3⟩
          · rw [hop] at h2; cases h2
    cases op <;> first | (cases hop; done) | (cases hk; done) | (cases hna; done) | (cases hnr; done) | exact quiet _ rfl rfl rfl rfl rfl rfl
  | some q =>
    have hlow := hr.low
    have hhigh := hr.high
    have stay : ∀ m' : Mach K, Moved (m.phase < q ∧ ∃ c ∈ chains, chainPhase c = q ∧ Denies c ∧ ∀ p ∈ c, S.holds (S.learn m.known op) p)
        { m with known := S.learn m.known op, phase := m'.phase } m' →
        m'.phase = (if q ≤ m.phase then m.phase else min q 7) → Reached S k0 chains (pre ++ [op]) m' := by
      intro m' hmv hp
      refine {
        known := hmv.known.trans hkn, aborted := hmv.aborted.trans hr.aborted, chosen := hmv.chosen.trans hr.chosen
        status := hmv.status hr.chosen hr.status
        low := by rw [hp]; split <;> omega
        high := by rw [hp]; split <;> omega
        phase := fun q' h1 h7 => ?_
        verdict := ?_ }
      · rw [hph, ← hr.phase q' h1 h7, hop]
        simp only [Option.some.injEq, forall_eq']
        rw [hp]
        split <;> omega
      · rw [hmv.verdict]
        show m.verdict.disruptive = true ∨ _ ↔ _
        rw [hr.verdict]
        constructor
        · rintro (⟨c, hcm, k, h1, h2, h3⟩ | ⟨hlt, c, hcm, rfl, h3⟩)
          · exact ⟨c, hcm, k, h1, hold _ _ h2, h3⟩
          · have h1 : 1 ≤ chainPhase c := by omega
            have := h5 c hcm
            exact ⟨c, hcm, _, h1, ⟨pre, op, [], rfl, hop, (hr.phase _ h1 (by omega)).1 hlt, rfl⟩, by show _ ∧ ∀ p ∈ c, S.holds ((pre ++ [op]).foldl S.learn k0) p; rw [← hkn]; exact h3⟩
        · rintro ⟨c, hcm, k, h1, h2, h3⟩
          rcases hnew _ _ h2 with h2 | ⟨h6, h4, rfl⟩
          · exact .inl ⟨c, hcm, k, h1, h2, h3⟩
          · rw [hop] at h6
            cases h6
            have := h5 c hcm
            exact .inr ⟨(hr.phase _ h1 (by omega)).2 h4, c, hcm, rfl, by rw [hkn]; exact h3⟩
    simp only [call, hop]
    split
    · rename_i hle
      have hle : q ≤ m.phase := hle
      refine stay _ ((Moved.refl _).congr ⟨False.elim, fun h => ?_⟩) (by simp [hle])
      omega
    · rename_i hlt
      have hlt : ¬ q ≤ m.phase := hlt
      rw [if_neg (by simp [hr.aborted])]
      have hgp : (goto q { m with known := S.learn m.known op }).phase = min q 7 := by
        simp only [goto]; omega
      by_cases h8 : 7 < q
      · have hemp : (chains.filter fun c => chainPhase c = q) = [] := by
          rw [List.filter_eq_nil_iff]
          intro c hcm
          have := h5 c hcm
          simp; omega
        rw [hemp]
        refine stay _ (Moved.congr (D := False) ⟨rfl, rfl, rfl, rfl, fun _ h => h, by simp [walk, goto]⟩ ⟨False.elim, ?_⟩) (by rw [if_neg hlt]; exact hgp)
        rintro ⟨_, c, hcm, e, _⟩
        have := h5 c hcm
        omega
      · have hw := mild_walk (S := S) (q := q) (cs := chains.filter fun c => chainPhase c = q) (fun c hc => hm c (List.mem_filter.1 hc).1) 0
          (goto q { m with known := S.learn m.known op }) (by omega)
        refine stay _ ⟨hw.known, rfl, hw.chosen, hw.aborted, hw.status, hw.verdict.trans (or_congr_right ?_)⟩ (by rw [if_neg hlt]; exact hw.phase.trans hgp)
        constructor
        · rintro ⟨c, hc, h⟩
          obtain ⟨hc, e⟩ := List.mem_filter.1 hc
          exact ⟨by omega, c, hc, by simpa using e, h⟩
        · rintro ⟨_, c, hc, e, h⟩
          exact ⟨c, List.mem_filter.2 ⟨hc, by simpa using e⟩, h⟩

theorem reached_run {k0 : K} {chains : List (List PRule)} (hm : ∀ c ∈ chains, ∀ p ∈ c, ∀ a ∈ p.acts.action, Mild a)
    (h5 : ∀ c ∈ chains, chainPhase c ≤ 5) : ∀ {ops pre : List Op} {m : Mach K}, Reached S k0 chains pre m →
    (∀ o ∈ ops, o.keepsCursor = true ∧ o.aborts = false ∧ o.readsVerdict = false) → Reached S k0 chains (pre ++ ops) (run S chains m ops).1 := by
  intro ops
  induction ops with
  | nil => intro pre m hr _; rw [List.append_nil]; exact hr
  | cons op ops ih =>
    intro pre m hr hops
    obtain ⟨k1, k2, k3⟩ := hops op List.mem_cons_self
    have := ih (reached_call hm h5 hr k1 k2 k3) (fun o ho => hops o (List.mem_cons_of_mem _ ho))
    rw [List.append_assoc] at this
    exact this

theorem run_append {chains : List (List PRule)} : ∀ {a b : List Op} {m : Mach K}, run S chains m (a ++ b) =
    ((run S chains (run S chains m a).1 b).1, (run S chains m a).2 ++ (run S chains (run S chains m a).1 b).2) := by
  intro a
  induction a with
  | nil => intro b m; rfl
  | cons op a ih => intro b m; simp only [List.cons_append, Spec.run, ih, List.append_assoc]

/-- The verdict of the machine on a text of mild chains. -/
theorem machine_verdict {k0 : K} {chains : List (List PRule)} (hm : ∀ c ∈ chains, ∀ p ∈ c, ∀ a ∈ p.acts.action, Mild a)
    (h5 : ∀ c ∈ chains, chainPhase c ≤ 5) {ops : List Op} (hops : ∀ o ∈ ops, o.keepsCursor = true ∧ o.aborts = false ∧ o.readsVerdict = false) :
    ∃ is i, (run S chains { known := k0 } (ops ++ [.result])).2 = is ++ [i] ∧
      (i.disruptive = true ↔ ∃ c ∈ chains, ∃ k, 1 ≤ chainPhase c ∧ ProcessedBy (fun pre => pre.foldl S.learn k0) ops (chainPhase c) k ∧
        Denies c ∧ ∀ p ∈ c, S.holds k p) ∧
      i.status = if i.disruptive then 403 else 200 := by
  have h0 : Reached S k0 chains [] { known := k0 } := {
    known := rfl, aborted := rfl, chosen := rfl, status := rfl
    low := Int.le_refl 0
    high := by show (0 : Int) ≤ 7; omega
    phase := fun q h1 _ => ⟨fun _ o ho => (by cases ho), fun _ => by show (0 : Int) < q; omega⟩
    verdict := by
      constructor
      · intro h; cases h
      · rintro ⟨c, _, k, _, ⟨a, call, b, e, _⟩, _⟩
        cases a <;> cases e }
  have hr := reached_run hm h5 h0 hops
  refine ⟨(Spec.run S chains { known := k0 } ops).2, _, ?_, hr.verdict, hr.status⟩
  rw [run_append]
  rfl

end

/-- The last value returned is the last verdict shown. -/
theorem shown_last {env : Env} {rs : RuleSet} {n : Nat} {ops : List Op} {t t' : Tx} {os : List Out} {tr : Trace} {is : List Intervention} {i : Intervention}
    (h : t.steps env rs n (ops ++ [.result]) = .ok (t', os, tr)) (hs : shown os = is ++ [i]) : ∃ os', os = os' ++ [.intervention i] := by
  obtain ⟨t1, os1, tr1, os2, tr2, a1, a2, rfl, rfl⟩ := steps_append h
  obtain ⟨t3, o', tr5, os4, tr6, a5, a6, rfl, rfl⟩ := steps_cons a2
  simp only [Tx.steps, Res.ok.injEq, Prod.mk.injEq] at a6
  obtain ⟨rfl, rfl, rfl⟩ := a6
  simp only [Tx.step, Tx.result, Res.ok.injEq, Prod.mk.injEq] at a5
  obtain ⟨_, rfl, _⟩ := a5
  have e : shown (os1 ++ [.intervention t1.intervention]) = shown os1 ++ [t1.intervention] := by
    rw [shown, shown, List.filterMap_append]; rfl
  rw [e] at hs
  obtain ⟨_, e2⟩ := List.append_inj' hs rfl
  cases e2
  exact ⟨os1, rfl⟩

/-- Mild chains never return by `allow:request`. -/
theorem mild_noReturn {dirs : List PDir} (hm : ∀ p ∈ rulesIn dirs, ∀ a ∈ p.acts.action, Spec.Mild a) : NoReturn (chainsOf (rulesIn dirs)) := by
  intro c hc _ p hp a ha e
  have := hm p (mem_chainsOf hc hp) a ha
  rw [Spec.Mild, e] at this
  simp [metaName] at this

/-- C83.  Load a text all of whose rules deny, log, block or describe, and none of
whose variables reads a body.  Whatever the host does (short of moving the cursor by
hand, aborting, or reading the verdict on the way), in the end the transaction is
denied exactly if some chain of the text with a `deny` in it had its phase processed,
and all its conditions held of what had been told by then.  The status is 403 then,
200 otherwise. -/
theorem C83_policy {lib : Lib} {vo : VarOrd} {ord : IterOrd} {text : Bytes} {dirs : List PDir} (ht : Program text dirs)
    (hok : ∀ d ∈ dirs, DirOk lib d) (hv : ∀ p ∈ rulesIn dirs, ∀ v ∈ p.vars, readsBody v.tk = false)
    (hm : ∀ p ∈ rulesIn dirs, ∀ a ∈ p.acts.action, Spec.Mild a) {ops : List Op}
    (hops : ∀ o ∈ ops, o.keepsCursor = true ∧ o.aborts = false ∧ o.readsVerdict = false) :
    ∃ set, DireSet.addSecLangString lib vo [] text = .ok (set, none) ∧
      ∀ n ≥ (chainsOf (rulesIn dirs)).length + 2, ∃ t' os i tr,
        (set.execute newEngine).newTransaction.steps ((set.execute newEngine).env lib ord) (set.execute newEngine).ruleSet n
          (ops ++ [.result]) = .ok (t', os ++ [.intervention i], tr) ∧
        (i.disruptive = true ↔ ∃ c ∈ chainsOf (rulesIn dirs), ∃ k, 1 ≤ chainPhase c ∧ Processed ops (chainPhase c) k ∧
          Denies c ∧ ∀ p ∈ c, Holds lib k p) ∧
        i.status = if i.disruptive then 403 else 200 := by
  obtain ⟨set, h1, h2⟩ := C87_machine (vo := vo) (ord := ord) ht hok hv (mild_noReturn hm)
  refine ⟨set, h1, fun n hn => ?_⟩
  obtain ⟨t', os, tr, g1, g2⟩ := h2 (ops ++ [.result]) n hn
  obtain ⟨is, i, k1, k2, k3⟩ := machine_verdict (S := toldSight lib) (k0 := {}) (chains := chainsOf (rulesIn dirs))
    (fun c hc p hp => hm p (mem_chainsOf hc hp)) (fun c hc => chain_five ht hc) hops
  obtain ⟨os', rfl⟩ := shown_last g1 (g2.trans k1)
  exact ⟨t', os', i, tr, g1, k2, k3⟩

/-- A chain of two rules on the method and a header, and a single rule on the query. -/
def policyText : Bytes := b!"SecRuleEngine On\nSecRule REQUEST_METHOD \"@rx POST\" \"id:1,phase:2,chain,deny\"\nSecRule REQUEST_HEADERS:Host \"!@rx good\" \"id:2,log\"\nSecRule QUERY_STRING \"@gt 7\" \"id:3,phase:1,deny\"\n"

def methodRule : PRule where
  vars := [{ tk := .requestMethod }]
  op := { tk := .rx, arg := b!"POST" }
  acts := { id := 1, phase := 2, chain := true, action := [⟨.deny, []⟩] }

def headerRule : PRule where
  vars := [{ tk := .requestHeaders, index := b!"Host" }]
  op := { tk := .rx, arg := b!"good", not := true }
  acts := { id := 2, action := [⟨.log, []⟩] }

def queryRule : PRule where
  vars := [{ tk := .queryString }]
  op := { tk := .gt, arg := b!"7" }
  acts := { id := 3, phase := 1, action := [⟨.deny, []⟩] }

def policyDirs : List PDir := [.ruleEng 1, .rule methodRule, .rule headerRule, .rule queryRule]

theorem policyText_program : Program policyText policyDirs := (C53_exact id _ _).1 (by decide +kernel)

example : chainsOf (rulesIn policyDirs) = [[methodRule, headerRule], [queryRule]] := rfl

theorem policy_rules {p : PRule} (h : p ∈ rulesIn policyDirs) : p = methodRule ∨ p = headerRule ∨ p = queryRule := by
  have e : rulesIn policyDirs = [methodRule, headerRule, queryRule] := rfl
  rw [e] at h
  simpa using h

theorem policy_ok : ∀ d ∈ policyDirs, DirOk lib d := by
  have no : ∀ {s : Bytes} {P : Bytes → Prop}, isRegex s = false → ∀ re, IsRegex s re → P re := by
    intro s P h re hre
    rw [(isRegex_iff s).2 ⟨re, hre⟩] at h; cases h
  intro d hd
  simp only [policyDirs, List.mem_cons, List.not_mem_nil, or_false] at hd
  rcases hd with rfl | rfl | rfl | rfl
  · trivial
  · exact {
      vars := by intro v hv; rw [List.mem_singleton.1 hv]; exact ⟨by simp, fun _ => no (by decide)⟩
      op := ⟨_, .rx rfl rfl⟩
      acts := by intro a ha; rw [List.mem_singleton.1 ha]; exact .inl ⟨_, .deny⟩ }
  · exact {
      vars := by intro v hv; rw [List.mem_singleton.1 hv]; exact ⟨by simp, fun _ => no (by decide)⟩
      op := ⟨_, .rx rfl rfl⟩
      acts := by intro a ha; rw [List.mem_singleton.1 ha]; exact .inl ⟨_, .log⟩ }
  · exact {
      vars := by intro v hv; rw [List.mem_singleton.1 hv]; exact ⟨by simp, fun _ => no (by decide)⟩
      op := ⟨.cmp ⟨.gt, 7, b!"7"⟩, .cmp rfl ((parse_trim_iff _ _).1 (by decide))
        ⟨by rw [show b!"7" = trimSpace b!"7" by decide]; exact trimSpace_is_trimmed _, [], [], by decide, ⟨[], by decide, by decide⟩, ⟨[], by decide, by decide⟩⟩⟩
      acts := by intro a ha; rw [List.mem_singleton.1 ha]; exact .inl ⟨_, .deny⟩ }

/-- The calls for a POST request with the given query and host. -/
def policyOps (query host : Bytes) : List Op :=
  [.processConnection [] [] [] [], .processRequestURL (some { path := b!"/", rawQuery := query }) b!"POST" [],
    .processRequestHeader (some [(b!"Host", [host])]), .intervention, .processLogging]

theorem policy_run (query host : Bytes) : ∃ set, DireSet.addSecLangString lib varOrd [] policyText = .ok (set, none) ∧
    ∀ n ≥ 4, ∃ t' os i tr,
      (set.execute newEngine).newTransaction.steps ((set.execute newEngine).env lib Sample.ord) (set.execute newEngine).ruleSet n
        (policyOps query host ++ [.result]) = .ok (t', os ++ [.intervention i], tr) ∧
      (i.disruptive = true ↔ ∃ c ∈ chainsOf (rulesIn policyDirs), ∃ k, 1 ≤ chainPhase c ∧ Processed (policyOps query host) (chainPhase c) k ∧
          Denies c ∧ ∀ p ∈ c, Holds lib k p) ∧
      i.status = if i.disruptive then 403 else 200 := by
  refine C83_policy policyText_program policy_ok ?_ ?_ ?_
  · intro p hp v hv
    rcases policy_rules hp with rfl | rfl | rfl <;> rw [List.mem_singleton.1 hv] <;> rfl
  · intro p hp a ha
    rcases policy_rules hp with rfl | rfl | rfl <;> rw [List.mem_singleton.1 ha]
    · exact .inl rfl
    · exact .inr (.inl rfl)
    · exact .inl rfl
  · intro o ho
    simp only [policyOps, List.mem_cons, List.not_mem_nil, or_false] at ho
    rcases ho with rfl | rfl | rfl | rfl | rfl <;> exact ⟨rfl, rfl, rfl⟩

/-- A POST request for another host is denied by the chain. -/
example : ∃ set, DireSet.addSecLangString lib varOrd [] policyText = .ok (set, none) ∧
    ∀ n ≥ 4, ∃ t' os i tr,
      (set.execute newEngine).newTransaction.steps ((set.execute newEngine).env lib Sample.ord) (set.execute newEngine).ruleSet n
        (policyOps b!"5" b!"bad" ++ [.result]) = .ok (t', os ++ [.intervention i], tr) ∧ i.disruptive = true ∧ i.status = 403 := by
  obtain ⟨set, h1, h2⟩ := policy_run b!"5" b!"bad"
  refine ⟨set, h1, fun n hn => ?_⟩
  obtain ⟨t', os, i, tr, g1, g2, g3⟩ := h2 n hn
  have hd : i.disruptive = true := by
    refine g2.2 ⟨[methodRule, headerRule], .head _, _, (by decide), ⟨(policyOps b!"5" b!"bad").take 2, _, _, rfl, rfl, ?_, rfl⟩,
      ⟨methodRule, .head _, _, .head _, rfl⟩, ?_⟩
    · intro o ho q hq
      simp only [policyOps, List.take_succ_cons, List.take_zero, List.mem_cons, List.not_mem_nil, or_false] at ho
      rcases ho with rfl | rfl <;> cases hq
      decide
    · intro p hp
      rcases List.mem_cons.1 hp with rfl | hp
      · refine ⟨_, .head _, b!"POST", ⟨[b!"POST"], rfl, .head _⟩, ?_⟩
        exact ⟨fun _ => rfl, fun _ => .inl ⟨rfl, _, rfl, by decide⟩⟩
      · rw [List.mem_singleton.1 hp]
        have hk : applySelectors lib.rx {} (selectors headerRule.vars .requestHeaders false) = some { incl := [b!"Host"] } := rfl
        refine ⟨_, .head _, b!"bad", ⟨[b!"bad"], ⟨_, fun k => keep_picked hk k, ?_⟩, .head _⟩, ?_⟩
        · exact .refl _
        · refine ⟨?_, fun h => by cases h⟩
          rintro (⟨_, f, hf, hm⟩ | ⟨k, n, hk, _⟩)
          · cases hf; revert hm; decide
          · cases hk
  exact ⟨t', os, i, tr, g1, hd, by rw [g3, hd]; rfl⟩

end Verif
