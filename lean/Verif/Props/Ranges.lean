import Verif.Model.Ranges
import Verif.Props.Engine
import Verif.Props.Retold
import Verif.Props.Reader
/-!
C38 and C94 when each execution of a `range` statement has its own order.
-/
namespace Verif
open Sample Spec

/-! ### Evaluation -/

theorem Filter.fetchAt_perm (f : Filter) (os : Orders) (o : IterOrd) (vs : GoMap) : (f.fetchAt os vs).Perm (f.fetch o vs) :=
  C38_fetch f (os.loop 1) (os.loop 0) o vs

theorem Filter.namesAt_perm (f : Filter) (os : Orders) (o : IterOrd) (vs : GoMap) : (f.namesAt os vs).Perm (f.names o vs) := by
  refine (((os.loop 1).perm _).map _).trans ?_
  exact (((os.loop 0).perm _).map _).symm.trans (f.names_ord (os.loop 0) o vs)

section
variable (env : Env)

theorem fetchArgsPostAt_same (os : Orders) (f : Filter) (t : Tx) : SameUpToOrder (fetchArgsPostAt env os f t) (fetchArgsPost env f t) := by
  simp only [fetchArgsPost, fetchArgsPostAt]
  cases requestBodyParse env t with
  | panic => exact .refl _
  | fuel => exact .refl _
  | ok a =>
    obtain ⟨t, tp, parsed⟩ := a
    simp only [Res.bind_ok']
    cases tp with
    | none => exact .refl _
    | some tp =>
      cases tp <;> cases parsed with
      | form m => cases m <;> first | exact .refl _ | exact .ok (f.fetchAt_perm _ _ _) _
      | _ => first | exact .refl _ | exact .ok (f.fetchAt_perm _ _ _) _

theorem fetchArgsPostNamesAt_same (os : Orders) (f : Filter) (t : Tx) : SameUpToOrder (fetchArgsPostNamesAt env os f t) (fetchArgsPostNames env f t) := by
  simp only [fetchArgsPostNames, fetchArgsPostNamesAt]
  cases requestBodyParse env t with
  | panic => exact .refl _
  | fuel => exact .refl _
  | ok a =>
    obtain ⟨t, tp, parsed⟩ := a
    simp only [Res.bind_ok']
    cases tp with
    | none => exact .refl _
    | some tp =>
      cases tp <;> cases parsed with
      | form m => cases m <;> first | exact .refl _ | exact .ok (f.namesAt_perm _ _ _) _
      | _ => first | exact .refl _ | exact .ok (f.namesAt_perm _ _ _) _

theorem fetchArgsGetAt_perm (os : Orders) (f : Filter) (t : Tx) : (fetchArgsGetAt env os f t).Perm (fetchArgsGet env f t) := by
  simp only [fetchArgsGet, fetchArgsGetAt]
  cases t.url
  · exact .refl _
  · exact f.fetchAt_perm _ _ _

theorem fetchArgsGetNamesAt_perm (os : Orders) (f : Filter) (t : Tx) : (fetchArgsGetNamesAt env os f t).Perm (fetchArgsGetNames env f t) := by
  simp only [fetchArgsGetNames, fetchArgsGetNamesAt]
  cases t.url
  · exact .refl _
  · exact f.namesAt_perm _ _ _

theorem Var.fetchAt_same : ∀ (v : Var) (os : Orders) (t : Tx), SameUpToOrder (v.fetchAt env os t) (v.fetch env t) := by
  intro v
  induction v with
  | args g p =>
    intro os t; simp only [Var.fetch, Var.fetchAt]
    exact (fetchArgsPostAt_same env _ p t).bind fun x y t' h => .ok (.append (fetchArgsGetAt_perm env _ g t) h) _
  | argsNames g p =>
    intro os t; simp only [Var.fetch, Var.fetchAt]
    exact (fetchArgsPostNamesAt_same env _ p t).bind fun x y t' h => .ok (.append (fetchArgsGetNamesAt_perm env _ g t) h) _
  | argsGet f => intro os t; simp only [Var.fetch, Var.fetchAt]; exact .ok (fetchArgsGetAt_perm env _ f t) _
  | argsGetNames f => intro os t; simp only [Var.fetch, Var.fetchAt]; exact .ok (fetchArgsGetNamesAt_perm env _ f t) _
  | argsPost f => intro os t; exact fetchArgsPostAt_same env _ f t
  | argsPostNames f => intro os t; exact fetchArgsPostNamesAt_same env _ f t
  | requestCookies f =>
    intro os t; simp only [Var.fetch, Var.fetchAt]
    cases t.reqHeader
    · exact .refl _
    · exact .ok (f.fetchAt_perm _ _ _) _
  | requestCookiesNames f =>
    intro os t; simp only [Var.fetch, Var.fetchAt]
    cases t.reqHeader
    · exact .refl _
    · exact .ok (f.namesAt_perm _ _ _) _
  | requestHeaders f => intro os t; exact .ok (f.fetchAt_perm _ _ _) _
  | requestHeadersNames f =>
    intro os t; simp only [Var.fetch, Var.fetchAt]
    cases t.url
    · exact .refl _
    · exact .ok (f.namesAt_perm _ _ _) _
  | responseHeaders f => intro os t; exact .ok (f.fetchAt_perm _ _ _) _
  | responseHeadersNames f => intro os t; exact .ok (f.namesAt_perm _ _ _) _
  | count v ih =>
    intro os t; simp only [Var.fetch, Var.fetchAt]
    refine (ih os t).bind fun x y t' h => ?_
    simp only [h.length_eq]; exact .refl _
  | _ => intro os t; exact .refl _

theorem fetchVarsAt_same (r : Rule) : ∀ (vs : List Var) (os : Orders) (t : Tx), SameUpToOrder (fetchVarsAt env r os vs t) (fetchVars env r vs t) := by
  intro vs
  induction vs with
  | nil => intro os t; exact .refl _
  | cons v vs ih =>
    intro os t
    simp only [fetchVarsAt, fetchVars, Rule.transformVariable]
    refine SameUpToOrder.bind ((Var.fetchAt_same env v _ t).bind fun x y t h => ?_) fun x y t h => ?_
    · exact .ok (h.map _) _
    · exact (ih _ t).bind fun x' y' t h' => .ok (.append h h') _

theorem Rule.matchesAt_eq (os : Orders) (r : Rule) (t : Tx) : r.matchesAt env os t = r.matches env t := by
  simp only [Rule.matches, Rule.matchesAt]
  rcases fetchVarsAt_same env r r.vars os t with ⟨x, y, t', e1, e2, h⟩ | ⟨e1, e2⟩ | ⟨e1, e2⟩
  · rw [e1, e2]; simp only [Res.bind_ok', matchLoop_perm h]
  · rw [e1, e2]
  · rw [e1, e2]

theorem matchSubsAt_eq : ∀ (ss : List Rule) (os : Orders) (t : Tx), matchSubsAt env os ss t = matchSubs env ss t := by
  intro ss
  induction ss with
  | nil => intro os t; rfl
  | cons s ss ih => intro os t; simp only [matchSubs, matchSubsAt, Rule.matchesAt_eq, ih]

theorem Rule.runAt_eq (os : Orders) (rs : RuleSet) (n : Nat) (r : Rule) (t : Tx) : r.runAt env os rs n t = r.run env rs n t := by
  simp only [Rule.run, Rule.runAt, Rule.matchesAt_eq, matchSubsAt_eq]

theorem processLoopAt_eq (rs : RuleSet) (p : Int) : ∀ (n : Nat) (os : Orders) (i : Int) (t : Tx),
    processLoopAt env rs p n os i t = processLoop env rs p n i t := by
  intro n
  induction n with
  | zero => intro os i t; rfl
  | succ n ih => intro os i t; simp only [processLoop, processLoopAt, RuleSet.process, RuleSet.processAt, Rule.runAt_eq, ih]; rfl

theorem processPhaseAt_eq (os : Orders) (rs : RuleSet) (n : Nat) (p : Int) (t : Tx) : processPhaseAt env os rs n p t = processPhase env rs n p t := by
  simp only [processPhase, processPhase', processPhaseAt, processLoopAt_eq]

theorem Tx.stepAt_eq (os : Orders) (rs : RuleSet) (n : Nat) (t : Tx) (op : Op) : t.stepAt env os rs n op = t.step env rs n op := by
  cases op <;> simp only [Tx.step, Tx.stepAt, processPhaseAt_eq]

/-- C38.  Whatever order each execution of each `range` statement takes, independently of all
others, the transaction, the results and the rules evaluated are the same. -/
theorem C38_every_range (rs : RuleSet) (n : Nat) : ∀ (ops : List Op) (os : Orders) (t : Tx),
    t.stepsAt env rs n os ops = t.steps env rs n ops := by
  intro ops
  induction ops with
  | nil => intro os t; rfl
  | cons op ops ih => intro os t; simp only [Tx.steps, Tx.stepsAt, Tx.stepAt_eq, ih]

end

/-- Two requests for the same header names by one rule, the second in the opposite order; no
rule sees a difference. -/
example :
    let rev : IterOrd := ⟨List.reverse, fun m => List.reverse_perm m⟩
    let os : Orders := fun p => if p = [1, 0, 0] then rev else ord
    let m : GoMap := [(b!"A", [b!"1"]), (b!"B", [b!"2"])]
    let r : Rule := { vars := [.requestHeaders {}, .requestHeaders {}], op := newOperatorRx lib b!"2", actions := [.deny] }
    let t : Tx := { newTransaction limits with reqHeader := some m }
    (match fetchVarsAt env r os r.vars t with | .ok (x, _) => x | _ => []) = [b!"1", b!"2", b!"2", b!"1"] ∧
    (match fetchVars env r r.vars t with | .ok (x, _) => x | _ => []) = [b!"1", b!"2", b!"1", b!"2"] ∧
    (match r.matchesAt env os t with | .ok (b, _) => b | _ => false) = true := by
  decide +kernel

/-! ### Loading -/

/-- The rules are equal but for the order of their variables. -/
structure Spec.Jumbled (r r' : Rule) : Prop where
  vars : r.vars.Perm r'.vars
  rest : { r with vars := [], subRules := [] } = { r' with vars := [], subRules := [] }

/-- So are the rules chained to them; the other directives are equal. -/
inductive Spec.JumbledDire : Dire → Dire → Prop
  | rule {r r' : Rule} {c : Bool} : Jumbled r r' → Pairs Jumbled r.subRules r'.subRules → JumbledDire (.rule r c) (.rule r' c)
  | same {d : Dire} : JumbledDire d d

theorem Spec.Jumbled.refl (r : Rule) : Jumbled r r := ⟨.refl _, rfl⟩

/-- A directive loaded with two orders. -/
inductive Spec.JumbledLoad : Except LoadErr Dire → Except LoadErr Dire → Prop
  | error {e : LoadErr} : JumbledLoad (.error e) (.error e)
  | rule {r r' : Rule} {c : Bool} : Jumbled r r' → r.subRules = [] → r'.subRules = [] → JumbledLoad (.ok (.rule r c)) (.ok (.rule r' c))
  | same {d : Dire} : (∀ r c, d ≠ .rule r c) → JumbledLoad (.ok d) (.ok d)

theorem direFactory_orders (lib : Lib) (vo vo' : VarOrd) (p : PDir) : JumbledLoad (direFactory lib vo p) (direFactory lib vo' p) := by
  cases p with
  | rule p =>
    simp only [direFactory, loadRule, applyVariables]
    cases collectVars lib p.vars [] [] with
    | error e => exact .error
    | ok mm =>
      cases applyOperator lib p.op with
      | error e => exact .error
      | ok op =>
        cases applyActionList p.acts.action [] [] with
        | error e => exact .error
        | ok am =>
          refine .rule ⟨?_, rfl⟩ rfl rfl
          exact (((vo.perm _).trans (vo'.perm _).symm).map _).append (((vo.perm _).trans (vo'.perm _).symm).map _)
  | ruleEng v => exact .same (by intro _ _ h; cases h)
  | reqBody b => exact .same (by intro _ _ h; cases h)
  | resBody b => exact .same (by intro _ _ h; cases h)

theorem addDirsAt_orders (lib : Lib) : ∀ (dirs : List PDir) (vos vos' : Nat → VarOrd) {set set' : DireSet} (parent : Option Nat),
    Pairs JumbledDire set set' → Pairs JumbledDire (addDirsAt lib vos dirs set parent).1 (addDirsAt lib vos' dirs set' parent).1 ∧
      (addDirsAt lib vos dirs set parent).2 = (addDirsAt lib vos' dirs set' parent).2
  | [], _, _, _, _, _, hs => ⟨hs, rfl⟩
  | dir :: dirs, vos, vos', set, set', parent, hs => by
    have ih := @addDirsAt_orders lib dirs (fun i => vos (i + 1)) (fun i => vos' (i + 1))
    simp only [addDirsAt]
    have hd := direFactory_orders lib (vos 0) (vos' 0) dir
    generalize direFactory lib (vos 0) dir = x, direFactory lib (vos' 0) dir = y at hd
    cases hd with
    | error => exact ⟨hs, rfl⟩
    | rule h h1 h2 =>
      cases parent with
      | some i =>
        refine ih _ (hs.modify (fun {a b} hab => ?_) i)
        cases hab with
        | rule g1 g2 => exact .rule ⟨g1.vars, g1.rest⟩ (g2.append (.cons h .nil))
        | same =>
          cases a with
          | rule r c => exact .rule ⟨.refl _, rfl⟩ ((pairs_refl Jumbled.refl _).append (.cons h .nil))
          | _ => exact .same
      | none =>
        simp only
        rw [hs.length_eq]
        exact ih _ (hs.append (.cons (.rule h (by rw [h1, h2]; exact .nil)) .nil))
    | @same d hn =>
      cases d with
      | rule r c => exact absurd rfl (hn r c)
      | _ => exact ih _ (hs.append (.cons .same .nil))

theorem addDirsAt_const (lib : Lib) (vo : VarOrd) : ∀ (dirs : List PDir) (set : DireSet) (parent : Option Nat),
    addDirsAt lib (fun _ => vo) dirs set parent = addDirs lib vo dirs set parent := by
  intro dirs
  induction dirs with
  | nil => intro set parent; rfl
  | cons d dirs ih => intro set parent; simp only [addDirs, addDirsAt, ih]; rfl

/-- C38.  Whatever order each rule's maps of variables are walked in, independently of the
other rules: a text loads or fails in the same way, and the directives loaded are the same
but for the order of the variables within each rule. -/
theorem C38_loading (lib : Lib) (vos : Nat → VarOrd) (vo : VarOrd) (set : DireSet) (text : Bytes) :
    (set.addSecLangStringAt lib vos text = .fuel ∧ set.addSecLangString lib vo text = .fuel) ∨
    (set.addSecLangStringAt lib vos text = .panic ∧ set.addSecLangString lib vo text = .panic) ∨
    ∃ set1 set2 e, set.addSecLangStringAt lib vos text = .ok (set1, e) ∧ set.addSecLangString lib vo text = .ok (set2, e) ∧
      Pairs JumbledDire set1 set2 := by
  simp only [DireSet.addSecLangStringAt, DireSet.addSecLangString]
  cases parse lib.lowerHi text with
  | fuel => exact .inl ⟨rfl, rfl⟩
  | panic => exact .inr (.inl ⟨rfl, rfl⟩)
  | ok x =>
    cases x with
    | error e => exact .inr (.inr ⟨set, set, _, rfl, rfl, pairs_refl (fun _ => .same) _⟩)
    | ok dirs =>
      have h := addDirsAt_orders lib dirs vos (fun _ => vo) (set := set) (set' := set) none (pairs_refl (fun _ => .same) _)
      rw [addDirsAt_const] at h
      exact .inr (.inr ⟨_, _, (addDirs lib vo dirs set none).2, by rw [← h.2]; rfl, rfl, h.1⟩)

/-- One rule twice, its variables in two orders. -/
example :
    let rev : VarOrd := ⟨List.reverse, fun m => List.reverse_perm m⟩
    let vos : Nat → VarOrd := fun i => if i = 1 then rev else varOrd
    let kinds := fun (d : Dire) => match d with
      | .rule r _ => r.vars.map fun v => match v with | .requestMethod => 1 | .requestProtocol => 2 | _ => 0
      | _ => []
    (match DireSet.addSecLangStringAt lib vos [] (b!"SecRule REQUEST_METHOD|REQUEST_PROTOCOL \"x\" \"id:1,phase:2,deny\"" ++ [10] ++
        b!"SecRule REQUEST_METHOD|REQUEST_PROTOCOL \"x\" \"id:1,phase:2,deny\"" ++ [10]) with
      | .ok (set, none) => set.map kinds
      | _ => []) = [[1, 2], [2, 1]] := by
  decide +kernel

/-! ### Both -/

theorem addDirsAt_group {lib : Lib} {dirs : List PDir} (hok : ∀ d ∈ dirs, DirOk lib d) : ∀ vos : Nat → VarOrd,
    ∃ ds, Pairs (DirMeans lib) dirs ds ∧ (∀ set, addDirsAt lib vos dirs set none = (set ++ group ds, none)) ∧
      (∀ pre p c post, addDirsAt lib vos dirs (pre ++ Dire.rule p c :: post) (some pre.length) =
        (pre ++ Dire.rule { p with subRules := p.subRules ++ (takeChain ds).1 } c :: (post ++ ((takeChain ds).2.1 ++ group (takeChain ds).2.2)), none)) := by
  induction dirs with
  | nil =>
    intro vos
    refine ⟨[], .nil, fun set => ?_, fun pre p c post => ?_⟩
    · simp only [addDirsAt, group, List.append_nil]
    · simp only [addDirsAt, takeChain, group, List.append_nil]
      cases p; rfl
  | cons dir dirs ih =>
    intro vos
    obtain ⟨ds, hds, ih1, ih2⟩ := ih (fun d hd => hok d (List.mem_cons_of_mem _ hd)) (fun i => vos (i + 1))
    rcases direFactory_spec lib (vos 0) dir with ⟨_, d, hd, hm⟩ | ⟨hn, _⟩
    · refine ⟨d :: ds, .cons hm hds, ?_⟩
      cases d with
      | rule r chain =>
        refine ⟨fun set => ?_, fun pre p c post => ?_⟩
        · simp only [addDirsAt, hd]
          cases chain with
          | false => simp only [Bool.false_eq_true, if_false, ih1, group, List.append_assoc, List.cons_append, List.nil_append]
          | true => simp only [if_true, ih2, group, List.nil_append]
        · have hm : (pre ++ Dire.rule p c :: post).modify pre.length (Dire.addSub r) =
              pre ++ Dire.rule { p with subRules := p.subRules ++ [r] } c :: post := by
            rw [List.modify_eq_take_drop]
            simp [Dire.addSub]
          simp only [addDirsAt, hd, hm]
          cases chain with
          | false => simp only [Bool.false_eq_true, if_false, ih1, takeChain, List.append_assoc, List.cons_append, List.nil_append]
          | true => simp only [if_true, ih2, takeChain, List.append_assoc, List.cons_append, List.nil_append]
      | reqBody b =>
        refine ⟨fun set => ?_, fun pre p c post => ?_⟩
        · simp only [addDirsAt, hd, ih1, group, List.append_assoc, List.cons_append, List.nil_append]
        · have := ih2 pre p c (post ++ [.reqBody b])
          simp only [List.cons_append, addDirsAt, hd, List.append_assoc] at this ⊢
          simp only [takeChain, this, List.nil_append, List.cons_append]
      | resBody b =>
        refine ⟨fun set => ?_, fun pre p c post => ?_⟩
        · simp only [addDirsAt, hd, ih1, group, List.append_assoc, List.cons_append, List.nil_append]
        · have := ih2 pre p c (post ++ [.resBody b])
          simp only [List.cons_append, addDirsAt, hd, List.append_assoc] at this ⊢
          simp only [takeChain, this, List.nil_append, List.cons_append]
      | ruleEng v =>
        refine ⟨fun set => ?_, fun pre p c post => ?_⟩
        · simp only [addDirsAt, hd, ih1, group, List.append_assoc, List.cons_append, List.nil_append]
        · have := ih2 pre p c (post ++ [.ruleEng v])
          simp only [List.cons_append, addDirsAt, hd, List.append_assoc] at this ⊢
          simp only [takeChain, this, List.nil_append, List.cons_append]
    · exact absurd (hok dir List.mem_cons_self) hn

/-- C94, with an order of its own for each execution of each `range` statement, in loading
and in evaluation. -/
theorem C94_any_orders {lib : Lib} {ord : IterOrd} {text : Bytes} {dirs : List PDir} (ht : Program text dirs)
    (hok : ∀ d ∈ dirs, DirOk lib d) (vos : Nat → VarOrd) :
    ∃ set links, DireSet.addSecLangStringAt lib vos [] text = .ok (set, none) ∧ Ordered (chainsOf (rulesIn dirs)) links ∧
      ∀ (ops : List Op) (os : Orders),
        match runBy heldSight (evalLinks lib { req := reqAccess dirs, resp := respAccess dirs }) links { known := {} } ops with
        | .returns (_, is) => ∃ t' outs, shown outs = is ∧
          (∀ n, (set.execute newEngine).newTransaction.stepsAt ((set.execute newEngine).env lib ord) (set.execute newEngine).ruleSet n os ops = .fuel ∨
            ∃ tr, (set.execute newEngine).newTransaction.stepsAt ((set.execute newEngine).env lib ord) (set.execute newEngine).ruleSet n os ops = .ok (t', outs, tr)) ∧
          ∃ N, ∀ n ≥ N, ∃ tr,
            (set.execute newEngine).newTransaction.stepsAt ((set.execute newEngine).env lib ord) (set.execute newEngine).ruleSet n os ops = .ok (t', outs, tr)
        | .panics =>
          (∀ n, (set.execute newEngine).newTransaction.stepsAt ((set.execute newEngine).env lib ord) (set.execute newEngine).ruleSet n os ops = .fuel ∨
            (set.execute newEngine).newTransaction.stepsAt ((set.execute newEngine).env lib ord) (set.execute newEngine).ruleSet n os ops = .panic) ∧
          ∃ N, ∀ n ≥ N, (set.execute newEngine).newTransaction.stepsAt ((set.execute newEngine).env lib ord) (set.execute newEngine).ruleSet n os ops = .panic
        | .hangs => ∀ n, (set.execute newEngine).newTransaction.stepsAt ((set.execute newEngine).env lib ord) (set.execute newEngine).ruleSet n os ops = .fuel := by
  obtain ⟨ds, hds, h1, _⟩ := addDirsAt_group hok vos
  have hcar := means_carried ht hds
  obtain ⟨links, hord, hby⟩ := carried_links hcar
  refine ⟨group ds, links, ?_, hord, fun ops os => ?_⟩
  · simp only [DireSet.addSecLangStringAt, (C53_exact lib.lowerHi text dirs).2 ht, Res.bind_ok', h1, List.nil_append]
  · simp only [C38_every_range]
    exact held_exact hds hcar hby ops

end Verif
