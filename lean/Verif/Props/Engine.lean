import Verif.Proofs.Order
import Verif.Props.Sample
/-!
Properties C33, C34, C35, C37, C38: the engine, registration, isolation and
independence from map iteration order.
-/
namespace Verif
open Sample

/-! ### C33: engine modes -/

/-- C33, the full claim: with the engine off no rule is evaluated, and in
detection-only mode no call reports a disruptive intervention. -/
def C33_statement : Prop :=
  ∀ (e : Engine) (lib : Lib) (ord : IterOrd) (n : Nat) (ops : List Op) (t : Tx) (os : List Out) (tr : Trace),
    (∀ op ∈ ops, op.aborts = false) →
    ((e.enable statusOff).run lib ord n (e.enable statusOff).newTransaction ops = .ok (t, os, tr) → tr = []) ∧
    ((e.enable statusDect).run lib ord n (e.enable statusDect).newTransaction ops = .ok (t, os, tr) →
      ∀ i, .intervention i ∈ os → i.disruptive = false)

/-- Both halves of the claim are false of the code. -/
theorem C33_refuted : (¬ ∀ (e : Engine) (lib : Lib) (ord : IterOrd) (n : Nat) (ops : List Op) (t : Tx) (os : List Out) (tr : Trace),
      (∀ op ∈ ops, op.aborts = false) →
      (e.enable statusOff).run lib ord n (e.enable statusOff).newTransaction ops = .ok (t, os, tr) → tr = []) ∧
    (¬ ∀ (e : Engine) (lib : Lib) (ord : IterOrd) (n : Nat) (ops : List Op) (t : Tx) (os : List Out) (tr : Trace),
      (∀ op ∈ ops, op.aborts = false) →
      (e.enable statusDect).run lib ord n (e.enable statusDect).newTransaction ops = .ok (t, os, tr) →
        ∀ i, .intervention i ∈ os → i.disruptive = false) ∧ ¬ C33_statement := by
  let e : Engine := { ruleSet := rules [(2, always [.deny])] }
  have h1 : ∃ t os, (e.enable statusOff).run lib ord 20 (e.enable statusOff).newTransaction [.processRequestHeader none, .result]
      = .ok (t, os, [(2, 0)]) := ⟨_, _, rfl⟩
  have h2 : ∃ t i tr, (e.enable statusDect).run lib ord 20 (e.enable statusDect).newTransaction [.processRequestHeader none, .result]
      = .ok (t, [.unit, .intervention i], tr) ∧ i.disruptive = true := ⟨_, _, _, rfl, rfl⟩
  obtain ⟨t1, os1, h1⟩ := h1
  obtain ⟨t2, i, tr2, h2, hi⟩ := h2
  refine ⟨fun h => ?_, fun h => ?_, fun h => ?_⟩
  · cases h e lib ord 20 _ _ _ _ (by decide) h1
  · have := h e lib ord 20 _ _ _ _ (by decide) h2 i (by simp)
    rw [hi] at this; cases this
  · cases (h e lib ord 20 _ _ _ _ (by decide)).1 h1

/-- What the code does: the mode makes no difference to any transaction. -/
theorem C33_mode_ignored (e : Engine) (s : Int) (lib : Lib) (ord : IterOrd) (n : Nat) (ops : List Op) :
    (e.enable s).run lib ord n (e.enable s).newTransaction ops = e.run lib ord n e.newTransaction ops := by
  have h : (e.enable s).ruleSet = e.ruleSet ∧ (e.enable s).limits = e.limits := by
    simp only [Engine.enable]
    split
    · exact ⟨rfl, rfl⟩
    · split
      · exact ⟨rfl, rfl⟩
      · split <;> exact ⟨rfl, rfl⟩
  simp only [Engine.run, Engine.env, Engine.newTransaction, h]

/-! ### C34, C35: registration -/

theorem addRule_phases (rs : RuleSet) (r : Rule) (p : Int) :
    (rs.addRule r).phases p = rs.phases p ++ (if r.phase = p ∧ 1 ≤ p ∧ p ≤ 6 then [r] else []) := by
  have e7 : phaseEnd = 7 := rfl
  have e0 : phaseBegin = 0 := rfl
  simp only [RuleSet.addRule]
  split
  · rename_i h
    rw [if_neg (by omega), List.append_nil]
  · rename_i h
    by_cases hp : p = r.phase
    · subst hp
      simp only [if_true, true_and]
      rw [if_pos (by omega)]
    · have : ¬ (r.phase = p) := fun e => hp e.symm
      simp [hp, this]

theorem addRule_default (rs : RuleSet) (r : Rule) : (rs.addRule r).defaultActions = rs.defaultActions := by
  simp only [RuleSet.addRule]; split <;> rfl

theorem addRules_default (rules : List Rule) (rs : RuleSet) : (rs.addRules rules).defaultActions = rs.defaultActions := by
  simp only [RuleSet.addRules]
  induction rules generalizing rs with
  | nil => rfl
  | cons r rules ih => simp only [List.foldl_cons, ih, addRule_default]

/-- C35.  After registering a list of rules, each processing phase has its old
rules followed by the listed rules of that phase, in order; no other phase number
gets any, and the default actions stay. -/
theorem C35_registration (rs : RuleSet) (rules : List Rule) :
    (∀ p, 1 ≤ p → p ≤ 6 → (rs.addRules rules).phases p = rs.phases p ++ rules.filter (fun r => decide (r.phase = p))) ∧
    (∀ p, p < 1 ∨ 6 < p → (rs.addRules rules).phases p = rs.phases p) ∧
    (rs.addRules rules).defaultActions = rs.defaultActions := by
  refine ⟨?_, ?_, addRules_default rules rs⟩
  · intro p h1 h6
    simp only [RuleSet.addRules]
    induction rules generalizing rs with
    | nil => simp
    | cons r rules ih =>
      simp only [List.foldl_cons, ih, addRule_phases, h1, h6, and_self, and_true, List.filter_cons]
      by_cases h : r.phase = p <;> simp [h]
  · intro p hp
    simp only [RuleSet.addRules]
    induction rules generalizing rs with
    | nil => rfl
    | cons r rules ih =>
      simp only [List.foldl_cons, ih, addRule_phases]
      rw [if_neg (by omega), List.append_nil]

/-- C35.  Any sequence of `AddSecRule` calls on a new engine: each phase has
exactly the rules registered for it, in registration order. -/
theorem C35_registration_sequence (calls : List (List Rule)) (p : Int) :
    (calls.foldl Engine.addSecRule newEngine).ruleSet.phases p =
      if 1 ≤ p ∧ p ≤ 6 then calls.flatten.filter (fun r => decide (r.phase = p)) else [] := by
  have key : ∀ e : Engine, (calls.foldl Engine.addSecRule e).ruleSet.phases p =
      e.ruleSet.phases p ++ if 1 ≤ p ∧ p ≤ 6 then calls.flatten.filter (fun r => decide (r.phase = p)) else [] := by
    induction calls with
    | nil => intro e; simp
    | cons c calls ih =>
      intro e
      obtain ⟨h1, h2, _⟩ := C35_registration e.ruleSet c
      simp only [List.foldl_cons, ih, Engine.addSecRule]
      by_cases h : 1 ≤ p ∧ p ≤ 6
      · simp only [h1 p h.1 h.2, h, and_self, if_true, List.flatten_cons, List.filter_append, List.append_assoc]
      · rw [h2 p (by omega)]; simp [h]
  rw [key newEngine]; rfl

/-- C34.  A rule whose phase is not a processing phase is not added at all:
registering it, at any place of a list, is as not registering it. -/
theorem C34_invalid_phase (rs : RuleSet) (pre post : List Rule) (r : Rule) (h : r.phase < 1 ∨ 6 < r.phase) :
    rs.addRules (pre ++ r :: post) = rs.addRules (pre ++ post) := by
  have : ∀ rs : RuleSet, rs.addRule r = rs := by
    intro rs
    have e7 : phaseEnd = 7 := rfl
    have e0 : phaseBegin = 0 := rfl
    simp only [RuleSet.addRule]
    rw [if_pos (by omega)]
  simp only [RuleSet.addRules, List.foldl_append, List.foldl_cons, this]

/-- Rules with phases -1, 0, 7 and 2: only the last is there. -/
example : [-1, 0, 2, 7].map (fun p => ((rules [(-1, always []), (0, always []), (7, always []), (2, always [])]).phases p).length)
    = [0, 0, 1, 0] := by decide

/-! ### C37: isolation -/

/-- The transactions of one engine, by number, under a schedule of calls: each
entry names the transaction and the call. -/
def runSchedule (env : Env) (rs : RuleSet) (n : Nat) : (Nat → Tx) → List (Nat × Op) → Res ((Nat → Tx) × List (Nat × Out))
  | σ, [] => .ok (σ, [])
  | σ, (i, op) :: rest =>
    ((σ i).step env rs n op).bind fun (t, o, _) =>
      (runSchedule env rs n (fun j => if j = i then t else σ j) rest).bind fun (σ, os) => .ok (σ, (i, o) :: os)

/-- The entries of transaction `i`. -/
def only {α : Type} (i : Nat) (l : List (Nat × α)) : List α := l.filterMap fun e => if e.1 = i then some e.2 else none

/-- C37.  Under any schedule, each transaction ends in the state, and gets the
results, of running only its own calls. -/
theorem C37_isolation {env : Env} {rs : RuleSet} {n : Nat} : ∀ {sched : List (Nat × Op)} {σ σ' : Nat → Tx} {os : List (Nat × Out)},
    runSchedule env rs n σ sched = .ok (σ', os) →
    ∀ i, ∃ tr, (σ i).steps env rs n (only i sched) = .ok (σ' i, only i os, tr) := by
  intro sched
  induction sched with
  | nil => intro σ σ' os h i; simp only [runSchedule] at h; cases h; exact ⟨[], rfl⟩
  | cons e sched ih =>
    intro σ σ' os h i
    obtain ⟨j, op⟩ := e
    simp only [runSchedule] at h
    obtain ⟨⟨t, o, tr0⟩, h1, h2⟩ := Res.bind_eq_ok.1 h
    obtain ⟨⟨σ1, os1⟩, h3, h4⟩ := Res.bind_eq_ok.1 h2
    simp only [Res.ok.injEq, Prod.mk.injEq] at h4
    obtain ⟨rfl, rfl⟩ := h4
    obtain ⟨tr, k⟩ := ih h3 i
    by_cases hij : j = i
    · subst hij
      simp only [if_true] at k
      refine ⟨tr0 ++ tr, ?_⟩
      have e1 : only j ((j, op) :: sched) = op :: only j sched := by simp [only]
      have e2 : only j ((j, o) :: os1) = o :: only j os1 := by simp [only]
      rw [e1, e2]
      simp only [Tx.steps, h1, Res.bind_ok', k]
    · have hji : ¬ (i = j) := fun e => hij e.symm
      simp only [hji, if_false] at k
      refine ⟨tr, ?_⟩
      have e1 : only i ((j, op) :: sched) = only i sched := by simp [only, hij]
      have e2 : only i ((j, o) :: os1) = only i os1 := by simp [only, hij]
      rw [e1, e2]; exact k

/-- C37.  Conversely, if every transaction's own calls return, so does any
interleaving of them. -/
theorem C37_no_blocking {env : Env} {rs : RuleSet} {n : Nat} : ∀ {sched : List (Nat × Op)} {σ : Nat → Tx},
    (∀ i, ∃ r, (σ i).steps env rs n (only i sched) = .ok r) → ∃ r, runSchedule env rs n σ sched = .ok r := by
  intro sched
  induction sched with
  | nil => intro σ _; exact ⟨_, rfl⟩
  | cons e sched ih =>
    intro σ h
    obtain ⟨j, op⟩ := e
    obtain ⟨r, hr⟩ := h j
    have e1 : only j ((j, op) :: sched) = op :: only j sched := by simp [only]
    rw [e1] at hr
    simp only [Tx.steps] at hr
    obtain ⟨⟨t, o, tr⟩, h1, h2⟩ := Res.bind_eq_ok.1 hr
    have hstep : ∃ r, runSchedule env rs n (fun k => if k = j then t else σ k) sched = .ok r := by
      apply ih
      intro i
      by_cases hij : i = j
      · subst hij
        obtain ⟨r, h3, _⟩ := Res.bind_eq_ok.1 h2
        exact ⟨r, by simpa using h3⟩
      · obtain ⟨r, hr⟩ := h i
        have hji : ¬ (j = i) := fun e => hij e.symm
        have e1 : only i ((j, op) :: sched) = only i sched := by simp [only, hji]
        rw [e1] at hr
        exact ⟨r, by simpa [hij] using hr⟩
    obtain ⟨⟨σ', os⟩, hr⟩ := hstep
    exact ⟨(σ', (j, o) :: os), by simp only [runSchedule, h1, Res.bind_ok', hr]⟩

/-- Two interleaved exchanges: one is denied by its own method only. -/
example :
    let r : Rule := { vars := [.requestMethod], op := newOperatorRx lib b!"PUT", actions := [.deny] }
    (match runSchedule env (rules [(2, r)]) 20 (fun _ => newTransaction limits)
      [(0, .processRequestURL none b!"GET" []), (1, .processRequestURL none b!"PUT" []), (0, .processRequestHeader none),
       (1, .processRequestHeader none), (0, .result), (1, .result)] with
     | .ok (_, os) => [only 0 os, only 1 os].map (·.map fun o => match o with | .intervention i => i.disruptive | _ => false)
     | _ => []) = [[false, false, false], [false, false, true]] := by
  decide +kernel

/-! ### C38: map iteration order -/

/-- Calls, each with its own iteration order. -/
def stepsWith (env : Env) (rs : RuleSet) (n : Nat) : Tx → List (IterOrd × Op) → Res (Tx × List Out × Trace)
  | t, [] => .ok (t, [], [])
  | t, (o, op) :: ops =>
    (t.step { env with ord := o } rs n op).bind fun (t, out, tr) =>
      (stepsWith env rs n t ops).bind fun (t, outs, tr') => .ok (t, out :: outs, tr ++ tr')

/-- C38.  Whatever order each call iterates its maps in, the transaction, the
results and the rules evaluated are the same. -/
theorem C38_order_irrelevant (env : Env) (rs : RuleSet) (n : Nat) : ∀ (ops : List (IterOrd × Op)) (t : Tx),
    stepsWith env rs n t ops = t.steps env rs n (ops.map Prod.snd) := by
  intro ops
  induction ops with
  | nil => intro t; rfl
  | cons e ops ih =>
    intro t
    obtain ⟨o, op⟩ := e
    simp only [stepsWith, List.map_cons, Tx.steps, Tx.step_ord, ih]

/-- C38.  Also within one evaluation: a rule's condition and its effect on the
transaction do not depend on the order. -/
theorem C38_rule (env : Env) (o : IterOrd) (rs : RuleSet) (n : Nat) (r : Rule) (t : Tx) :
    r.run { env with ord := o } rs n t = r.run env rs n t := Rule.run_ord env o rs n r t

/-- C38.  Even if the two loops of a fetch iterate in different orders the
values are the same up to order. -/
theorem C38_fetch (f : Filter) (o1 o2 o3 : IterOrd) (vs : GoMap) :
    ((o1.run (f.fetchWithNames o2 vs)).flatMap Prod.snd).Perm (f.fetch o3 vs) := by
  refine (((o1.perm _).flatMap_right _).trans ?_).trans (f.fetch_perm o3 vs).symm
  rw [fetchWithNames_eq]
  refine (keepLoop_values f _ _).trans ?_
  simp only [List.flatMap_nil, List.nil_append]
  exact ((o2.perm vs).filter _).flatMap_right _

/-- Orders do differ on the values fetched: reversing a two-header map. -/
example :
    let rev : IterOrd := ⟨List.reverse, fun m => List.reverse_perm m⟩
    ({} : Filter).fetch ord [(b!"A", [b!"1"]), (b!"B", [b!"2"])] = [b!"1", b!"2"] ∧
    ({} : Filter).names ord [(b!"A", []), (b!"B", [])] = [b!"A", b!"B"] ∧
    ({} : Filter).names rev [(b!"A", []), (b!"B", [])] ≠ [] ∧
    rev.run [(b!"A", [b!"1"]), (b!"B", [b!"2"])] = [(b!"B", [b!"2"]), (b!"A", [b!"1"])] := by
  decide +kernel

end Verif
