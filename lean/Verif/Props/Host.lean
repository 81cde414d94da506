import Verif.Model.Host
import Verif.Props.Locality
import Verif.Props.BodyTx
import Verif.Props.Variables
/-!
C78–C82: several transactions of one engine while the engine is reconfigured;
rule-set replacement, in-place registration, body limits, new transactions,
temporary files.
-/
namespace Verif
open Sample

/-! ### What a transaction sees of a run -/

/-- Calls, each with the limits and the rules in force at the time. -/
def stepsIn (lib : Lib) (ord : IterOrd) (n : Nat) : Tx → List (Limits × RuleSet × Op) → Res (Tx × List Out × Trace)
  | t, [] => .ok (t, [], [])
  | t, (l, rs, op) :: rest =>
    (t.step { lib, ord, limits := l } rs n op).bind fun (t, o, tr) =>
      (stepsIn lib ord n t rest).bind fun (t, os, tr') => .ok (t, o :: os, tr ++ tr')

/-- The calls on transaction `i`. -/
def callsOf (i : Nat) : List HostOp → List Op
  | [] => []
  | .call j op :: ops => if j = i then op :: callsOf i ops else callsOf i ops
  | _ :: ops => callsOf i ops

/-- The calls on transaction `i`, with the limits and the content of rule set `a` at
the time of each. -/
def Heap.view (a i : Nat) : Heap → List HostOp → List (Limits × RuleSet × Op)
  | _, [] => []
  | h, .call j op :: ops => if j = i then (h.limits, h.sets a, op) :: h.view a i ops else h.view a i ops
  | h, op :: ops => (h.step op).view a i ops

/-- The values the calls on transaction `i` returned. -/
def returnsOf (i : Nat) : List HostOp → List HostOut → List Out
  | .call j _ :: ops, .returned o :: os => if j = i then o :: returnsOf i ops os else returnsOf i ops os
  | _ :: ops, _ :: os => returnsOf i ops os
  | _, _ => []

theorem World.steps_cons {lib : Lib} {ord : IterOrd} {n : Nat} {w w' : World} {op : HostOp} {ops : List HostOp} {os : List HostOut}
    (h : w.steps lib ord n (op :: ops) = .ok (w', os)) :
    ∃ w1 o os', w.step lib ord n op = .ok (w1, o) ∧ w1.steps lib ord n ops = .ok (w', os') ∧ os = o :: os' := by
  simp only [World.steps] at h
  obtain ⟨⟨w1, o⟩, h1, h2⟩ := Res.bind_eq_ok.1 h
  obtain ⟨⟨w2, os'⟩, h3, h4⟩ := Res.bind_eq_ok.1 h2
  simp only [Res.ok.injEq, Prod.mk.injEq] at h4
  obtain ⟨rfl, rfl⟩ := h4
  exact ⟨w1, o, os', h1, h3, rfl⟩

theorem World.step_heap {lib : Lib} {ord : IterOrd} {n : Nat} {w w' : World} {op : HostOp} {o : HostOut}
    (h : w.step lib ord n op = .ok (w', o)) : w'.heap = w.heap.step op := by
  cases op
  case newTransaction b => cases b <;> (simp only [World.step, Res.ok.injEq, Prod.mk.injEq] at h; obtain ⟨rfl, _⟩ := h; rfl)
  case call i op =>
    simp only [World.step] at h
    split at h
    · cases h
    · obtain ⟨_, _, h2⟩ := Res.bind_eq_ok.1 h
      cases h2; rfl
  all_goals (simp only [World.step, Res.ok.injEq, Prod.mk.injEq] at h; obtain ⟨rfl, _⟩ := h; rfl)

/-- A step that is not a call on transaction `i` leaves it alone. -/
theorem World.step_other {lib : Lib} {ord : IterOrd} {n : Nat} {w w' : World} {op : HostOp} {o : HostOut} {i : Nat} {x : Nat × Tx}
    (h : w.step lib ord n op = .ok (w', o)) (hi : w.txs[i]? = some x) (hop : ∀ p, op ≠ .call i p) : w'.txs[i]? = some x := by
  cases op
  case newTransaction b =>
    cases b
    · simp only [World.step, Res.ok.injEq, Prod.mk.injEq] at h
      obtain ⟨rfl, _⟩ := h
      show (w.txs ++ _)[i]? = _
      rw [List.getElem?_append_left (List.getElem?_eq_some_iff.1 hi).1]
      exact hi
    · simp only [World.step, Res.ok.injEq, Prod.mk.injEq] at h
      obtain ⟨rfl, _⟩ := h; exact hi
  case call j op =>
    simp only [World.step] at h
    split at h
    · cases h
    · obtain ⟨_, _, h2⟩ := Res.bind_eq_ok.1 h
      cases h2
      have : j ≠ i := fun e => hop op (by rw [e])
      show (w.txs.set j _)[i]? = _
      rw [List.getElem?_set_ne this]; exact hi
  all_goals (simp only [World.step, Res.ok.injEq, Prod.mk.injEq] at h; obtain ⟨rfl, _⟩ := h; exact hi)

/-- A transaction ends in the state, and gets the results, of its own calls, each
made with the limits and the content of its own rule set at that moment; other
transactions play no part. -/
theorem host_view {lib : Lib} {ord : IterOrd} {n : Nat} {a i : Nat} : ∀ {ops : List HostOp} {w w' : World} {os : List HostOut} {t : Tx},
    w.steps lib ord n ops = .ok (w', os) → w.txs[i]? = some (a, t) →
    ∃ t' tr, w'.txs[i]? = some (a, t') ∧ stepsIn lib ord n t (w.heap.view a i ops) = .ok (t', returnsOf i ops os, tr) := by
  intro ops
  induction ops with
  | nil =>
    intro w w' os t h hi
    simp only [World.steps, Res.ok.injEq, Prod.mk.injEq] at h
    obtain ⟨rfl, rfl⟩ := h
    exact ⟨t, [], hi, rfl⟩
  | cons op ops ih =>
    intro w w' os t h hi
    obtain ⟨w1, o, os', h1, h2, rfl⟩ := World.steps_cons h
    by_cases hc : ∃ p, op = .call i p
    · obtain ⟨p, rfl⟩ := hc
      simp only [World.step, hi] at h1
      obtain ⟨⟨t1, o1, tr1⟩, g1, g2⟩ := Res.bind_eq_ok.1 h1
      simp only [Res.ok.injEq, Prod.mk.injEq] at g2
      obtain ⟨rfl, rfl⟩ := g2
      have hi1 : (w.txs.set i (a, t1))[i]? = some (a, t1) := by
        rw [List.getElem?_set_self (List.getElem?_eq_some_iff.1 hi).1]
      obtain ⟨t', tr, k1, k2⟩ := ih h2 hi1
      refine ⟨t', tr1 ++ tr, k1, ?_⟩
      simp only [Heap.view, if_true, stepsIn, returnsOf]
      have g1' : t.step { lib, ord, limits := w.heap.limits } (w.heap.sets a) n p = .ok (t1, o1, tr1) := g1
      rw [g1']
      simp only [Res.bind_ok']
      have k2' : stepsIn lib ord n t1 (w.heap.view a i ops) = _ := k2
      rw [k2']
      rfl
    · have hne : ∀ p, op ≠ .call i p := fun p e => hc ⟨p, e⟩
      obtain ⟨t', tr, k1, k2⟩ := ih h2 (World.step_other h1 hi hne)
      refine ⟨t', tr, k1, ?_⟩
      have e1 : w.heap.view a i (op :: ops) = w1.heap.view a i ops := by
        rw [World.step_heap h1]
        cases op
        case call j p => simp only [Heap.view, Heap.step]; rw [if_neg (fun e => hne p (by rw [e]))]
        all_goals rfl
      have e2 : returnsOf i (op :: ops) (o :: os') = returnsOf i ops os' := by
        cases op
        case call j p =>
          have hj : ¬ (j = i) := fun e => hne p (by rw [e])
          cases o <;> simp only [returnsOf, hj, if_false]
        all_goals (cases o <;> rfl)
      rw [e1, e2]; exact k2

theorem stepsIn_const (lib : Lib) (ord : IterOrd) (n : Nat) (l : Limits) (rs : RuleSet) : ∀ (ops : List Op) (t : Tx),
    stepsIn lib ord n t (ops.map fun op => (l, rs, op)) = t.steps { lib, ord, limits := l } rs n ops
  | [], _ => rfl
  | op :: ops, t => by simp only [List.map_cons, stepsIn, Tx.steps, stepsIn_const lib ord n l rs ops]

/-! ### C78: replacing the rule set -/

/-- The directives leave the body switches alone. -/
def DireSet.keepsLimits (set : DireSet) : Bool := set.all fun
  | .reqBody _ | .resBody _ => false
  | _ => true

theorem execute_limits {set : DireSet} (h : set.keepsLimits = true) (e : Engine) : (set.execute e).limits = e.limits := by
  simp only [DireSet.execute]
  induction set generalizing e with
  | nil => rfl
  | cons d set ih =>
    simp only [DireSet.keepsLimits, List.all_cons, Bool.and_eq_true] at h
    rw [List.foldl_cons, ih h.2]
    cases d with
    | rule r c => rfl
    | reqBody b => exact absurd h.1 (by simp)
    | resBody b => exact absurd h.1 (by simp)
    | ruleEng v =>
      simp only [Dire.execute, execRuleEng, Engine.enable]
      repeat' split
      all_goals rfl

/-- Host actions that neither name rule set `a` nor change the limits. -/
def HostOp.Avoids (a : Nat) : HostOp → Prop
  | .setLimits _ => False
  | .execute set => set.keepsLimits = true
  | .addRules b _ | .addDefaultActions b _ | .useRuleSet b => b ≠ a
  | _ => True

/-- While the engine uses another rule set, such actions leave `a` as it is. -/
theorem heap_avoids {a : Nat} {h : Heap} {op : HostOp} (hc : h.cur ≠ a) (hf : a < h.fresh) (hop : op.Avoids a) :
    (h.step op).sets a = h.sets a ∧ (h.step op).limits = h.limits ∧ (h.step op).cur ≠ a ∧ a < (h.step op).fresh := by
  have hset : ∀ e : Engine, (h.setEngine e).sets a = h.sets a := by
    intro e; simp only [Heap.setEngine, Heap.modifySet]; rw [if_neg (fun e => hc e.symm)]
  have en : ∀ s, (h.engine.enable s).limits = h.limits := by
    intro s; simp only [Engine.enable]; repeat' split
    all_goals rfl
  have hmod : ∀ b f, b ≠ a → (h.modifySet b f).sets a = h.sets a := by
    intro b f hb; simp only [Heap.modifySet]; rw [if_neg (fun e => hb e.symm)]
  cases op with
  | enable s => exact ⟨hset _, en s, hc, hf⟩
  | setLimits l => exact hop.elim
  | addSecRule rules => exact ⟨hset _, rfl, hc, hf⟩
  | execute set => exact ⟨hset _, execute_limits hop _, hc, hf⟩
  | newRuleSet => exact ⟨hmod h.fresh (fun _ => {}) (by omega), rfl, hc, by show a < h.fresh + 1; omega⟩
  | addRules b rules => exact ⟨hmod b (·.addRules rules) hop, rfl, hc, hf⟩
  | addDefaultActions b as => exact ⟨hmod b (·.addDefaultActions as) hop, rfl, hc, hf⟩
  | useRuleSet b => exact ⟨rfl, rfl, hop, hf⟩
  | newTransaction b => exact ⟨rfl, rfl, hc, hf⟩
  | call i op => exact ⟨rfl, rfl, hc, hf⟩

theorem view_const {a i : Nat} {P : HostOp → Prop} {Q : Heap → Prop}
    (step : ∀ h op, Q h → P op → (h.step op).sets a = h.sets a ∧ (h.step op).limits = h.limits ∧ Q (h.step op)) :
    ∀ {ops : List HostOp} {h : Heap}, (∀ op ∈ ops, P op) → Q h →
    h.view a i ops = (callsOf i ops).map fun op => (h.limits, h.sets a, op) := by
  intro ops
  induction ops with
  | nil => intro h _ _; rfl
  | cons op ops ih =>
    intro h hP hQ
    obtain ⟨h1, h2, h3⟩ := step h op hQ (hP op List.mem_cons_self)
    have := ih (fun o ho => hP o (List.mem_cons_of_mem _ ho)) h3
    rw [h1, h2] at this
    cases op
    case call j p =>
      simp only [Heap.view, callsOf]
      have e : h.step (.call j p) = h := rfl
      rw [e] at this
      split
      · rw [this]; rfl
      · exact this
    all_goals exact this

/-- C78.  Once the engine uses another rule set, nothing the host does to the engine
(registering rules, executing directives, more replacements, other transactions)
affects a transaction created before: it goes on with the rules it started with. -/
theorem C78_running_keeps_rules {lib : Lib} {ord : IterOrd} {n : Nat} {a i : Nat} {ops : List HostOp} {w w' : World}
    {os : List HostOut} {t : Tx} (h : w.steps lib ord n ops = .ok (w', os)) (hi : w.txs[i]? = some (a, t))
    (hc : w.heap.cur ≠ a) (hf : a < w.heap.fresh) (hops : ∀ op ∈ ops, op.Avoids a) :
    ∃ t' tr, w'.txs[i]? = some (a, t') ∧
      t.steps { lib, ord, limits := w.heap.limits } (w.heap.sets a) n (callsOf i ops) = .ok (t', returnsOf i ops os, tr) := by
  obtain ⟨t', tr, h1, h2⟩ := host_view h hi
  rw [view_const (P := HostOp.Avoids a) (Q := fun h => h.cur ≠ a ∧ a < h.fresh)
    (fun h op hQ hP => by obtain ⟨a1, a2, a3⟩ := heap_avoids hQ.1 hQ.2 hP; exact ⟨a1, a2, a3⟩) hops ⟨hc, hf⟩, stepsIn_const] at h2
  exact ⟨t', tr, h1, h2⟩

/-- Host actions that leave the content of rule set `a` and the limits alone
whichever rule set the engine uses. -/
def HostOp.Quiet (a : Nat) : HostOp → Prop
  | .setLimits _ | .addSecRule _ | .execute _ => False
  | .addRules b _ | .addDefaultActions b _ => b ≠ a
  | _ => True

theorem heap_quiet {a : Nat} {h : Heap} {op : HostOp} (hf : a < h.fresh) (hop : op.Quiet a) :
    (h.step op).sets a = h.sets a ∧ (h.step op).limits = h.limits ∧ a < (h.step op).fresh := by
  have hmod : ∀ b f, b ≠ a → (h.modifySet b f).sets a = h.sets a := by
    intro b f hb; simp only [Heap.modifySet]; rw [if_neg (fun e => hb e.symm)]
  cases op with
  | enable s =>
    have en : (h.engine.enable s).ruleSet = h.engine.ruleSet ∧ (h.engine.enable s).limits = h.limits := by
      simp only [Engine.enable]; repeat' split
      all_goals exact ⟨rfl, rfl⟩
    refine ⟨?_, en.2, hf⟩
    simp only [Heap.step, Heap.setEngine, Heap.modifySet, en.1]
    split
    · next e => rw [e]; rfl
    · rfl
  | setLimits l => exact hop.elim
  | addSecRule rules => exact hop.elim
  | execute set => exact hop.elim
  | newRuleSet => exact ⟨hmod h.fresh (fun _ => {}) (by omega), rfl, by show a < h.fresh + 1; omega⟩
  | addRules b rules => exact ⟨hmod b (·.addRules rules) hop, rfl, hf⟩
  | addDefaultActions b as => exact ⟨hmod b (·.addDefaultActions as) hop, rfl, hf⟩
  | useRuleSet b => exact ⟨rfl, rfl, hf⟩
  | newTransaction b => exact ⟨rfl, rfl, hf⟩
  | call i op => exact ⟨rfl, rfl, hf⟩

/-- C37 for a host program: as long as its own rule set and the limits are left
alone, a transaction is not affected by other transactions, by mode changes, or by
other rule sets being made, filled and put to use. -/
theorem C37_host {lib : Lib} {ord : IterOrd} {n : Nat} {a i : Nat} {ops : List HostOp} {w w' : World}
    {os : List HostOut} {t : Tx} (h : w.steps lib ord n ops = .ok (w', os)) (hi : w.txs[i]? = some (a, t))
    (hf : a < w.heap.fresh) (hops : ∀ op ∈ ops, op.Quiet a) :
    ∃ t' tr, w'.txs[i]? = some (a, t') ∧
      t.steps { lib, ord, limits := w.heap.limits } (w.heap.sets a) n (callsOf i ops) = .ok (t', returnsOf i ops os, tr) := by
  obtain ⟨t', tr, h1, h2⟩ := host_view h hi
  rw [view_const (P := HostOp.Quiet a) (Q := fun h => a < h.fresh)
    (fun h op hQ hP => heap_quiet hQ hP) hops hf, stepsIn_const] at h2
  exact ⟨t', tr, h1, h2⟩

/-- Replace the engine's rule set by a new one with these rules. -/
def reload (h : Heap) (rules : List Rule) : List HostOp :=
  [.newRuleSet, .addRules h.fresh rules, .useRuleSet h.fresh]

/-- C78.  A transaction created after the replacement has exactly the new rules,
whatever the engine had before. -/
theorem C78_new_gets_new_rules {lib : Lib} {ord : IterOrd} {n : Nat} {rules : List Rule} {ops : List HostOp} {w w' : World}
    {os : List HostOut} (h : w.steps lib ord n (reload w.heap rules ++ .newTransaction false :: ops) = .ok (w', os))
    (hops : ∀ op ∈ ops, op.Quiet w.heap.fresh) :
    ∃ t' tr os', os = .unit :: .unit :: .unit :: .created (some w.txs.length) :: os' ∧
      w'.txs[w.txs.length]? = some (w.heap.fresh, t') ∧
      (newTransaction w.heap.limits).steps { lib, ord, limits := w.heap.limits } (({} : RuleSet).addRules rules) n
        (callsOf w.txs.length ops) = .ok (t', returnsOf w.txs.length ops os', tr) := by
  simp only [reload, List.cons_append, List.nil_append] at h
  obtain ⟨w1, o1, os1, h1, g1, rfl⟩ := World.steps_cons h
  obtain ⟨w2, o2, os2, h2, g2, rfl⟩ := World.steps_cons g1
  obtain ⟨w3, o3, os3, h3, g3, rfl⟩ := World.steps_cons g2
  obtain ⟨w4, o4, os4, h4, g4, rfl⟩ := World.steps_cons g3
  clear h g1 g2 g3
  simp only [World.step, Res.ok.injEq, Prod.mk.injEq] at h1 h2 h3 h4
  obtain ⟨rfl, rfl⟩ := h1
  obtain ⟨rfl, rfl⟩ := h2
  obtain ⟨rfl, rfl⟩ := h3
  obtain ⟨rfl, rfl⟩ := h4
  have hi : (w.txs ++ [(w.heap.fresh, newTransaction w.heap.limits)])[w.txs.length]? = some (w.heap.fresh, newTransaction w.heap.limits) := by simp
  obtain ⟨t', tr, k1, k2⟩ := C37_host g4 hi (Nat.lt_succ_self _) hops
  refine ⟨t', tr, os4, rfl, k1, ?_⟩
  have e : ((({ w.heap.modifySet w.heap.fresh (fun _ => {}) with fresh := w.heap.fresh + 1 } : Heap).modifySet w.heap.fresh
      (·.addRules rules)).sets w.heap.fresh) = ({} : RuleSet).addRules rules := by
    simp only [Heap.modifySet, if_true]
  have k3 := k2
  simp only [Heap.step, e] at k3
  exact k3

/-- The disruptive flags transaction `i` was told. -/
def verdictsOf (i : Nat) (ops : List HostOp) : Res (World × List HostOut) → List Bool
  | .ok (_, os) => (returnsOf i ops os).filterMap fun | .intervention i => some i.disruptive | _ => none
  | _ => []

/-- A reload between the creation of a transaction and its request headers: the old
transaction is judged by the old rules, one created afterwards by the new ones. -/
example :
    let ops : List HostOp := [.addSecRule [{ always [.log] with phase := 2 }], .newTransaction false] ++
      ([.newRuleSet, .addRules 1 [{ always [.deny] with phase := 2 }], .useRuleSet 1] : List HostOp) ++
      [.newTransaction false, .call 0 (.processRequestHeader none), .call 1 (.processRequestHeader none), .call 0 .result, .call 1 .result]
    verdictsOf 0 ops (World.steps lib ord 20 {} ops) = [false] ∧ verdictsOf 1 ops (World.steps lib ord 20 {} ops) = [true] := by
  decide +kernel

/-! ### C81: new transactions -/

/-- C81.  Whatever has happened on the engine, a new transaction starts clean: no
phase processed, nothing known about the connection, request or response, empty
bodies, a neutral verdict; existing transactions and the engine are not affected. -/
theorem C81_clean (lib : Lib) (ord : IterOrd) (n : Nat) (w : World) :
    ∃ w' t, w.step lib ord n (.newTransaction false) = .ok (w', .created (some w.txs.length)) ∧
      w'.heap = w.heap ∧ w'.txs = w.txs ++ [(w.heap.cur, t)] ∧
      t.phase = phaseBegin ∧ t.abort = false ∧ t.facts = ({} : Spec.Facts) ∧ t.reqBody.len = 0 ∧ t.respBody.len = 0 ∧
      t.reqBodyError = none ∧ t.data = [] ∧
      t.result.2 = { status := 200, pause := 0, url := none, log := [], disruptive := false } :=
  ⟨_, newTransaction w.heap.limits, rfl, rfl, rfl, rfl, rfl, rfl, rfl, rfl, rfl, rfl, rfl⟩

/-- C81.  If the temporary directory cannot be used, `NewTransaction` reports an
error and nothing else happens. -/
theorem C81_failure (lib : Lib) (ord : IterOrd) (n : Nat) (w : World) :
    w.step lib ord n (.newTransaction true) = .ok (w, .created none) := rfl

/-! ### C79: registering rules while transactions run -/

/-- C79, the full claim: registering rules does not affect a transaction that is
under way. -/
def C79_statement : Prop :=
  ∀ (lib : Lib) (ord : IterOrd) (n : Nat) (w w1 w2 : World) (os1 os2 : List HostOut) (rules : List Rule) (i : Nat) (ops : List Op),
    w.steps lib ord n (ops.map (.call i)) = .ok (w1, os1) →
    w.steps lib ord n (.addSecRule rules :: ops.map (.call i)) = .ok (w2, .unit :: os2) →
    returnsOf i (ops.map (.call i)) os1 = returnsOf i (ops.map (.call i)) os2

/-- It is false of the code: a transaction past its connection phase is denied by a
rule registered afterwards. -/
theorem C79_refuted : ¬ C79_statement := by
  intro h
  let w : World := { txs := [(0, { newTransaction limits with phase := 1 })] }
  let rules : List Rule := [{ always [.deny] with phase := 2 }]
  have h1 : ∃ w1 os1, w.steps lib ord 20 ([.processRequestHeader none, .result].map (.call 0)) = .ok (w1, os1) ∧
      (returnsOf 0 ([.processRequestHeader none, .result].map (.call 0)) os1).map (fun | .intervention i => i.disruptive | _ => false) = [false, false] :=
    ⟨_, _, rfl, rfl⟩
  have h2 : ∃ w2 os2, w.steps lib ord 20 (.addSecRule rules :: [.processRequestHeader none, .result].map (.call 0)) = .ok (w2, .unit :: os2) ∧
      (returnsOf 0 ([.processRequestHeader none, .result].map (.call 0)) os2).map (fun | .intervention i => i.disruptive | _ => false) = [false, true] :=
    ⟨_, _, rfl, rfl⟩
  obtain ⟨w1, os1, a1, b1⟩ := h1
  obtain ⟨w2, os2, a2, b2⟩ := h2
  rw [h lib ord 20 w w1 w2 os1 os2 rules 0 _ a1 a2] at b1
  rw [b1] at b2
  exact absurd b2 (by decide)

/-- The two rule sets have the same rules after phase `q`, and the same default actions. -/
structure RuleSet.AgreeAfter (q : Int) (rs rs' : RuleSet) : Prop where
  phases : ∀ p, q < p → rs.phases p = rs'.phases p
  default : rs.defaultActions = rs'.defaultActions

section
variable {q : Int} {rs rs' : RuleSet}

/-- The same computation, from and to phases after `q`. -/
def After (q : Int) (x y : Res Tx) : Prop := x = y ∧ ∀ t, x = .ok t → q < t.phase

theorem prim_after (hag : rs.AgreeAfter q rs') {p : Int} (hp : q < p) (n : Nat) {a : Action} (hb : a ≠ .block) (ha : a.ForwardAt p) {t : Tx}
    (ht : q < t.phase) : After q (a.run rs n t) (a.run rs' n t) := by
  have e0 : phaseBegin = 0 := rfl
  have e7 : phaseEnd = 7 := rfl
  have keep : ∀ u : Tx, u.phase = t.phase → After q (.ok u) (.ok u) := fun u hu => ⟨rfl, fun t' h => by cases h; omega⟩
  cases a with
  | block => exact absurd rfl hb
  | deny => simp only [Action.run]; exact keep _ (by simp only [denyDo_eq]; rfl)
  | log => simp only [Action.run]; exact keep _ rfl
  | pass => simp only [Action.run]; exact keep _ rfl
  | skip =>
    simp only [Action.run]
    have : skipDo rs t = skipDo rs' t := by simp only [skipDo, hag.phases _ ht]
    rw [this]
    exact keep _ (by simp only [skipDo, Tx.jumpTo]; split <;> rfl)
  | status k => simp only [Action.run]; exact keep _ rfl
  | custom g f => simp only [Action.run]; exact keep _ (ha t).1
  | allow arg =>
    simp only [Action.run]
    refine ⟨rfl, fun t' h => ?_⟩
    cases h
    obtain ⟨h1, h2, h3⟩ := ha
    have jump : ∀ i : Int, q < i → q < 7 → q < (t.jumpToPhase i).phase := by
      intro i hi h7
      simp only [Tx.jumpToPhase]
      repeat' split
      all_goals omega
    have e6 : phaseLogging = 6 := rfl
    have e4 : phaseResponseHeaders = 4 := rfl
    simp only [allowDo]
    split
    · next h => have := h1 h; exact jump _ (by omega) (by omega)
    · split
      · next h => have := h2 h; exact jump _ (by omega) (by omega)
      · split
        · next h => have := h3 h; exact jump _ (by omega) (by omega)
        · exact ht

theorem doAll_after {d d' : Action → Tx → Res Tx} : ∀ {as : List Action},
    (∀ a ∈ as, ∀ t, q < t.phase → After q (d a t) (d' a t)) → ∀ {t : Tx}, q < t.phase → After q (doAll d as t) (doAll d' as t)
  | [], _, t, h => ⟨rfl, fun t' e => by cases e; exact h⟩
  | a :: as, hd, t, h => by
    obtain ⟨h1, h2⟩ := hd a List.mem_cons_self t h
    simp only [doAll, ← h1]
    cases hr : d a t with
    | panic => exact ⟨rfl, fun _ e => by cases e⟩
    | fuel => exact ⟨rfl, fun _ e => by cases e⟩
    | ok u => exact doAll_after (fun b hb => hd b (List.mem_cons_of_mem _ hb)) (h2 u hr)

theorem actionsExecute_after {d d' : Action → Tx → Res Tx} {as : List Action}
    (hd : ∀ a ∈ as, ∀ t, q < t.phase → After q (d a t) (d' a t)) {t : Tx} (h : q < t.phase) :
    After q (actionsExecute d as t) (actionsExecute d' as t) := by
  simp only [actionsExecute]
  cases hm : actionMap as (List.replicate groupCount []) with
  | none => exact ⟨rfl, fun _ e => by cases e⟩
  | some m =>
    refine doAll_after (fun a ha => hd a ?_) h
    rcases actionMap_mem hm a ha with h1 | h1
    · exact h1
    · obtain ⟨l, hl, hal⟩ := List.mem_flatten.1 h1
      rw [(List.mem_replicate.1 hl).2] at hal
      cases hal

theorem action_after (hag : rs.AgreeAfter q rs') {p : Int} (hp : q < p) (hdef : ∀ a ∈ rs.defaultActions, a.ForwardAt p) : ∀ (n : Nat) (a : Action),
    a.ForwardAt p → ∀ t, q < t.phase → After q (a.run rs n t) (a.run rs' n t) := by
  intro n
  induction n with
  | zero =>
    intro a ha t h
    by_cases hb : a = .block
    · subst hb; exact ⟨rfl, fun _ e => by cases e⟩
    · exact prim_after hag hp 0 hb ha h
  | succ n ih =>
    intro a ha t h
    by_cases hb : a = .block
    · subst hb
      simp only [Action.run, ← hag.default]
      exact actionsExecute_after (fun b hb t h => ih b (hdef b hb) t h) h
    · exact prim_after hag hp (n + 1) hb ha h

theorem subActions_after (hag : rs.AgreeAfter q rs') {p : Int} (hp : q < p) (hdef : ∀ a ∈ rs.defaultActions, a.ForwardAt p) (n : Nat) :
    ∀ {ss : List Rule}, (∀ s ∈ ss, ∀ a ∈ s.actions, a.ForwardAt p) → ∀ {t : Tx}, q < t.phase → After q (subActions rs n ss t) (subActions rs' n ss t)
  | [], _, t, h => ⟨rfl, fun t' e => by cases e; exact h⟩
  | s :: ss, hs, t, h => by
    obtain ⟨h1, h2⟩ := actionsExecute_after (fun a ha => action_after hag hp hdef n a (hs s List.mem_cons_self a ha)) h
    simp only [subActions, ← h1]
    cases hr : actionsExecute (Action.run rs n) s.actions t with
    | panic => exact ⟨rfl, fun _ e => by cases e⟩
    | fuel => exact ⟨rfl, fun _ e => by cases e⟩
    | ok u => exact subActions_after hag hp hdef n (fun s' hs' => hs s' (List.mem_cons_of_mem _ hs')) (h2 u hr)

theorem rule_after (hag : rs.AgreeAfter q rs') {p : Int} (hp : q < p) (hdef : ∀ a ∈ rs.defaultActions, a.ForwardAt p) (env : Env) (n : Nat)
    {r : Rule} (hr : ∀ a ∈ r.allActions, a.ForwardAt p) {t : Tx} (h : q < t.phase) : After q (r.run env rs n t) (r.run env rs' n t) := by
  simp only [Rule.run]
  cases hm : r.matches env t with
  | panic => exact ⟨rfl, fun _ e => by cases e⟩
  | fuel => exact ⟨rfl, fun _ e => by cases e⟩
  | ok x =>
    obtain ⟨b, t1⟩ := x
    have h1 : q < t1.phase := by rw [((Rule.matches_fetched hm).same : t1 = _)]; exact h
    simp only [Res.bind_ok']
    split
    · exact ⟨rfl, fun _ e => by cases e; exact h1⟩
    · cases hm2 : matchSubs env r.subRules t1 with
      | panic => exact ⟨rfl, fun _ e => by cases e⟩
      | fuel => exact ⟨rfl, fun _ e => by cases e⟩
      | ok y =>
        obtain ⟨b2, t2⟩ := y
        have h2 : q < t2.phase := by rw [((matchSubs_fetched hm2).same : t2 = _)]; exact h1
        simp only [Res.bind_ok']
        split
        · exact ⟨rfl, fun _ e => by cases e; exact h2⟩
        · obtain ⟨g1, g2⟩ := actionsExecute_after (d := Action.run rs n) (d' := Action.run rs' n) (as := r.actions)
            (fun a ha => action_after hag hp hdef n a (hr a (by simp only [Rule.allActions, List.mem_append]; exact .inl ha))) h2
          rw [← g1]
          cases ha : actionsExecute (Action.run rs n) r.actions t2 with
          | panic => exact ⟨rfl, fun _ e => by cases e⟩
          | fuel => exact ⟨rfl, fun _ e => by cases e⟩
          | ok u =>
            refine subActions_after hag hp hdef n (fun s hs a ha => hr a ?_) (g2 u ha)
            simp only [Rule.allActions, List.mem_append, List.mem_flatMap]
            exact .inr ⟨s, hs, ha⟩

theorem processLoop_after (hag : rs.AgreeAfter q rs') (hrs : rs.Forward) (env : Env) {p : Int} (hp : q < p) : ∀ (n : Nat) (i : Int) (t : Tx),
    q < t.phase → processLoop env rs p n i t = processLoop env rs' p n i t ∧
      ∀ t' tr, processLoop env rs p n i t = .ok (t', tr) → q < t'.phase := by
  intro n
  induction n with
  | zero => intro i t _; exact ⟨rfl, fun _ _ e => by cases e⟩
  | succ n ih =>
    intro i t ht
    have hproc : After q (rs.process env n t p i) (rs'.process env n t p i) := by
      simp only [RuleSet.process, ← hag.phases p hp]
      split
      · split
        · exact ⟨rfl, fun _ e => by cases e⟩
        · split
          · exact ⟨rfl, fun _ e => by cases e⟩
          · next r hr =>
            have hm := List.mem_of_getElem? hr
            exact rule_after hag hp (fun a ha => hrs p r hm a (List.mem_append_right _ ha)) env n
              (fun a ha => hrs p r hm a (List.mem_append_left _ ha)) ht
      · exact ⟨rfl, fun _ e => by cases e; exact ht⟩
    simp only [processLoop]
    split
    · rw [← hproc.1, ← hag.phases p hp]
      cases hr : rs.process env n t p i with
      | panic => exact ⟨rfl, fun _ _ e => by cases e⟩
      | fuel => exact ⟨rfl, fun _ _ e => by cases e⟩
      | ok u =>
        have hu : q < u.touch.phase := hproc.2 u hr
        simp only [Res.bind_ok']
        split
        · exact ⟨rfl, fun _ _ e => by cases e; exact hu⟩
        · rw [← hag.phases _ hu]
          obtain ⟨_, g, _, _⟩ := Tx.next_spec u.touch (rs.phases u.touch.phase).length
          obtain ⟨k1, k2⟩ := ih (u.touch.next (rs.phases u.touch.phase).length).2 (u.touch.next (rs.phases u.touch.phase).length).1 (by rw [g]; exact hu)
          rw [← k1]
          refine ⟨rfl, fun t' tr e => ?_⟩
          obtain ⟨⟨t2, tr2⟩, e1, e2⟩ := Res.bind_eq_ok.1 e
          cases e2
          exact k2 _ _ e1
    · exact ⟨rfl, fun _ _ e => by cases e; exact ht⟩

theorem processPhase_after (hag : rs.AgreeAfter q rs') (hrs : rs.Forward) (hq : q ≤ 6) (env : Env) (n : Nat) (p : Int) {t : Tx} (ht : q ≤ t.phase) :
    processPhase env rs n p t = processPhase env rs' n p t ∧ ∀ t' tr, processPhase env rs n p t = .ok (t', tr) → q ≤ t'.phase := by
  simp only [processPhase]
  split
  · exact ⟨rfl, fun _ _ e => by cases e; exact ht⟩
  · next hlt =>
    have e0 : phaseBegin = 0 := rfl
    have e7 : phaseEnd = 7 := rfl
    have hj : q < (t.jumpToPhase p).phase := by
      simp only [Tx.jumpToPhase]
      repeat' split
      all_goals omega
    simp only [processPhase']
    split
    · exact ⟨rfl, fun _ _ e => by cases e; omega⟩
    · rw [← hag.phases _ hj]
      obtain ⟨_, g, _, _⟩ := Tx.next_spec (t.jumpToPhase p) (rs.phases (t.jumpToPhase p).phase).length
      obtain ⟨k1, k2⟩ := processLoop_after hag hrs env (p := p) (by omega) n ((t.jumpToPhase p).next (rs.phases (t.jumpToPhase p).phase).length).2
        ((t.jumpToPhase p).next (rs.phases (t.jumpToPhase p).phase).length).1 (by rw [g]; exact hj)
      exact ⟨k1, fun t' tr e => by have := k2 t' tr e; omega⟩

theorem steps_after (hag : rs.AgreeAfter q rs') (hrs : rs.Forward) (hq : q ≤ 6) (env : Env) (n : Nat) : ∀ {ops : List Op},
    (∀ op ∈ ops, op.keepsCursor = true) → ∀ {t : Tx}, q ≤ t.phase → t.steps env rs n ops = t.steps env rs' n ops := by
  intro ops
  induction ops with
  | nil => intro _ t _; rfl
  | cons op ops ih =>
    intro hops t ht
    have run : ∀ (p : Int) (u : Tx), u.phase = t.phase →
        ((processPhase env rs n p u).bind fun (t, tr) => .ok (t, Out.unit, tr)) = ((processPhase env rs' n p u).bind fun (t, tr) => .ok (t, Out.unit, tr)) ∧
        ∀ t' o tr, ((processPhase env rs n p u).bind fun (t, tr) => .ok (t, Out.unit, tr)) = Res.ok (t', o, tr) → q ≤ t'.phase := by
      intro p u hu
      obtain ⟨k1, k2⟩ := processPhase_after hag hrs hq env n p (t := u) (by omega)
      refine ⟨by rw [k1], fun t' o tr e => ?_⟩
      obtain ⟨⟨t1, tr1⟩, g1, g2⟩ := Res.bind_eq_ok.1 e
      cases g2
      exact k2 _ _ g1
    have hstep : t.step env rs n op = t.step env rs' n op ∧ ∀ t' o tr, t.step env rs n op = .ok (t', o, tr) → q ≤ t'.phase := by
      have keep : ∀ (u : Tx) (o : Out), u.phase = t.phase →
          (Res.ok (u, o, ([] : Trace)) = .ok (u, o, [])) ∧ ∀ t' o' tr, Res.ok (u, o, ([] : Trace)) = .ok (t', o', tr) → q ≤ t'.phase :=
        fun u o hu => ⟨rfl, fun _ _ _ e => by cases e; omega⟩
      have hk := hops op List.mem_cons_self
      cases op with
      | processConnection a b c d => exact run _ _ rfl
      | processRequestHeader h => exact run _ _ rfl
      | processRequestBody => exact run _ _ rfl
      | processResponseHeaders a b c => exact run _ _ rfl
      | processResponseBody => exact run _ _ rfl
      | processLogging => exact run _ _ rfl
      | processPhase p => exact run _ _ rfl
      | appendRequestBody p io =>
        refine ⟨rfl, fun t' o tr e => ?_⟩
        obtain ⟨⟨b, k, e'⟩, g1, g2⟩ := Res.bind_eq_ok.1 e
        cases g2; exact ht
      | appendResponseBody p io =>
        refine ⟨rfl, fun t' o tr e => ?_⟩
        obtain ⟨⟨b, k, e'⟩, g1, g2⟩ := Res.bind_eq_ok.1 e
        cases g2; exact ht
      | processRequestURL a b c => exact keep _ _ rfl
      | result => exact keep t.result.1 (.intervention t.result.2) (by simp only [Tx.result]; split <;> rfl)
      | intervention => exact keep _ _ rfl
      | resetIntervention => exact keep _ _ rfl
      | abortWithStatus c => exact keep _ _ rfl
      | abortWithError c e => exact keep _ _ rfl
      | logf m => exact keep _ _ rfl
      | jumpToPhase i => exact absurd hk Bool.false_ne_true
      | nextPhase => exact absurd hk (by decide)
      | jumpTo i => exact absurd hk Bool.false_ne_true
      | next => exact absurd hk (by decide)
    simp only [Tx.steps, ← hstep.1]
    cases hr : t.step env rs n op with
    | panic => rfl
    | fuel => rfl
    | ok x =>
      obtain ⟨t1, o, tr⟩ := x
      simp only [Res.bind_ok']
      rw [ih (fun op' h' => hops op' (List.mem_cons_of_mem _ h')) (hstep.2 t1 o tr hr)]

end

/-- C79, what holds: rules registered for phases the transaction has already begun do
not affect it. -/
theorem C79_begun_phases_partial {rs : RuleSet} (hrs : rs.Forward) (env : Env) (n : Nat) {t : Tx} (rules : List Rule)
    (hr : ∀ r ∈ rules, r.phase ≤ t.phase) {ops : List Op} (hops : ∀ op ∈ ops, op.keepsCursor = true) :
    t.steps env (rs.addRules rules) n ops = t.steps env rs n ops := by
  let q : Int := min t.phase 6
  refine (steps_after (q := q) ⟨?_, (C35_registration rs rules).2.2.symm⟩ hrs (by omega) env n hops (by omega)).symm
  intro p hp
  obtain ⟨h1, h2, _⟩ := C35_registration rs rules
  by_cases h : 1 ≤ p ∧ p ≤ 6
  · rw [h1 p h.1 h.2]
    have : rules.filter (fun r => decide (r.phase = p)) = [] := by
      rw [List.filter_eq_nil_iff]
      intro r hm
      have := hr r hm
      simp only [decide_eq_true_eq]; omega
    rw [this, List.append_nil]
  · rw [h2 p (by omega)]

theorem callsOf_map (i : Nat) : ∀ ops : List Op, callsOf i (ops.map (.call i)) = ops
  | [] => rfl
  | op :: ops => by simp only [List.map_cons, callsOf, if_true, callsOf_map i ops]

/-- C79, what holds, in the form of the full claim: registering rules for phases the
transaction has already begun. -/
theorem C79_host_partial {lib : Lib} {ord : IterOrd} {n : Nat} {w w1 w2 : World} {os1 os2 : List HostOut} {rules : List Rule} {i a : Nat} {t : Tx}
    {ops : List Op} (hi : w.txs[i]? = some (a, t)) (hfr : a < w.heap.fresh) (hrs : (w.heap.sets a).Forward)
    (hr : ∀ r ∈ rules, r.phase ≤ t.phase) (hops : ∀ op ∈ ops, op.keepsCursor = true)
    (h1 : w.steps lib ord n (ops.map (.call i)) = .ok (w1, os1))
    (h2 : w.steps lib ord n (.addSecRule rules :: ops.map (.call i)) = .ok (w2, .unit :: os2)) :
    returnsOf i (ops.map (.call i)) os1 = returnsOf i (ops.map (.call i)) os2 := by
  obtain ⟨w', o, os', g1, g2, e⟩ := World.steps_cons h2
  cases e
  simp only [World.step, Res.ok.injEq, Prod.mk.injEq] at g1
  obtain ⟨rfl, _⟩ := g1
  have hq : ∀ op ∈ ops.map (HostOp.call i), op.Quiet a := by
    intro op hm
    obtain ⟨x, _, rfl⟩ := List.mem_map.1 hm
    trivial
  obtain ⟨t1, tr1, _, k1⟩ := C37_host h1 hi hfr hq
  obtain ⟨t2, tr2, _, k2⟩ := C37_host g2 hi hfr hq
  rw [callsOf_map] at k1 k2
  have e : (w.heap.step (.addSecRule rules)).sets a = w.heap.sets a ∨ (w.heap.step (.addSecRule rules)).sets a = (w.heap.sets a).addRules rules := by
    simp only [Heap.step, Heap.setEngine, Heap.modifySet]
    split
    · next h => right; rw [h]; rfl
    · left; rfl
  have k3 : t.steps { lib, ord, limits := w.heap.limits } ((w.heap.step (.addSecRule rules)).sets a) n ops = .ok (t2, returnsOf i (ops.map (.call i)) os2, tr2) := k2
  rcases e with e | e
  · rw [e, k1] at k3; simp only [Res.ok.injEq, Prod.mk.injEq] at k3; exact k3.2.1
  · rw [e, C79_begun_phases_partial hrs _ n rules hr hops, k1] at k3; simp only [Res.ok.injEq, Prod.mk.injEq] at k3; exact k3.2.1

/-- Equal up to the cursor into the rules of the phase. -/
def Tx.EqCursor (t u : Tx) : Prop := { t with currentRule := 0, nextRule := 0 } = ({ u with currentRule := 0, nextRule := 0 } : Tx)

theorem Tx.EqCursor.get {α : Type} {t u : Tx} (h : t.EqCursor u) (f : Tx → α) :
    f { t with currentRule := 0, nextRule := 0 } = f { u with currentRule := 0, nextRule := 0 } := congrArg f h

/-- Calls other than `Next` and `JumpTo` do not depend on the cursor. -/
theorem steps_cursor (env : Env) (rs : RuleSet) (n : Nat) : ∀ {ops : List Op}, (∀ op ∈ ops, op.keepsCursor = true) → ∀ {t u : Tx},
    t.EqCursor u → Res.Both (fun x y => Tx.EqCursor x.1 y.1 ∧ x.2 = y.2) (t.steps env rs n ops) (u.steps env rs n ops) := by
  intro ops
  induction ops with
  | nil => intro _ t u h; exact .ok ⟨h, rfl⟩
  | cons op ops ih =>
    intro hops t u h
    simp only [Tx.steps]
    have hrefl : ∀ x : Res (Tx × Out × Trace), Res.Both (fun x y => Tx.EqCursor x.1 y.1 ∧ x.2 = y.2) x x := by
      intro x; cases x
      · exact .ok ⟨rfl, rfl⟩
      · exact .panic
      · exact .fuel
    have run : ∀ (p : Int) {t u : Tx}, t.EqCursor u →
        Res.Both (fun x y : Tx × Out × Trace => Tx.EqCursor x.1 y.1 ∧ x.2 = y.2)
          ((processPhase env rs n p t).bind fun (t, tr) => .ok (t, .unit, tr)) ((processPhase env rs n p u).bind fun (t, tr) => .ok (t, .unit, tr)) := by
      intro p t u h
      have hph : t.phase = u.phase := h.get fun x => x.phase
      have hj : t.jumpToPhase p = u.jumpToPhase p := by
        have : t.jumpToPhase p = ({ t with currentRule := 0, nextRule := 0 } : Tx).jumpToPhase p := rfl
        rw [this, (h : _ = _)]; rfl
      simp only [processPhase, hph, hj]
      split
      · exact .ok ⟨h, rfl⟩
      · exact hrefl _
    have upd : ∀ (f : Tx → Tx) (_ : ∀ x : Tx, { f x with currentRule := 0, nextRule := 0 } = f { x with currentRule := 0, nextRule := 0 }),
        (f t).EqCursor (f u) := by
      intro f hf
      show _ = _
      rw [hf, hf, (h : _ = _)]
    have out : ∀ (f : Tx → Tx) (o : Tx → Out) (_ : ∀ x : Tx, { f x with currentRule := 0, nextRule := 0 } = f { x with currentRule := 0, nextRule := 0 })
        (_ : ∀ x : Tx, o x = o { x with currentRule := 0, nextRule := 0 }),
        Res.Both (fun x y : Tx × Out × Trace => Tx.EqCursor x.1 y.1 ∧ x.2 = y.2) (.ok (f t, o t, [])) (.ok (f u, o u, [])) := by
      intro f o h1 h2
      refine .ok ⟨upd f h1, ?_⟩
      show (o t, []) = (o u, [])
      rw [h2, h2 u, (h : _ = _)]
    have hstep : Res.Both (fun x y : Tx × Out × Trace => Tx.EqCursor x.1 y.1 ∧ x.2 = y.2) (t.step env rs n op) (u.step env rs n op) := by
      have hk := hops op List.mem_cons_self
      cases op with
      | processConnection a b c d => exact run _ (upd (fun t => { t with srcIp := a, srcPort := b, dstIp := c, dstPort := d }) (fun _ => rfl))
      | processRequestURL a b c => exact out (fun t => { t with url := a, method := b, reqProto := c }) (fun _ => .unit) (fun _ => rfl) (fun _ => rfl)
      | processRequestHeader a => exact run _ (upd (fun t => { t with reqHeader := orEmpty a }) (fun _ => rfl))
      | appendRequestBody p io =>
        have e : t.reqBody = u.reqBody := h.get fun x => x.reqBody
        simp only [Tx.step, e]
        cases hw : u.reqBody.write p io with
        | panic => exact .panic
        | fuel => exact .fuel
        | ok a => exact .ok ⟨upd (fun t => { t with reqBody := a.1 }) (fun _ => rfl), rfl⟩
      | processRequestBody => exact run _ h
      | processResponseHeaders a b c => exact run _ (upd (fun t => { t with respCode := a, respProto := b, respHeader := orEmpty c }) (fun _ => rfl))
      | appendResponseBody p io =>
        have e : t.respBody = u.respBody := h.get fun x => x.respBody
        simp only [Tx.step, e]
        cases hw : u.respBody.write p io with
        | panic => exact .panic
        | fuel => exact .fuel
        | ok a => exact .ok ⟨upd (fun t => { t with respBody := a.1 }) (fun _ => rfl), rfl⟩
      | processResponseBody => exact run _ h
      | processLogging => exact run _ h
      | processPhase p => exact run _ h
      | result =>
        refine out (fun t => t.result.1) (fun t => .intervention t.result.2) (fun x => ?_) (fun _ => rfl)
        simp only [Tx.result]
        have : ({ x with currentRule := 0, nextRule := 0 } : Tx).touch.abort = x.touch.abort := rfl
        rw [this]
        split <;> rfl
      | intervention => exact out Tx.touch (fun t => .intervention t.intervention) (fun _ => rfl) (fun _ => rfl)
      | resetIntervention => exact out Tx.resetIntervention (fun _ => .unit) (fun _ => rfl) (fun _ => rfl)
      | abortWithStatus c => exact out (fun t => t.abortWithStatus c) (fun _ => .unit) (fun _ => rfl) (fun _ => rfl)
      | abortWithError c e => exact out (fun t => t.abortWithError c e) (fun _ => .unit) (fun _ => rfl) (fun _ => rfl)
      | logf m => exact out (fun t => t.log m) (fun _ => .unit) (fun _ => rfl) (fun _ => rfl)
      | jumpToPhase i => exact absurd hk Bool.false_ne_true
      | nextPhase => exact absurd hk (by decide)
      | jumpTo i => exact absurd hk Bool.false_ne_true
      | next => exact absurd hk (by decide)
    refine hstep.bind ?_
    rintro ⟨t1, o1⟩ ⟨u1, o2⟩ ⟨h1, h2⟩
    refine (ih (fun op' h' => hops op' (List.mem_cons_of_mem _ h')) h1).bind ?_
    rintro ⟨t2, o3⟩ ⟨u2, o4⟩ ⟨h3, h4⟩
    simp only at h2 h4
    subst h2 h4
    exact .ok ⟨h3, rfl⟩

theorem steps_join {env : Env} {rs : RuleSet} {n : Nat} : ∀ {ops ops' : List Op} {t t1 t2 : Tx} {os1 os2 : List Out} {tr1 tr2 : Trace},
    t.steps env rs n ops = .ok (t1, os1, tr1) → t1.steps env rs n ops' = .ok (t2, os2, tr2) →
    t.steps env rs n (ops ++ ops') = .ok (t2, os1 ++ os2, tr1 ++ tr2) := by
  intro ops
  induction ops with
  | nil => intro ops' t t1 t2 os1 os2 tr1 tr2 h1 h2; cases h1; exact h2
  | cons op ops ih =>
    intro ops' t t1 t2 os1 os2 tr1 tr2 h1 h2
    obtain ⟨u, o, tr3, os3, tr4, g1, g2, rfl, rfl⟩ := steps_cons h1
    simp only [List.cons_append, Tx.steps, g1, Res.bind_ok', ih g2 h2, List.append_assoc]

/-- C79, what holds: rules registered for phases after all those processed so far are
in force for the rest of the transaction as if they had been there from the start. -/
theorem C79_later_phases_partial {q : Int} {rs : RuleSet} {rules : List Rule} (hq : 0 ≤ q) (hx : ∀ r ∈ rules, q < r.phase)
    (hi : ∀ p ≤ q, ∀ r ∈ rs.phases p, ∀ a ∈ r.allActions, a.IgnoresNext) (hd : ∀ a ∈ rs.defaultActions, a.IgnoresNext)
    (env : Env) (n : Nat) {before after : List Op} (hb : ∀ op ∈ before, op.upTo q) (ha : ∀ op ∈ after, op.keepsCursor = true)
    {t t1 t2 : Tx} {os1 os2 : List Out} {tr1 tr2 : Trace} (h1 : t.steps env rs n before = .ok (t1, os1, tr1))
    (h2 : t1.steps env (rs.addRules rules) n after = .ok (t2, os2, tr2)) :
    ∃ t2', t.steps env (rs.addRules rules) n (before ++ after) = .ok (t2', os1 ++ os2, tr1 ++ tr2) ∧ t2'.EqCursor t2 := by
  have k := C74_added_rules hq hx hi hd env n hb t
  rw [h1] at k
  generalize hy : t.steps env (rs.addRules rules) n before = y at k
  cases k with
  | ok hr =>
    rename_i b
    obtain ⟨u1, x1, y1⟩ := b
    simp only [Prod.mk.injEq] at hr
    obtain ⟨g1, rfl, rfl⟩ := hr
    have k2 := steps_cursor env (rs.addRules rules) n ha g1.same
    rw [h2] at k2
    generalize hz : u1.steps env (rs.addRules rules) n after = z at k2
    cases k2 with
    | ok hr =>
      rename_i b
      obtain ⟨u2, x2, y2⟩ := b
      simp only [Prod.mk.injEq] at hr
      obtain ⟨g2, rfl, rfl⟩ := hr
      refine ⟨u2, ?_, (show t2.EqCursor u2 from g2).symm⟩
      exact steps_join hy hz

/-- A deny rule for the request headers registered too late, and one registered in
time. -/
example :
    let deny : List Rule := [{ always [.deny] with phase := 2 }]
    let late : List HostOp := [.newTransaction false, .call 0 (.processRequestHeader none), .addSecRule deny, .call 0 .processRequestBody,
      .call 0 .processLogging, .call 0 .result]
    let early : List HostOp := [.newTransaction false, .call 0 (.processConnection [] [] [] []), .addSecRule deny,
      .call 0 (.processRequestHeader none), .call 0 .result]
    verdictsOf 0 late (World.steps lib ord 20 {} late) = [false] ∧ verdictsOf 0 early (World.steps lib ord 20 {} early) = [true] := by
  decide +kernel

end Verif
