import Verif.Model.Seclang
/-!
A host program using one engine: several transactions alive at once, and the
engine reconfigured meanwhile.  A `*SecRuleSet` is shared by reference
(`Transaction.RuleSet` is the pointer the engine held at creation, while
`Transaction.Engine` leads to the current limits), so rule sets live in a heap.
Calls are atomic.
-/
namespace Verif

/-- The engine and all rule sets allocated so far. -/
structure Heap where
  enabled : Bool := false
  detectionOnly : Bool := false
  limits : Limits := newDefaultLimits
  /-- contents of the rule sets, by address; addresses from `fresh` on are unused -/
  sets : Nat → RuleSet := fun _ => {}
  fresh : Nat := 1
  /-- `Engine.RuleSet` (modsecurity/engine.go:6) -/
  cur : Nat := 0

/-- The engine value. -/
def Heap.engine (h : Heap) : Engine :=
  { enabled := h.enabled, detectionOnly := h.detectionOnly, ruleSet := h.sets h.cur, limits := h.limits }

/-- Change a rule set in place. -/
def Heap.modifySet (h : Heap) (a : Nat) (f : RuleSet → RuleSet) : Heap :=
  { h with sets := fun b => if b = a then f (h.sets a) else h.sets b }

/-- Store the result of an operation on the engine. -/
def Heap.setEngine (h : Heap) (e : Engine) : Heap :=
  { h.modifySet h.cur (fun _ => e.ruleSet) with enabled := e.enabled, detectionOnly := e.detectionOnly, limits := e.limits }

/-- What a host does. -/
inductive HostOp where
  /-- `Engine.Enable` -/
  | enable (status : Int)
  /-- assignment to `Engine.Limits` or its fields -/
  | setLimits (l : Limits)
  /-- `Engine.AddSecRule` -/
  | addSecRule (rules : List Rule)
  /-- `DireSet.Execute` -/
  | execute (set : DireSet)
  /-- `NewSecRuleSet` (modsecurity/sec_rule.go:116-120) -/
  | newRuleSet
  /-- `SecRuleSet.AddRules` -/
  | addRules (a : Nat) (rules : List Rule)
  /-- `SecRuleSet.AddDefaultActions` -/
  | addDefaultActions (a : Nat) (as : List Action)
  /-- assignment to `Engine.RuleSet` -/
  | useRuleSet (a : Nat)
  /-- `Engine.NewTransaction`; whether the temporary directory is unusable -/
  | newTransaction (dirFails : Bool)
  /-- a call on transaction `i` -/
  | call (i : Nat) (op : Op)

/-- What it gets back. -/
inductive HostOut where
  | unit
  /-- the number of the new transaction, or an error -/
  | created (i : Option Nat)
  | returned (o : Out)

/-- The effect on engine and rule sets; transactions have none. -/
def Heap.step (h : Heap) : HostOp → Heap
  | .enable s => h.setEngine (h.engine.enable s)
  | .setLimits l => { h with limits := l }
  | .addSecRule rules => h.setEngine (h.engine.addSecRule rules)
  | .execute set => h.setEngine (set.execute h.engine)
  | .newRuleSet => { h.modifySet h.fresh (fun _ => {}) with fresh := h.fresh + 1 }
  | .addRules a rules => h.modifySet a (·.addRules rules)
  | .addDefaultActions a as => h.modifySet a (·.addDefaultActions as)
  | .useRuleSet a => { h with cur := a }
  | .newTransaction _ => h
  | .call _ _ => h

/-- The whole state: the transactions with the rule set each points to. -/
structure World where
  heap : Heap := {}
  txs : List (Nat × Tx) := []

/-- One step.  `NewTransaction` (modsecurity/transaction.go:58-86) fails when the
buffer directory cannot be made (modsecurity/buffer.go:11-15, 126-138).  A call on a
transaction that does not exist is a nil dereference. -/
def World.step (lib : Lib) (ord : IterOrd) (n : Nat) (w : World) : HostOp → Res (World × HostOut)
  | .newTransaction true => .ok (w, .created none)
  | .newTransaction false =>
    .ok ({ w with txs := w.txs ++ [(w.heap.cur, w.heap.engine.newTransaction)] }, .created (some w.txs.length))
  | .call i op =>
    match w.txs[i]? with
    | none => .panic
    | some (a, t) =>
      (t.step (w.heap.engine.env lib ord) (w.heap.sets a) n op).bind fun (t, o, _) =>
        .ok ({ w with txs := w.txs.set i (a, t) }, .returned o)
  | op => .ok ({ w with heap := w.heap.step op }, .unit)

/-- A run of the host program. -/
def World.steps (lib : Lib) (ord : IterOrd) (n : Nat) : World → List HostOp → Res (World × List HostOut)
  | w, [] => .ok (w, [])
  | w, op :: ops =>
    (w.step lib ord n op).bind fun (w, o) =>
      (World.steps lib ord n w ops).bind fun (w, os) => .ok (w, o :: os)

end Verif
