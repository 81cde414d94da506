import Verif.Model.Seclang
/-!
Rules a host builds in Go from the stock variables, transformations, operators and
actions, as in examples/rule_from_go_test.go.  A rule is given by the calls that make it.
-/
namespace Verif

/-- The calls that make a variable: a constructor (modsecurity/variables/*.go), `Include`
and `Exclude` on the result (whose error the host ignores), and `NewCountVariable`
(modsecurity/variables/count.go:9-11). -/
inductive HostVar where
  | new (tk : VarTok)
  | include (v : HostVar) (s : Bytes)
  | exclude (v : HostVar) (s : Bytes)
  | count (v : HostVar)

/-- The variable; there is no constructor for XML.  A rejected selector changes nothing. -/
def HostVar.make (lib : Lib) : HostVar → Option Var
  | .new tk => variableFactory tk
  | .include v s => (v.make lib).map fun x => (x.include lib s).getD x
  | .exclude v s => (v.make lib).map fun x => (x.exclude lib s).getD x
  | .count v => (v.make lib).map .count

/-- The constructors of actions (modsecurity/actions/*.go). -/
inductive HostAct where
  | deny | log | block | pass | skip
  | status (n : Int)
  | allow (arg : Bytes)
deriving DecidableEq

/-- The action. -/
def HostAct.make : HostAct → Action
  | .deny => .deny
  | .log => .log
  | .block => .block
  | .pass => .pass
  | .skip => .skip
  | .status n => .status n
  | .allow arg => .allow arg

/-- A rule (modsecurity/sec_rule.go:18-51).  `op` is the constructor of the operator
(modsecurity/operators/*.go) and its argument: none if `SetOperator` is not called. -/
inductive HostRule where
  | mk (id phase : Int) (vars : List HostVar) (trans : List TransTok) (op : Option (OpTok × Bytes)) (not : Bool) (acts : List HostAct) (subs : List HostRule)

/-- `NewOperatorRx`, `NewOperatorEq`, ...: nil on an error (compare.go:36-41, rx.go:9-13). -/
def hostOperator (lib : Lib) (tk : OpTok) (arg : Bytes) : Option Operator :=
  match tk with
  | .rx => newOperatorRx lib arg
  | .eq => (newOperatorCompare .eq arg).map .cmp
  | .ge => (newOperatorCompare .ge arg).map .cmp
  | .gt => (newOperatorCompare .gt arg).map .cmp
  | .le => (newOperatorCompare .le arg).map .cmp
  | .lt => (newOperatorCompare .lt arg).map .cmp

mutual
/-- The rule. -/
def HostRule.make (lib : Lib) : HostRule → Rule
  | .mk id phase vars trans op not acts subs =>
    { id, phase, not
      vars := vars.filterMap (HostVar.make lib)
      trans := trans.map transFactory
      op := op.bind fun o => hostOperator lib o.1 o.2
      actions := acts.map HostAct.make
      subRules := HostRule.makeAll lib subs }

/-- Rules. -/
def HostRule.makeAll (lib : Lib) : List HostRule → List Rule
  | [] => []
  | r :: rs => r.make lib :: HostRule.makeAll lib rs
end

/-- A rule set with the rules and default actions added (modsecurity/sec_rule.go:116-145). -/
def hostRules (lib : Lib) (rules : List HostRule) (defaults : List HostAct) : RuleSet :=
  (RuleSet.addRules {} (rules.map (HostRule.make lib))).addDefaultActions (defaults.map HostAct.make)

/-- A call on a transaction, with the limits and the rules at that time: the host may
change both between calls. -/
structure HostCall where
  limits : Limits
  rules : List HostRule
  defaults : List HostAct := []
  ord : IterOrd
  op : Op

/-- A sequence of calls. -/
def Tx.hostCalls (lib : Lib) (n : Nat) : Tx → List HostCall → Res (Tx × List Out)
  | t, [] => .ok (t, [])
  | t, c :: cs =>
    (t.step { lib, ord := c.ord, limits := c.limits } (hostRules lib c.rules c.defaults) n c.op).bind fun (t, o, _) =>
      (Tx.hostCalls lib n t cs).bind fun (t, os) => .ok (t, o :: os)

/-! ### Rules as objects

Rules and variables are shared by pointer: a host may go on changing them after they were
added to a rule set, and add them to several.  Slices are not shared. -/

/-- A variable the host holds: the object a constructor made (`base` is its number) behind
`counts` times `NewCountVariable`, which has nothing of its own to change
(modsecurity/variables/count.go:9-15). -/
structure VarRef where
  base : Nat
  counts : Nat := 0
deriving DecidableEq

/-- A `SecRule` (modsecurity/sec_rule.go:18-28) with its variables and sub-rules by
reference. -/
structure RuleObj where
  phase : Int := 0
  vars : List VarRef := []
  trans : List Trans := []
  op : Option Operator := none
  not : Bool := false
  actions : List Action := []
  subs : List Nat := []

/-- The objects the host has made. -/
structure Shop where
  bases : List Var := []
  vars : List VarRef := []
  objs : List RuleObj := []

/-- The variable as it is now. -/
def Shop.var (s : Shop) (v : VarRef) : Option Var := (s.bases[v.base]?).map (v.counts.repeat Var.count)

/-- A rule as it is now, without its sub-rules. -/
def Shop.alone (s : Shop) (o : RuleObj) : Rule where
  phase := o.phase
  vars := o.vars.filterMap s.var
  trans := o.trans
  op := o.op
  not := o.not
  actions := o.actions

/-- A rule as it is now.  A rule may be a sub-rule of itself; the tree is cut below the
sub-rules, since what is below them is never read (`run_cut`). -/
def Shop.rule (s : Shop) (o : RuleObj) : Rule := { s.alone o with subRules := o.subs.filterMap fun i => (s.objs[i]?).map s.alone }

/-- What the host does with rules and variables. -/
inductive ShopAct where
  /-- a constructor of modsecurity/variables -/
  | newVar (tk : VarTok)
  /-- `NewCountVariable` -/
  | newCount (v : Nat)
  /-- `Include` -/
  | incl (v : Nat) (s : Bytes)
  /-- `Exclude` -/
  | excl (v : Nat) (s : Bytes)
  /-- `NewSecRule`, `&SecRule{}` -/
  | newRule
  /-- assignment to `Phase` -/
  | phase (r : Nat) (q : Int)
  /-- assignment to `Not` -/
  | negate (r : Nat) (b : Bool)
  /-- `AppendVariables`, or assignment to `Variables` -/
  | vars (r : Nat) (append : Bool) (vs : List Nat)
  /-- `AppendTrans`, or assignment to `Trans` -/
  | trans (r : Nat) (append : Bool) (ts : List TransTok)
  /-- a constructor of modsecurity/operators and `SetOperator` -/
  | operator (r : Nat) (tk : OpTok) (arg : Bytes)
  /-- `SetOperator(nil)` -/
  | noOperator (r : Nat)
  /-- `AppendActions`, or assignment to `Actions` -/
  | actions (r : Nat) (append : Bool) (as : List HostAct)
  /-- `AppendSubRules`, or assignment to `SubRules` -/
  | subs (r : Nat) (append : Bool) (rs : List Nat)

/-- What it gets back: the number of what was made, or whether there was no error. -/
inductive ShopOut where
  | made (i : Nat)
  | ok (b : Bool)
deriving DecidableEq

/-- Change a rule. -/
def Shop.change (s : Shop) (r : Nat) (f : RuleObj → RuleObj) : Res (Shop × ShopOut) :=
  match s.objs[r]? with
  | none => .panic
  | some o => .ok ({ s with objs := s.objs.set r (f o) }, .ok true)

/-- Change the object behind a variable. -/
def Shop.select (s : Shop) (v : Nat) (f : Var → Option Var) : Res (Shop × ShopOut) :=
  match s.vars[v]? with
  | none => .panic
  | some r => match s.bases[r.base]? with
    | none => .panic
    | some x => match f x with
      | none => .ok (s, .ok false)
      | some y => .ok ({ s with bases := s.bases.set r.base y }, .ok true)

/-- A slice after append or assignment. -/
def added {α : Type} (append : Bool) (old new : List α) : List α := if append then old ++ new else new

/-- One step.  Naming something that was never made is a panic, and so is making a variable
that has no constructor. -/
def Shop.act (lib : Lib) (s : Shop) : ShopAct → Res (Shop × ShopOut)
  | .newVar tk => match variableFactory tk with
    | none => .panic
    | some x => .ok ({ s with bases := s.bases ++ [x], vars := s.vars ++ [{ base := s.bases.length }] }, .made s.vars.length)
  | .newCount v => match s.vars[v]? with
    | none => .panic
    | some r => .ok ({ s with vars := s.vars ++ [{ r with counts := r.counts + 1 }] }, .made s.vars.length)
  | .incl v t => s.select v fun x => x.include lib t
  | .excl v t => s.select v fun x => x.exclude lib t
  | .newRule => .ok ({ s with objs := s.objs ++ [{}] }, .made s.objs.length)
  | .phase r q => s.change r fun o => { o with phase := q }
  | .negate r b => s.change r fun o => { o with not := b }
  | .vars r a vs => if vs.any fun v => (s.vars[v]?).isNone then .panic
    else s.change r fun o => { o with vars := added a o.vars (vs.filterMap fun v => s.vars[v]?) }
  | .trans r a ts => s.change r fun o => { o with trans := added a o.trans (ts.map transFactory) }
  | .operator r tk arg => (s.change r fun o => { o with op := hostOperator lib tk arg }).bind fun x => .ok (x.1, .ok (hostOperator lib tk arg).isSome)
  | .noOperator r => s.change r fun o => { o with op := none }
  | .actions r a as => s.change r fun o => { o with actions := added a o.actions (as.map HostAct.make) }
  | .subs r a rs => if rs.any fun i => (s.objs[i]?).isNone then .panic
    else s.change r fun o => { o with subs := added a o.subs rs }

/-- What a rule set refers to: a rule of a text, or one the host made. -/
inductive Stored where
  | loaded (r : Rule)
  | obj (i : Nat)

/-- A `SecRuleSet` (modsecurity/sec_rule.go:122-125): the rules with the phase they have
when added, and the default actions. -/
structure Rack where
  entries : List (Int × Stored) := []
  defaults : List Action := []

/-- `AddRules`, one rule (modsecurity/sec_rule.go:139-144). -/
def Rack.add (k : Rack) (e : Int × Stored) : Rack :=
  if e.1 ≥ phaseEnd ∨ e.1 ≤ phaseBegin then k else { k with entries := k.entries ++ [e] }

/-- The rule as it is now. -/
def Shop.stored (s : Shop) : Stored → Option Rule
  | .loaded r => some r
  | .obj i => (s.objs[i]?).map s.rule

/-- The rule set as it is now. -/
def Rack.ruleSet (k : Rack) (s : Shop) : RuleSet where
  phases := fun q => (k.entries.filter fun e => e.1 = q).filterMap fun e => s.stored e.2
  defaultActions := k.defaults

end Verif
