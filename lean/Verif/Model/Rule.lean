import Verif.Model.Variables
import Verif.Model.Transforms
import Verif.Model.Compare
/-! modsecurity/sec_rule.go, modsecurity/actions/*.go, modsecurity/operators/rx.go -/
namespace Verif

/-- modsecurity/transforms/*.go; `custom` is any other implementation. -/
inductive Trans where
  | lowercase | urlDecode | urlDecodeUni | none
  | compressWhitespace | removeWhitespace | replaceNulls | removeNulls
  | custom (f : Tx → Bytes → Bytes)

/-- `Trans.Trans`. -/
def Trans.run (lib : Lib) (t : Tx) : Trans → Bytes → Bytes
  | .lowercase, s => transLowercase lib.lowerHi s
  | .urlDecode, s => transUrlDecode s
  | .urlDecodeUni, s => transUrlDecodeUni s
  | .none, s => transNone s
  | .compressWhitespace, s => transCompressWhitespace s
  | .removeWhitespace, s => transRemoveWhitespace s
  | .replaceNulls, s => transReplaceNulls s
  | .removeNulls, s => transRemoveNulls s
  | .custom f, s => f t s

/-- modsecurity/operators/*.go; `custom` is any other implementation. -/
inductive Operator where
  | rx (r : Rx)
  | cmp (c : OperatorCompare)
  | custom (f : Tx → Bytes → Bool)

/-- modsecurity/operators/rx.go:9-18 `NewOperatorRx`. -/
def newOperatorRx (lib : Lib) (re : Bytes) : Option Operator := (lib.rx re).map fun f => .rx ⟨re, f⟩

/-- `Operator.Match` (rx.go:32-34, compare.go:64-71). -/
def Operator.run (t : Tx) : Operator → Bytes → Bool
  | .rx r, s => r.run s
  | .cmp c, s => c.run s
  | .custom f, s => f t s

/-- modsecurity/actions/*.go; `custom` is any other implementation, with its group. -/
inductive Action where
  | deny | log | block | pass | skip
  | status (n : Int)
  | allow (arg : Bytes)
  | custom (group : Int) (f : Tx → Tx)

/-- modsecurity/sec_rule.go:176-183 and the `ActionGroup` methods. -/
def groupMetaData : Int := 0
def groupData : Int := 1
def groupNonDisruptive : Int := 2
def groupDisruptive : Int := 3
def groupFlow : Int := 4
def groupCount : Nat := 5

/-- `Action.ActionGroup()`. -/
def Action.group : Action → Int
  | .deny => groupDisruptive            -- deny.go:12-14
  | .log => groupNonDisruptive          -- log.go:13-15
  | .block => groupDisruptive           -- block.go:13-15
  | .pass => groupDisruptive            -- pass.go:12-14
  | .skip => groupFlow                  -- skip.go:13-15
  | .status _ => groupData              -- status.go:17-19
  | .allow _ => groupDisruptive         -- allow.go:16-18
  | .custom g _ => g

/-- modsecurity/sec_rule.go:18-28 `SecRule`.  A nil `Operator` is `none`.
`MetaData` is carried for the loader; nothing in the engine reads it. -/
structure Rule where
  id : Int := 0
  phase : Int := 0
  vars : List Var := []
  trans : List Trans := []
  op : Option Operator := none
  actions : List Action := []
  not : Bool := false
  metaData : GoMap := []
  subRules : List Rule := []

/-- modsecurity/sec_rule.go:122-125 `SecRuleSet`: a nil or missing entry of
`Phases` is the empty list. -/
structure RuleSet where
  phases : Int → List Rule := fun _ => []
  defaultActions : List Action := []

/-- modsecurity/actions/deny.go:23-39. -/
def denyDo (t : Tx) : Tx :=
  let i := t.intervention
  let i :=
    if i.status = 200 then
      let status := match t.getData b!"status" with
        | some (.int s) => s
        | _ => 0
      if status ≥ 100 ∧ status ≤ 599 then { i with status := status } else { i with status := 403 }
    else i
  let t := t.setIntervention { i with disruptive := true }
  t.log b!"ModSecurity: Access denied with code 403"

/-- modsecurity/actions/log.go:23-25. -/
def logDo (t : Tx) : Tx :=
  t.log (b!"ModSecurity: running action in phase " ++ itoa t.phase ++ b!" rule " ++ itoa t.currentRule)

/-- modsecurity/actions/allow.go:27-36. -/
def allowDo (arg : Bytes) (t : Tx) : Tx :=
  if arg = [] then t.jumpToPhase phaseLogging
  else if arg = b!"phase" then t.nextPhase
  else if arg = b!"request" then t.jumpToPhase phaseResponseHeaders
  else t

/-- modsecurity/actions/skip.go:24-26. -/
def skipDo (rs : RuleSet) (t : Tx) : Tx :=
  t.jumpTo (rs.phases t.phase).length (t.currentRule + 2)

/-- modsecurity/sec_rule.go:105-108: sort the actions into their groups,
`none` when a group number is out of range (an index panic in Go). -/
def actionMap : List Action → List (List Action) → Option (List (List Action))
  | [], m => some m
  | a :: as, m =>
    if a.group < 0 ∨ a.group ≥ m.length then none
    else actionMap as (m.modify a.group.toNat (· ++ [a]))

/-- Run actions one after the other. -/
def doAll (d : Action → Tx → Res Tx) : List Action → Tx → Res Tx
  | [], t => .ok t
  | a :: as, t => (d a t).bind fun t => doAll d as t

/-- modsecurity/sec_rule.go:104-114 `ActionsExecute`, given how to run one action. -/
def actionsExecute (d : Action → Tx → Res Tx) (as : List Action) (t : Tx) : Res Tx :=
  match actionMap as (List.replicate groupCount []) with
  | none => .panic
  | some m => doAll d m.flatten t

/-- `Action.Do`.  `block` (block.go:24-29) runs the default actions, which may
contain `block` again: the fuel bounds this recursion. -/
def Action.run (rs : RuleSet) : Nat → Action → Tx → Res Tx
  | _, .deny, t => .ok (denyDo t)
  | _, .log, t => .ok (logDo t)
  | 0, .block, _ => .fuel
  | n + 1, .block, t => actionsExecute (Action.run rs n) rs.defaultActions t
  | _, .pass, t => .ok t.resetIntervention                              -- pass.go:23-25
  | _, .skip, t => .ok (skipDo rs t)
  | _, .status n, t => .ok (t.setData b!"status" (.int n))              -- status.go:28-30
  | _, .allow arg, t => .ok (allowDo arg t)
  | _, .custom _ f, t => .ok (f t)

/-- modsecurity/sec_rule.go:53-58 `TransformString`. -/
def Rule.transformString (env : Env) (r : Rule) (t : Tx) (s : Bytes) : Bytes :=
  r.trans.foldl (fun s tr => tr.run env.lib t s) s

/-- modsecurity/sec_rule.go:60-66 `TransformVariable`.  (The transformations see
the transaction as it is after the fetch.) -/
def Rule.transformVariable (env : Env) (r : Rule) (v : Var) (t : Tx) : Res (List Bytes × Tx) :=
  (v.fetch env t).bind fun (vs, t) => .ok (vs.map (r.transformString env t), t)

/-- modsecurity/sec_rule.go:68-74 `FetchAllTransformedVariables`. -/
def fetchVars (env : Env) (r : Rule) : List Var → Tx → Res (List Bytes × Tx)
  | [], t => .ok ([], t)
  | v :: vs, t =>
    (r.transformVariable env v t).bind fun (x, t) =>
      (fetchVars env r vs t).bind fun (y, t) => .ok (x ++ y, t)

/-- modsecurity/sec_rule.go:77-85: the matching loop over the fetched values.
Calling `Match` on a nil operator panics. -/
def matchLoop (r : Rule) (t : Tx) : List Bytes → Res Bool
  | [] => .ok false
  | v :: vs =>
    if t.abort then .ok false
    else match r.op with
      | none => .panic
      | some op => if r.not != op.run t v then .ok true else matchLoop r t vs

/-- modsecurity/sec_rule.go:76-86 `Match`. -/
def Rule.matches (env : Env) (r : Rule) (t : Tx) : Res (Bool × Tx) :=
  (fetchVars env r r.vars t).bind fun (vals, t) =>
    (matchLoop r t vals).bind fun b => .ok (b, t)

/-- modsecurity/sec_rule.go:93-97: all sub-rules match. -/
def matchSubs (env : Env) : List Rule → Tx → Res (Bool × Tx)
  | [], t => .ok (true, t)
  | s :: ss, t =>
    (s.matches env t).bind fun (b, t) => if !b then .ok (false, t) else matchSubs env ss t

/-- modsecurity/sec_rule.go:99-101: the actions of the sub-rules. -/
def subActions (rs : RuleSet) (fuel : Nat) : List Rule → Tx → Res Tx
  | [], t => .ok t
  | s :: ss, t => (actionsExecute (Action.run rs fuel) s.actions t).bind fun t => subActions rs fuel ss t

/-- modsecurity/sec_rule.go:88-102 `Do`. -/
def Rule.run (env : Env) (rs : RuleSet) (fuel : Nat) (r : Rule) (t : Tx) : Res Tx :=
  (r.matches env t).bind fun (b, t) =>
    if !b then .ok t
    else (matchSubs env r.subRules t).bind fun (b, t) =>
      if !b then .ok t
      else (actionsExecute (Action.run rs fuel) r.actions t).bind fun t =>
        subActions rs fuel r.subRules t

/-- modsecurity/sec_rule.go:135-145 `AddRules`, one rule. -/
def RuleSet.addRule (rs : RuleSet) (r : Rule) : RuleSet :=
  if r.phase ≥ phaseEnd ∨ r.phase ≤ phaseBegin then rs
  else { rs with phases := fun p => if p = r.phase then rs.phases r.phase ++ [r] else rs.phases p }

/-- modsecurity/sec_rule.go:135-145 `AddRules`. -/
def RuleSet.addRules (rs : RuleSet) (rules : List Rule) : RuleSet := rules.foldl RuleSet.addRule rs

/-- modsecurity/sec_rule.go:131-133 `AddDefaultActions`. -/
def RuleSet.addDefaultActions (rs : RuleSet) (as : List Action) : RuleSet :=
  { rs with defaultActions := rs.defaultActions ++ as }

/-- modsecurity/sec_rule.go:147-156 `Process`.  A negative offset passes the
length test and panics. -/
def RuleSet.process (env : Env) (rs : RuleSet) (fuel : Nat) (t : Tx) (phase offset : Int) : Res Tx :=
  let p := rs.phases phase
  if (p.length : Int) > offset then
    if offset < 0 then .panic
    else match p[offset.toNat]? with
      | none => .panic
      | some r => r.run env rs fuel t
  else .ok t

end Verif
