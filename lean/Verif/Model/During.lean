import Verif.Model.Transaction
/-!
A call on a transaction while other goroutines change what it shares with them:
the rule set its pointer leads to and the limits of the engine.  The call reads them
again and again, each time as they then are; here every such read has its own time,
and `look` tells what memory holds at that time.  The transaction itself belongs to
one goroutine.  (Reads and writes of one slice header or map entry are taken as
indivisible, which the Go memory model does not grant without a lock.)
-/
namespace Verif

/-- What a transaction reads of the rest of the program. -/
structure Scene where
  env : Env
  rules : RuleSet

/-- modsecurity/sec_rule.go:68-74 `FetchAllTransformedVariables`: every variable looks at
the limits at its own time.  Here and below also given: the time after it. -/
def fetchVarsDuring (look : Nat → Scene) (r : Rule) : List Var → Nat → Tx → Res (List Bytes × Tx × Nat)
  | [], k, t => .ok ([], t, k)
  | v :: vs, k, t =>
    (r.transformVariable (look k).env v t).bind fun (x, t) =>
      (fetchVarsDuring look r vs (k + 1) t).bind fun (y, t, k) => .ok (x ++ y, t, k)

/-- modsecurity/sec_rule.go:76-86 `Match`. -/
def Rule.matchesDuring (look : Nat → Scene) (r : Rule) (k : Nat) (t : Tx) : Res (Bool × Tx × Nat) :=
  (fetchVarsDuring look r r.vars k t).bind fun (vals, t, k) =>
    (matchLoop r t vals).bind fun b => .ok (b, t, k)

/-- modsecurity/sec_rule.go:93-97: all sub-rules match. -/
def matchSubsDuring (look : Nat → Scene) : List Rule → Nat → Tx → Res (Bool × Tx × Nat)
  | [], k, t => .ok (true, t, k)
  | s :: ss, k, t =>
    (s.matchesDuring look k t).bind fun (b, t, k) => if !b then .ok (false, t, k) else matchSubsDuring look ss k t

/-- Actions one after the other, each at its own time. -/
def doAllDuring (d : Action → Nat → Tx → Res (Tx × Nat)) : List Action → Nat → Tx → Res (Tx × Nat)
  | [], k, t => .ok (t, k)
  | a :: as, k, t => (d a k t).bind fun (t, k) => doAllDuring d as k t

/-- modsecurity/sec_rule.go:104-114 `ActionsExecute`. -/
def actionsExecuteDuring (d : Action → Nat → Tx → Res (Tx × Nat)) (as : List Action) (k : Nat) (t : Tx) : Res (Tx × Nat) :=
  match actionMap as (List.replicate groupCount []) with
  | none => .panic
  | some m => doAllDuring d m.flatten k t

/-- `Action.Do`: `skip` reads the length of the phase, `block` the list of default actions
(which then are executed one after the other). -/
def Action.runDuring (look : Nat → Scene) : Nat → Action → Nat → Tx → Res (Tx × Nat)
  | 0, .block, _, _ => .fuel
  | n + 1, .block, k, t => actionsExecuteDuring (Action.runDuring look n) (look k).rules.defaultActions (k + 1) t
  | n, a, k, t => (a.run (look k).rules n t).bind fun t => .ok (t, k + 1)

/-- modsecurity/sec_rule.go:99-101: the actions of the sub-rules. -/
def subActionsDuring (look : Nat → Scene) (fuel : Nat) : List Rule → Nat → Tx → Res (Tx × Nat)
  | [], k, t => .ok (t, k)
  | s :: ss, k, t => (actionsExecuteDuring (Action.runDuring look fuel) s.actions k t).bind fun (t, k) => subActionsDuring look fuel ss k t

/-- modsecurity/sec_rule.go:88-102 `Do`. -/
def Rule.runDuring (look : Nat → Scene) (fuel : Nat) (r : Rule) (k : Nat) (t : Tx) : Res (Tx × Nat) :=
  (r.matchesDuring look k t).bind fun (b, t, k) =>
    if !b then .ok (t, k)
    else (matchSubsDuring look r.subRules k t).bind fun (b, t, k) =>
      if !b then .ok (t, k)
      else (actionsExecuteDuring (Action.runDuring look fuel) r.actions k t).bind fun (t, k) =>
        subActionsDuring look fuel r.subRules k t

/-- modsecurity/sec_rule.go:147-156 `Process`: the phase's slice is read at time `k`;
the rule found there is evaluated from the time `k + 1` on. -/
def processDuring (look : Nat → Scene) (fuel k : Nat) (t : Tx) (phase offset : Int) : Res (Tx × Nat) :=
  let p := (look k).rules.phases phase
  if (p.length : Int) > offset then
    if offset < 0 then .panic
    else match p[offset.toNat]? with
      | none => .panic
      | some r => r.runDuring look fuel (k + 1) t
  else .ok (t, k)

/-- modsecurity/transaction.go:168-175: the loop of `processPhase`, begun at time `k`;
`Next` (lines 95-105) reads the length some time after the rule has been evaluated. -/
def processLoopDuring (look : Nat → Scene) (phase : Int) : Nat → Nat → Int → Tx → Res (Tx × Trace × Nat)
  | 0, _, _, _ => .fuel
  | n + 1, k, next, t =>
    if t.phase = phase ∧ next ≠ statusEndOfRules then
      (processDuring look n k t phase next).bind fun (t, e) =>
        let t := t.touch
        let ev : Trace := if next < ((look k).rules.phases phase).length then [(phase, next)] else []
        if t.intervention.disruptive then .ok (t, ev, e)
        else
          let (t, next) := t.next ((look (e + 1)).rules.phases t.phase).length
          (processLoopDuring look phase n (e + 2) next t).bind fun (t, tr, e) => .ok (t, ev ++ tr, e)
    else .ok (t, [], k)

/-- modsecurity/transaction.go:155-176 `ProcessPhase`, `processPhase`, begun at time `k`. -/
def processPhaseDuring (look : Nat → Scene) (fuel k : Nat) (phase : Int) (t : Tx) : Res (Tx × Trace × Nat) :=
  if t.phase ≥ phase then .ok (t, [], k)
  else
    let t := t.jumpToPhase phase
    if t.abort then .ok (t, [], k)
    else
      let (t, next) := t.next ((look k).rules.phases t.phase).length
      processLoopDuring look phase fuel (k + 1) next t

/-- One API call begun at time `k` (modsecurity/transaction.go:95-263): as `Tx.step`,
and the time at the end.  Calls that run no phase look once at most. -/
def Tx.stepDuring (look : Nat → Scene) (fuel k : Nat) (t : Tx) : Op → Res (Tx × Out × Trace × Nat)
  -- lines 178-184
  | .processConnection a b c d =>
    let t := { t with srcIp := a, srcPort := b, dstIp := c, dstPort := d }
    (processPhaseDuring look fuel k phaseConnection t).bind fun (t, tr, e) => .ok (t, .unit, tr, e)
  -- lines 190-196
  | .processRequestHeader h =>
    let t := { t with reqHeader := orEmpty h }
    (processPhaseDuring look fuel k phaseRequestHeaders t).bind fun (t, tr, e) => .ok (t, .unit, tr, e)
  -- lines 202-204
  | .processRequestBody =>
    (processPhaseDuring look fuel k phaseRequestBody t).bind fun (t, tr, e) => .ok (t, .unit, tr, e)
  -- lines 206-214
  | .processResponseHeaders code proto h =>
    let t := { t with respCode := code, respProto := proto, respHeader := orEmpty h }
    (processPhaseDuring look fuel k phaseResponseHeaders t).bind fun (t, tr, e) => .ok (t, .unit, tr, e)
  -- lines 220-222
  | .processResponseBody =>
    (processPhaseDuring look fuel k phaseResponseBody t).bind fun (t, tr, e) => .ok (t, .unit, tr, e)
  -- lines 224-226
  | .processLogging =>
    (processPhaseDuring look fuel k phaseLogging t).bind fun (t, tr, e) => .ok (t, .unit, tr, e)
  -- lines 155-161
  | .processPhase p =>
    (processPhaseDuring look fuel k p t).bind fun (t, tr, e) => .ok (t, .unit, tr, e)
  | op => (t.step (look k).env (look k).rules fuel op).bind fun (t, o, tr) => .ok (t, o, tr, k)

/-- Calls one after the other, the first begun at time `k`, each next one some time
after the end of the one before. -/
def Tx.stepsDuring (look : Nat → Scene) (fuel : Nat) : Nat → Tx → List Op → Res (Tx × List Out × Trace × Nat)
  | k, t, [] => .ok (t, [], [], k)
  | k, t, op :: ops =>
    (t.stepDuring look fuel k op).bind fun (t, o, tr, e) =>
      (Tx.stepsDuring look fuel (e + 1) t ops).bind fun (t, os, tr', e) => .ok (t, o :: os, tr ++ tr', e)

end Verif
