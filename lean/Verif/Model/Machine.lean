import Verif.Model.Engine
/-!
The same program on numbers of 64 bits.  In `modsecurity` numbers are computed in four places only:
`buffer.Write` (the length of the body), `Next`, `NextPhase` and `skip`.  Here `w` is what the
machine makes of the result of a computation: with the identity the definitions are those of
`Model/Buffer`, `Model/Tx`, `Model/Rule` and `Model/Transaction`, with `wrap64` they are what is executed.
-/
namespace Verif

/-- What is stored of a number in an `int64`, or in an `int` on a 64-bit machine. -/
def wrap64 (n : Int) : Int := (n + 2 ^ 63) % 2 ^ 64 - 2 ^ 63

/-- modsecurity/buffer.go:39-64 `Write`.  (Slices are taken to have no room behind them; a negative
length cannot be represented in `Buf`, and is taken for zero.) -/
def Buf.writeW (w : Int → Int) (b : Buf) (p : Bytes) (io : IOFault) : Res (Buf × Nat × Option BufErr) :=
  if b.readed then .ok (b, 0, some .bufferReaded)
  else if w (b.length + p.length) > b.fileLimit then .ok (b, 0, some .outOfFileLimit)
  else match b.fileBuf with
    | none =>
      if w (b.length + p.length) > b.memLimit then
        if w (b.memLimit - b.length) < 0 ∨ w (b.memLimit - b.length) > p.length then .panic
        else
          let b := { b with memBuf := b.memBuf ++ p.take (w (b.memLimit - b.length)).toNat }
          if io.tempFail then .ok (b, 0, some .io)
          else
            let (f, _, e) := File.write { content := [], pos := 0 } b.memBuf io.copyFail
            match e with
            | some e => .ok ({ b with fileBuf := some f }, 0, some e)
            | none =>
              let (f, wn, e) := f.write p io.writeFail
              .ok ({ b with fileBuf := some f, length := (w (b.length + wn)).toNat }, wn, e)
      else
        .ok ({ b with memBuf := b.memBuf ++ p, length := (w (b.length + p.length)).toNat }, p.length, none)
    | some f =>
      let (f, wn, e) := f.write p io.writeFail
      .ok ({ b with fileBuf := some f, length := (w (b.length + wn)).toNat }, wn, e)

/-- modsecurity/transaction.go:151-153 `NextPhase`. -/
def Tx.nextPhaseW (w : Int → Int) (t : Tx) : Tx := t.jumpToPhase (w (t.phase + 1))

/-- modsecurity/transaction.go:95-105 `Next`. -/
def Tx.nextW (w : Int → Int) (t : Tx) (nRules : Nat) : Tx × Int :=
  let t := { t with currentRule := t.nextRule }
  if t.currentRule = statusEndOfRules then (t, statusEndOfRules)
  else
    let t := { t with nextRule := w (t.nextRule + 1) }
    let t := if (nRules : Int) ≤ t.nextRule then { t with nextRule := statusEndOfRules } else t
    (t, t.currentRule)

/-- modsecurity/actions/allow.go:27-36. -/
def allowDoW (w : Int → Int) (arg : Bytes) (t : Tx) : Tx :=
  if arg = [] then t.jumpToPhase phaseLogging
  else if arg = b!"phase" then t.nextPhaseW w
  else if arg = b!"request" then t.jumpToPhase phaseResponseHeaders
  else t

/-- modsecurity/actions/skip.go:24-26. -/
def skipDoW (w : Int → Int) (rs : RuleSet) (t : Tx) : Tx :=
  t.jumpTo (rs.phases t.phase).length (w (t.currentRule + 2))

/-- `Action.Do`. -/
def Action.runW (w : Int → Int) (rs : RuleSet) : Nat → Action → Tx → Res Tx
  | 0, .block, _ => .fuel
  | n + 1, .block, t => actionsExecute (Action.runW w rs n) rs.defaultActions t
  | _, .skip, t => .ok (skipDoW w rs t)
  | _, .allow arg, t => .ok (allowDoW w arg t)
  | n, a, t => a.run rs n t

/-- modsecurity/sec_rule.go:99-101: the actions of the sub-rules. -/
def subActionsW (w : Int → Int) (rs : RuleSet) (fuel : Nat) : List Rule → Tx → Res Tx
  | [], t => .ok t
  | s :: ss, t => (actionsExecute (Action.runW w rs fuel) s.actions t).bind fun t => subActionsW w rs fuel ss t

/-- modsecurity/sec_rule.go:88-102 `Do`. -/
def Rule.runW (w : Int → Int) (env : Env) (rs : RuleSet) (fuel : Nat) (r : Rule) (t : Tx) : Res Tx :=
  (r.matches env t).bind fun (b, t) =>
    if !b then .ok t
    else (matchSubs env r.subRules t).bind fun (b, t) =>
      if !b then .ok t
      else (actionsExecute (Action.runW w rs fuel) r.actions t).bind fun t =>
        subActionsW w rs fuel r.subRules t

/-- modsecurity/sec_rule.go:147-156 `Process`. -/
def RuleSet.processW (w : Int → Int) (env : Env) (rs : RuleSet) (fuel : Nat) (t : Tx) (phase offset : Int) : Res Tx :=
  let p := rs.phases phase
  if (p.length : Int) > offset then
    if offset < 0 then .panic
    else match p[offset.toNat]? with
      | none => .panic
      | some r => r.runW w env rs fuel t
  else .ok t

/-- modsecurity/transaction.go:168-175: the loop of `processPhase`. -/
def processLoopW (w : Int → Int) (env : Env) (rs : RuleSet) (phase : Int) : Nat → Int → Tx → Res (Tx × Trace)
  | 0, _, _ => .fuel
  | n + 1, next, t =>
    if t.phase = phase ∧ next ≠ statusEndOfRules then
      (rs.processW w env n t phase next).bind fun t =>
        let t := t.touch
        let ev : Trace := if next < (rs.phases phase).length then [(phase, next)] else []
        if t.intervention.disruptive then .ok (t, ev)
        else
          let (t, next) := t.nextW w (rs.phases t.phase).length
          (processLoopW w env rs phase n next t).bind fun (t, tr) => .ok (t, ev ++ tr)
    else .ok (t, [])

/-- modsecurity/transaction.go:155-176 `ProcessPhase` and `processPhase`. -/
def processPhaseW (w : Int → Int) (env : Env) (rs : RuleSet) (fuel : Nat) (phase : Int) (t : Tx) : Res (Tx × Trace) :=
  if t.phase ≥ phase then .ok (t, [])
  else
    let t := t.jumpToPhase phase
    if t.abort then .ok (t, [])
    else
      let (t, next) := t.nextW w (rs.phases t.phase).length
      processLoopW w env rs phase fuel next t

/-- One API call (modsecurity/transaction.go:95-263); calls in which nothing is computed are
those of `Tx.step`. -/
def Tx.stepW (w : Int → Int) (env : Env) (rs : RuleSet) (fuel : Nat) (t : Tx) : Op → Res (Tx × Out × Trace)
  | .processConnection a b c d =>
    let t := { t with srcIp := a, srcPort := b, dstIp := c, dstPort := d }
    (processPhaseW w env rs fuel phaseConnection t).bind fun (t, tr) => .ok (t, .unit, tr)
  | .processRequestHeader h =>
    let t := { t with reqHeader := orEmpty h }
    (processPhaseW w env rs fuel phaseRequestHeaders t).bind fun (t, tr) => .ok (t, .unit, tr)
  | .appendRequestBody p io =>
    (t.reqBody.writeW w p io).bind fun (b, _, e) => .ok ({ t with reqBody := b }, .error e, [])
  | .processRequestBody =>
    (processPhaseW w env rs fuel phaseRequestBody t).bind fun (t, tr) => .ok (t, .unit, tr)
  | .processResponseHeaders code proto h =>
    let t := { t with respCode := code, respProto := proto, respHeader := orEmpty h }
    (processPhaseW w env rs fuel phaseResponseHeaders t).bind fun (t, tr) => .ok (t, .unit, tr)
  | .appendResponseBody p io =>
    (t.respBody.writeW w p io).bind fun (b, _, e) => .ok ({ t with respBody := b }, .error e, [])
  | .processResponseBody =>
    (processPhaseW w env rs fuel phaseResponseBody t).bind fun (t, tr) => .ok (t, .unit, tr)
  | .processLogging =>
    (processPhaseW w env rs fuel phaseLogging t).bind fun (t, tr) => .ok (t, .unit, tr)
  | .processPhase p => (processPhaseW w env rs fuel p t).bind fun (t, tr) => .ok (t, .unit, tr)
  | .nextPhase => .ok (t.nextPhaseW w, .num (t.nextPhaseW w).phase, [])
  | .next =>
    let (t, n) := t.nextW w (rs.phases t.phase).length
    .ok (t, .num n, [])
  | op => t.step env rs fuel op

/-- A sequence of calls. -/
def Tx.stepsW (w : Int → Int) (env : Env) (rs : RuleSet) (fuel : Nat) : Tx → List Op → Res (Tx × List Out × Trace)
  | t, [] => .ok (t, [], [])
  | t, op :: ops =>
    (t.stepW w env rs fuel op).bind fun (t, o, tr) =>
      (Tx.stepsW w env rs fuel t ops).bind fun (t, os, tr') => .ok (t, o :: os, tr ++ tr')

end Verif
