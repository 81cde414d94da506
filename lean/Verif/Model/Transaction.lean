import Verif.Model.Rule
/-! modsecurity/transaction.go: phase processing and the public API. -/
namespace Verif

/-- Ghost record of the rules evaluated: (phase, position in the phase). -/
abbrev Trace := List (Int × Int)

/-- modsecurity/transaction.go:168-175: the loop of `processPhase`; `next` is
the loop variable.  Each iteration costs one unit of fuel; the same fuel bounds
`block` recursion.  The trace of evaluated positions is ghost output. -/
def processLoop (env : Env) (rs : RuleSet) (phase : Int) : Nat → Int → Tx → Res (Tx × Trace)
  | 0, _, _ => .fuel
  | n + 1, next, t =>
    if t.phase = phase ∧ next ≠ statusEndOfRules then
      (rs.process env n t phase next).bind fun t =>
        let t := t.touch
        let ev : Trace := if next < (rs.phases phase).length then [(phase, next)] else []
        if t.intervention.disruptive then .ok (t, ev)
        else
          let (t, next) := t.next (rs.phases t.phase).length
          (processLoop env rs phase n next t).bind fun (t, tr) => .ok (t, ev ++ tr)
    else .ok (t, [])

/-- modsecurity/transaction.go:163-176 `processPhase`. -/
def processPhase' (env : Env) (rs : RuleSet) (fuel : Nat) (phase : Int) (t : Tx) : Res (Tx × Trace) :=
  if t.abort then .ok (t, [])
  else
    let (t, next) := t.next (rs.phases t.phase).length
    processLoop env rs phase fuel next t

/-- modsecurity/transaction.go:155-161 `ProcessPhase`. -/
def processPhase (env : Env) (rs : RuleSet) (fuel : Nat) (phase : Int) (t : Tx) : Res (Tx × Trace) :=
  if t.phase ≥ phase then .ok (t, [])
  else processPhase' env rs fuel phase (t.jumpToPhase phase)

/-- The public methods of a transaction. -/
inductive Op where
  | processConnection (srcIp srcPort dstIp dstPort : Bytes)
  | processRequestURL (u : Option URL) (method proto : Bytes)
  | processRequestHeader (h : Option GoMap)
  | appendRequestBody (p : Bytes) (io : IOFault)
  | processRequestBody
  | processResponseHeaders (code : Int) (proto : Bytes) (h : Option GoMap)
  | appendResponseBody (p : Bytes) (io : IOFault)
  | processResponseBody
  | processLogging
  | processPhase (phase : Int)
  | result
  | intervention
  | resetIntervention
  | abortWithStatus (code : Int)
  | abortWithError (code : Int) (err : Err)
  | logf (msg : Bytes)
  | jumpToPhase (i : Int)
  | nextPhase
  | jumpTo (i : Int)
  | next
deriving DecidableEq

/-- What a call returns. -/
inductive Out where
  | unit
  | intervention (i : Intervention)
  | error (e : Option BufErr)
  | num (n : Int)
deriving DecidableEq

/-- `if h == nil { h = make(http.Header) }`. -/
def orEmpty (h : Option GoMap) : Option GoMap := some (h.getD [])

/-- One API call (modsecurity/transaction.go:95-263): new state, returned value
and the rules evaluated. -/
def Tx.step (env : Env) (rs : RuleSet) (fuel : Nat) (t : Tx) : Op → Res (Tx × Out × Trace)
  -- lines 178-184
  | .processConnection a b c d =>
    let t := { t with srcIp := a, srcPort := b, dstIp := c, dstPort := d }
    (processPhase env rs fuel phaseConnection t).bind fun (t, tr) => .ok (t, .unit, tr)
  -- lines 185-189
  | .processRequestURL u m p => .ok ({ t with url := u, method := m, reqProto := p }, .unit, [])
  -- lines 190-196
  | .processRequestHeader h =>
    let t := { t with reqHeader := orEmpty h }
    (processPhase env rs fuel phaseRequestHeaders t).bind fun (t, tr) => .ok (t, .unit, tr)
  -- lines 197-200
  | .appendRequestBody p io =>
    (t.reqBody.write p io).bind fun (b, _, e) => .ok ({ t with reqBody := b }, .error e, [])
  -- lines 202-204
  | .processRequestBody =>
    (processPhase env rs fuel phaseRequestBody t).bind fun (t, tr) => .ok (t, .unit, tr)
  -- lines 206-214
  | .processResponseHeaders code proto h =>
    let t := { t with respCode := code, respProto := proto, respHeader := orEmpty h }
    (processPhase env rs fuel phaseResponseHeaders t).bind fun (t, tr) => .ok (t, .unit, tr)
  -- lines 215-218
  | .appendResponseBody p io =>
    (t.respBody.write p io).bind fun (b, _, e) => .ok ({ t with respBody := b }, .error e, [])
  -- lines 220-222
  | .processResponseBody =>
    (processPhase env rs fuel phaseResponseBody t).bind fun (t, tr) => .ok (t, .unit, tr)
  -- lines 224-226
  | .processLogging =>
    (processPhase env rs fuel phaseLogging t).bind fun (t, tr) => .ok (t, .unit, tr)
  -- lines 155-161
  | .processPhase p => (processPhase env rs fuel p t).bind fun (t, tr) => .ok (t, .unit, tr)
  | .result => let (t, i) := t.result; .ok (t, .intervention i, [])
  | .intervention => .ok (t.touch, .intervention t.intervention, [])
  | .resetIntervention => .ok (t.resetIntervention, .unit, [])
  | .abortWithStatus c => .ok (t.abortWithStatus c, .unit, [])
  | .abortWithError c e => .ok (t.abortWithError c e, .unit, [])
  | .logf m => .ok (t.log m, .unit, [])
  | .jumpToPhase i => .ok (t.jumpToPhase i, .num (t.jumpToPhase i).phase, [])
  | .nextPhase => .ok (t.nextPhase, .num t.nextPhase.phase, [])
  | .jumpTo i =>
    let t := t.jumpTo (rs.phases t.phase).length i
    .ok (t, .num t.nextRule, [])
  | .next =>
    let (t, n) := t.next (rs.phases t.phase).length
    .ok (t, .num n, [])

/-- A sequence of calls: final state, outputs, rules evaluated (concatenated). -/
def Tx.steps (env : Env) (rs : RuleSet) (fuel : Nat) : Tx → List Op → Res (Tx × List Out × Trace)
  | t, [] => .ok (t, [], [])
  | t, op :: ops =>
    (t.step env rs fuel op).bind fun (t, o, tr) =>
      (Tx.steps env rs fuel t ops).bind fun (t, os, tr') => .ok (t, o :: os, tr ++ tr')

end Verif
