import Verif.Model.GoMap
import Verif.Model.Buffer
import Verif.Model.Strconv
/-!
modsecurity/transaction.go: the transaction record, interventions, logging and
the phase/rule cursor; modsecurity/engine.go: limits.  The rule set is kept
outside the record (it is shared and read-only during processing).
-/
namespace Verif

/-- `net/url.URL` (library type); `user` is the printed user information. -/
structure URL where
  scheme : Bytes := []
  opaque_ : Bytes := []
  user : Option Bytes := none
  host : Bytes := []
  path : Bytes := []
  rawPath : Bytes := []
  forceQuery : Bool := false
  rawQuery : Bytes := []
  fragment : Bytes := []
deriving Repr, DecidableEq

/-- modsecurity/transaction.go:273-279 `Intervention`. -/
structure Intervention where
  status : Int
  pause : Int := 0
  url : Option URL := none
  log : List Bytes := []
  disruptive : Bool := false
deriving Repr, DecidableEq

/-- modsecurity/transaction.go:281-287 `Reset`. -/
def Intervention.neutral : Intervention :=
  { status := 200, pause := 0, url := none, log := [], disruptive := false }

/-- The dynamic value stored in `Transaction.VariableCache` by
modsecurity/variables/request_body_parser.go: an untyped nil, a `url.Values`, or
a `*multipart.Form` that may itself be a nil pointer (only `.Value` is used). -/
inductive Parsed where
  | nil
  | values (m : GoMap)
  | form (f : Option GoMap)
deriving Repr, DecidableEq

/-- modsecurity/variables/request_body_parser.go:14-18, the two parsed body types. -/
inductive BodyType where
  | urlencoded | multipart
deriving Repr, DecidableEq

/-- An entry of `Transaction.Data`; only `int` values are distinguished. -/
inductive DataVal where
  | int (n : Int)
  | other
deriving Repr, DecidableEq

/-- Errors that reach `AbortWithError` / `RequestBodyError`, by message. -/
abbrev Err := Bytes

/-- modsecurity/buffer.go:36. -/
def errOutOfMemLimit : Err := b!"out of memory limit"
/-- `multipart.ErrMessageTooLarge` (library). -/
def errMessageTooLarge : Err := b!"multipart: message too large"

/-- modsecurity/transaction.go:14-29 `Transaction` (with the embedded NetInfo,
Request, Response, Errors).  `interv = none` is the nil pointer before first
use; a nil `http.Header` is `none`.  `Data` is an association list. -/
structure Tx where
  abort : Bool := false
  srcIp : Bytes := []
  srcPort : Bytes := []
  dstIp : Bytes := []
  dstPort : Bytes := []
  url : Option URL := none
  method : Bytes := []
  reqProto : Bytes := []
  reqHeader : Option GoMap := none
  reqBody : Buf
  respCode : Int := 0
  respProto : Bytes := []
  respHeader : Option GoMap := none
  respBody : Buf
  reqBodyError : Option Err := none
  cache : List (BodyType × Parsed) := []
  interv : Option Intervention := none
  phase : Int := 0
  currentRule : Int := -1
  nextRule : Int := 0
  data : List (Bytes × DataVal) := []

/-- modsecurity/sec_rule.go:7-16. -/
def phaseBegin : Int := 0
def phaseConnection : Int := 1
def phaseRequestHeaders : Int := 2
def phaseRequestBody : Int := 3
def phaseResponseHeaders : Int := 4
def phaseResponseBody : Int := 5
def phaseLogging : Int := 6
def phaseEnd : Int := 7

/-- modsecurity/transaction.go:31-32. -/
def statusNotStarted : Int := -1
def statusEndOfRules : Int := -2

/-- modsecurity/engine.go:11-17 `Limits`. -/
structure Limits where
  requestBodyAccess : Bool := false
  responseBodyAccess : Bool := false
  requestBody : Int
  requestBodyInMem : Int
  responseBody : Int
deriving Repr, DecidableEq

/-- modsecurity/engine.go:28-34 `NewDefaultLimits`. -/
def newDefaultLimits : Limits :=
  { requestBodyInMem := 131072, requestBody := 134217728, responseBody := 524228 }

/-- modsecurity/transaction.go:58-86 `NewTransaction` (engine and rule set
non-nil, temporary directory available). -/
def newTransaction (l : Limits) : Tx :=
  { reqBody := newBuffer l.requestBodyInMem l.requestBody
    respBody := newBuffer l.responseBody l.responseBody
    phase := phaseBegin
    currentRule := statusNotStarted
    nextRule := 0 }

/-- modsecurity/transaction.go:228-234 `Intervention()`: the value read. -/
def Tx.intervention (t : Tx) : Intervention := t.interv.getD Intervention.neutral

/-- modsecurity/transaction.go:228-234: the side effect of `Intervention()`,
allocating on first use. -/
def Tx.touch (t : Tx) : Tx := { t with interv := some t.intervention }

/-- Assign through the pointer returned by `Intervention()`. -/
def Tx.setIntervention (t : Tx) (i : Intervention) : Tx := { t with interv := some i }

/-- modsecurity/transaction.go:235-240 `ResetIntervention`. -/
def Tx.resetIntervention (t : Tx) : Tx := t.setIntervention Intervention.neutral

/-- modsecurity/transaction.go:265-271 `Logf`, given the formatted message. -/
def Tx.log (t : Tx) (msg : Bytes) : Tx :=
  let line := b!"[client " ++ t.srcIp ++ b!":" ++ t.srcPort ++ b!"] (phase " ++ itoa t.phase ++ b!") " ++ msg
  t.setIntervention { t.intervention with log := t.intervention.log ++ [line] }

/-- modsecurity/transaction.go:250-255 `AbortWithStatus`. -/
def Tx.abortWithStatus (t : Tx) (code : Int) : Tx :=
  let t := { t with abort := true }
  t.setIntervention { t.intervention with status := code, disruptive := true }

/-- modsecurity/transaction.go:242-248 `AbortWithError`. -/
def Tx.abortWithError (t : Tx) (code : Int) (err : Err) : Tx :=
  let t := { t with abort := true }
  let t := t.setIntervention { t.intervention with status := code, disruptive := true }
  t.log (b!"abort process with error " ++ err)

/-- modsecurity/transaction.go:257-263 `Result`. -/
def Tx.result (t : Tx) : Tx × Intervention :=
  let i := t.intervention
  let t := t.touch
  (if !t.abort then t.setIntervention Intervention.neutral else t, i)

/-- modsecurity/transaction.go:139-150 `JumpToPhase`. -/
def Tx.jumpToPhase (t : Tx) (i : Int) : Tx :=
  let i := if i < phaseBegin then phaseBegin else if i ≥ phaseEnd then phaseEnd else i
  { t with phase := i, currentRule := statusNotStarted, nextRule := 0 }

/-- modsecurity/transaction.go:151-153 `NextPhase`. -/
def Tx.nextPhase (t : Tx) : Tx := t.jumpToPhase (t.phase + 1)

/-- modsecurity/transaction.go:95-105 `Next`, given the number of rules of the
current phase: the new transaction and the returned rule number. -/
def Tx.next (t : Tx) (nRules : Nat) : Tx × Int :=
  let t := { t with currentRule := t.nextRule }
  if t.currentRule = statusEndOfRules then (t, statusEndOfRules)
  else
    let t := { t with nextRule := t.nextRule + 1 }
    let t := if (nRules : Int) ≤ t.nextRule then { t with nextRule := statusEndOfRules } else t
    (t, t.currentRule)

/-- modsecurity/transaction.go:126-133 `JumpTo`, given the number of rules of the
current phase. -/
def Tx.jumpTo (t : Tx) (nRules : Nat) (i : Int) : Tx :=
  if (nRules : Int) ≤ i then { t with nextRule := statusEndOfRules }
  else { t with nextRule := i }

/-- `t.Data[k]`. -/
def Tx.getData (t : Tx) (k : Bytes) : Option DataVal := t.data.lookup k

/-- `t.Data[k] = v`. -/
def Tx.setData (t : Tx) (k : Bytes) (v : DataVal) : Tx :=
  { t with data := (k, v) :: t.data.filter (fun e => e.1 != k) }

end Verif
