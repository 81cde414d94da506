import Verif.Model.Machine
/-! Numbers that fit in 64 bits. -/
namespace Verif.Spec

/-- A number that an `int64` can hold. -/
def Int64Range (n : Int) : Prop := -2 ^ 63 ≤ n ∧ n < 2 ^ 63

/-- The numbers given to a call. -/
def ArgsFit : Op → Prop
  | .processResponseHeaders code _ _ => Int64Range code
  | .processPhase p => Int64Range p
  | .abortWithStatus c => Int64Range c
  | .abortWithError c _ => Int64Range c
  | .jumpToPhase i => Int64Range i
  | .jumpTo i => Int64Range i
  | _ => True

/-- The bytes given to a call. -/
def bytesOf : Op → Nat
  | .appendRequestBody p _ => p.length
  | .appendResponseBody p _ => p.length
  | _ => 0

/-- The bytes given to calls in all. -/
def totalBytes (ops : List Op) : Nat := (ops.map bytesOf).sum

/-- Limits that an engine can be given. -/
structure LimitsFit (l : Limits) : Prop where
  requestBody : Int64Range l.requestBody
  requestBodyInMem : Int64Range l.requestBodyInMem
  responseBody : Int64Range l.responseBody

/-- An action of the host that does not touch what is only for the package: the bodies, and the position among the
rules (which it may set to numbers that fit). -/
structure Proper (f : Tx → Tx) : Prop where
  reqBody : ∀ t, (f t).reqBody = t.reqBody
  respBody : ∀ t, (f t).respBody = t.respBody
  phase : ∀ t, 0 ≤ t.phase ∧ t.phase ≤ 7 → 0 ≤ (f t).phase ∧ (f t).phase ≤ 7
  currentRule : ∀ t, Int64Range (t.currentRule + 2) → Int64Range t.currentRule → Int64Range ((f t).currentRule + 2) ∧ Int64Range (f t).currentRule
  nextRule : ∀ t, Int64Range (t.nextRule + 2) → Int64Range t.nextRule → Int64Range ((f t).nextRule + 2) ∧ Int64Range (f t).nextRule

/-- Rule sets as they can be: fewer rules in each phase than numbers, and proper actions. -/
structure RulesFit (rs : RuleSet) : Prop where
  count : ∀ p, (rs.phases p).length < 2 ^ 63 - 1
  default : ∀ a ∈ rs.defaultActions, ∀ g f, a = .custom g f → Proper f
  rules : ∀ p, ∀ r ∈ rs.phases p, ∀ a ∈ r.actions, ∀ g f, a = .custom g f → Proper f
  subs : ∀ p, ∀ r ∈ rs.phases p, ∀ s ∈ r.subRules, ∀ a ∈ s.actions, ∀ g f, a = .custom g f → Proper f

end Verif.Spec
