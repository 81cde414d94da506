import Verif.Spec.Rules
import Verif.Spec.Text
/-! What rules write to the log. -/
namespace Verif

/-- One of the actions that come with the library. -/
def Action.Library : Action → Prop
  | .custom _ _ => False
  | _ => True

/-- The lines an action writes by itself. -/
def Action.linesAlone : Action → Nat
  | .deny | .log => 1
  | _ => 0

/-- The lines an action writes; `block` runs the default actions. -/
def RuleSet.linesOf (rs : RuleSet) : Action → Nat
  | .block => (rs.defaultActions.map Action.linesAlone).sum
  | a => a.linesAlone

/-- The lines a rule writes if it matches. -/
def RuleSet.linesOfRule (rs : RuleSet) (r : Rule) : Nat := (r.allActions.map rs.linesOf).sum

/-- The lines all rules write if all match. -/
def RuleSet.allLines (rs : RuleSet) : Nat :=
  (([1, 2, 3, 4, 5, 6] : List Int).map fun p => ((rs.phases p).map rs.linesOfRule).sum).sum

/-- No rule, nor a rule of a chain, reads more variables than this. -/
def RuleSet.ReadsAtMost (rs : RuleSet) (m : Nat) : Prop :=
  ∀ p, ∀ r ∈ rs.phases p, r.vars.length ≤ m ∧ ∀ s ∈ r.subRules, s.vars.length ≤ m

/-- A rule set that `AddRules` can have made, of the actions that come with the library, without
`block` among the default actions. -/
structure RuleSet.OfLibrary (rs : RuleSet) : Prop where
  phases : ∀ p, p ≤ 0 ∨ 7 ≤ p → rs.phases p = []
  acts : ∀ p, ∀ r ∈ rs.phases p, ∀ a ∈ r.allActions, a.Library
  defaults : ∀ a ∈ rs.defaultActions, a.Library ∧ a ≠ .block

/-- The lines that the host writes. -/
def Op.hostLines : Op → List Bytes
  | .logf m => [m]
  | .abortWithError _ e => [b!"abort process with error " ++ e]
  | _ => []

/-- The client that a call tells. -/
def Op.client : Op → List (Bytes × Bytes)
  | .processConnection a b _ _ => [(a, b)]
  | _ => []

namespace Spec

/-- The messages that come with the library. -/
inductive LibraryMessage : Bytes → Prop
  | denied : LibraryMessage b!"ModSecurity: Access denied with code 403"
  | ran {d e : Bytes} {p r : Int} : Decimal d p → Decimal e r → LibraryMessage (b!"ModSecurity: running action in phase " ++ d ++ b!" rule " ++ e)
  | tooLong : LibraryMessage b!"abort process with error out of memory limit"
  | tooLarge : LibraryMessage b!"abort process with error multipart: message too large"

/-- A line that names one of these clients, with a message of the library or one of these. -/
def LineBy (clients : List (Bytes × Bytes)) (msgs : List Bytes) (l : Bytes) : Prop :=
  ∃ c ∈ clients, ∃ d p msg, Decimal d p ∧ (LibraryMessage msg ∨ msg ∈ msgs) ∧
    l = b!"[client " ++ c.1 ++ b!":" ++ c.2 ++ b!"] (phase " ++ d ++ b!") " ++ msg

/-- The verdicts that calls returned. -/
def verdicts (os : List Out) : List Intervention := os.filterMap fun | .intervention i => some i | _ => none

/-- The lines in all that `Result` returned. -/
def handedOut : List Op → List Out → Nat
  | .result :: ops, .intervention i :: os => i.log.length + handedOut ops os
  | _ :: ops, _ :: os => handedOut ops os
  | _, _ => 0

end Spec
end Verif
