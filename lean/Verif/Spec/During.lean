import Verif.Model.During
/-! One moment for every call: what it means that a call made while the rule set is
being changed has happened at once. -/
namespace Verif

/-- One change of what transactions share. -/
inductive Spec.Change where
  /-- one rule appended (`SecRuleSet.AddRules`, `Engine.AddSecRule`) -/
  | rule (r : Rule)
  /-- `SecRuleSet.AddDefaultActions` -/
  | defaults (as : List Action)
  /-- assignment to `Engine.Limits` -/
  | limits (l : Limits)

def Spec.Change.apply (s : Scene) : Spec.Change → Scene
  | .rule r => { s with rules := s.rules.addRule r }
  | .defaults as => { s with rules := s.rules.addDefaultActions as }
  | .limits l => { s with env := { s.env with limits := l } }

/-- What there is after the first `m` changes. -/
def Spec.moment (s : Scene) (cs : List Spec.Change) (m : Nat) : Scene := (cs.take m).foldl Spec.Change.apply s

/-- Calls made one after the other, each at once, at its own moment. -/
def Spec.stepsAt (M : Nat → Scene) (fuel : Nat) : Tx → List (Nat × Op) → Res (Tx × List Out × Trace)
  | t, [] => .ok (t, [], [])
  | t, (m, op) :: ops =>
    (t.step (M m).env (M m).rules fuel op).bind fun (t, o, tr) =>
      (Spec.stepsAt M fuel t ops).bind fun (t, os, tr') => .ok (t, o :: os, tr ++ tr')

end Verif
