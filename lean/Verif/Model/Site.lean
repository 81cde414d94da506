import Verif.Model.Host
/-!
A host that configures its engine from rule texts (README.md, "Build Rules with
SecLang"; examples/rule_from_seclang_test.go): load some texts, serve any number of
transactions, load more texts, switch to a new rule set, and so on.
-/
namespace Verif

/-- seclang/rule_set.go:45-73 `AddSecLangString`, called for one text after the other
until one fails: the set, and whether all were read. -/
def DireSet.addAll (lib : Lib) (vo : VarOrd) : DireSet → List Bytes → Res (DireSet × Bool)
  | set, [] => .ok (set, true)
  | set, t :: ts =>
    (set.addSecLangString lib vo t).bind fun
      | (set, none) => DireSet.addAll lib vo set ts
      | (set, some _) => .ok (set, false)

/-- What such a host does. -/
inductive Deed where
  /-- read the texts into a new set, and execute it if there was no error -/
  | load (texts : List Bytes)
  | enable (status : Int)
  | setLimits (l : Limits)
  | newRuleSet
  | useRuleSet (a : Nat)
  | newTransaction (dirFails : Bool)
  | call (i : Nat) (op : Op)

/-- What it gets back. -/
inductive DeedOut where
  | done
  | loaded (ok : Bool)
  | created (i : Option Nat)
  | returned (o : Out)
deriving DecidableEq

/-- A value returned by the engine. -/
def HostOut.out : HostOut → DeedOut
  | .unit => .done
  | .created i => .created i
  | .returned o => .returned o

/-- One step. -/
def World.deed (lib : Lib) (vo : VarOrd) (ord : IterOrd) (n : Nat) (w : World) : Deed → Res (World × DeedOut)
  | .load texts =>
    (DireSet.addAll lib vo [] texts).bind fun (set, ok) =>
      if ok then (w.step lib ord n (.execute set)).bind fun (w, _) => .ok (w, .loaded true)
      else .ok (w, .loaded false)
  | .enable s => (w.step lib ord n (.enable s)).bind fun (w, o) => .ok (w, o.out)
  | .setLimits l => (w.step lib ord n (.setLimits l)).bind fun (w, o) => .ok (w, o.out)
  | .newRuleSet => (w.step lib ord n .newRuleSet).bind fun (w, o) => .ok (w, o.out)
  | .useRuleSet a => (w.step lib ord n (.useRuleSet a)).bind fun (w, o) => .ok (w, o.out)
  | .newTransaction b => (w.step lib ord n (.newTransaction b)).bind fun (w, o) => .ok (w, o.out)
  | .call i op => (w.step lib ord n (.call i op)).bind fun (w, o) => .ok (w, o.out)

/-- A run. -/
def World.deeds (lib : Lib) (vo : VarOrd) (ord : IterOrd) (n : Nat) : World → List Deed → Res (World × List DeedOut)
  | w, [] => .ok (w, [])
  | w, d :: ds =>
    (w.deed lib vo ord n d).bind fun (w, o) =>
      (World.deeds lib vo ord n w ds).bind fun (w, os) => .ok (w, o :: os)

end Verif
