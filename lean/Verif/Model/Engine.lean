import Verif.Model.Transaction
/-! modsecurity/engine.go -/
namespace Verif

/-- modsecurity/engine.go:3-9 `Engine` (`Config.TmpPath` only names a directory). -/
structure Engine where
  enabled : Bool := false
  detectionOnly : Bool := false
  ruleSet : RuleSet := {}
  limits : Limits := newDefaultLimits

/-- modsecurity/engine.go:36-42 `NewEngine`. -/
def newEngine : Engine := {}

/-- modsecurity/engine.go:44-48. -/
def statusOn : Int := 0
def statusOff : Int := 1
def statusDect : Int := 2

/-- modsecurity/engine.go:51-63 `Enable`. -/
def Engine.enable (e : Engine) (status : Int) : Engine :=
  if status = statusOn then { e with enabled := true, detectionOnly := false }
  else if status = statusOff then { e with enabled := false, detectionOnly := false }
  else if status = statusDect then { e with enabled := false, detectionOnly := true }
  else e

/-- modsecurity/engine.go:65-67 `AddSecRule`. -/
def Engine.addSecRule (e : Engine) (rules : List Rule) : Engine :=
  { e with ruleSet := e.ruleSet.addRules rules }

/-- modsecurity/engine.go:68-70 `NewTransaction`. -/
def Engine.newTransaction (e : Engine) : Tx := Verif.newTransaction e.limits

/-- The environment an engine's transactions run in.  A transaction keeps a
pointer to the engine, so limits are read at the time of the call. -/
def Engine.env (e : Engine) (lib : Lib) (ord : IterOrd) : Env := { lib, ord, limits := e.limits }

/-- Calls on a transaction of this engine. -/
def Engine.run (e : Engine) (lib : Lib) (ord : IterOrd) (fuel : Nat) (t : Tx) (ops : List Op) :
    Res (Tx × List Out × Trace) :=
  Tx.steps (e.env lib ord) e.ruleSet fuel t ops

end Verif
