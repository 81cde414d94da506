import Verif.Model.Strconv
/-! modsecurity/operators/compare.go -/
namespace Verif

/-- The five comparison functions of modsecurity/operators/compare.go:10-34. -/
inductive CmpKind where
  | eq | ge | gt | le | lt
deriving Repr, DecidableEq

/-- modsecurity/operators/compare.go:11-33: `fn(v, arg)`. -/
def CmpKind.fn : CmpKind → Int → Int → Bool
  | .eq, v, arg => v == arg
  | .ge, v, arg => decide (v ≥ arg)
  | .gt, v, arg => decide (v > arg)
  | .le, v, arg => decide (v ≤ arg)
  | .lt, v, arg => decide (v < arg)

/-- modsecurity/operators/compare.go:50-55 `OperatorCompare` (`fn` and `name`
are determined by the kind). -/
structure OperatorCompare where
  kind : CmpKind
  arg : Int
  argString : Bytes
deriving Repr, DecidableEq

/-- modsecurity/operators/compare.go:36-48 `newOperatorCompare`; `none` is an error. -/
def newOperatorCompare (k : CmpKind) (arg : Bytes) : Option OperatorCompare :=
  let arg := trimSpace arg
  match parseInt arg with
  | none => none
  | some v => some { kind := k, arg := v, argString := arg }

/-- modsecurity/operators/compare.go:64-71 `OperatorCompare.Match`. -/
def OperatorCompare.run (o : OperatorCompare) (s : Bytes) : Bool :=
  let s := trimSpace s
  let v := match parseInt s with
    | none => 0
    | some v => v
  o.kind.fn v o.arg

end Verif
