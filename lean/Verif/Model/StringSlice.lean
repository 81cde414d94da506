import Verif.Model.Basic
/-! utils/strings.go:23-47 `SameStringSlice` -/
namespace Verif

/-- `diff[k] += d` on a `map[string]int` (utils/strings.go:31, 38). -/
def diffAdd (d : Int) (k : Bytes) : List (Bytes × Int) → List (Bytes × Int)
  | [] => [(k, d)]
  | (k', n) :: r => if k' = k then (k', n + d) :: r else (k', n) :: diffAdd d k r

/-- `delete(diff, k)` (utils/strings.go:40). -/
def diffDel (k : Bytes) (m : List (Bytes × Int)) : List (Bytes × Int) := m.filter (fun e => e.1 != k)

/-- utils/strings.go:33-42: the second loop and the final test. -/
def sameLoop : List (Bytes × Int) → List Bytes → Bool
  | diff, [] => diff.length == 0
  | diff, y :: ys =>
    match diff.lookup y with
    | none => false
    | some _ =>
      let diff := diffAdd (-1) y diff
      if diff.lookup y = some 0 then sameLoop (diffDel y diff) ys else sameLoop diff ys

/-- utils/strings.go:23-47 `SameStringSlice`. -/
def sameStringSlice (x y : List Bytes) : Bool :=
  if x.length ≠ y.length then false
  else sameLoop (x.foldl (fun m k => diffAdd 1 k m) []) y

end Verif
