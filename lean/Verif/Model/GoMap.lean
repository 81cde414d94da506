import Verif.Model.Basic
/-!
`map[string][]string` (url.Values, http.Header, cookies): an association list
with unique keys.  The list order stands for nothing; a `range` applies an
arbitrary permutation (`Ord`).
-/
namespace Verif

/-- A Go `map[string][]string`. -/
abbrev GoMap := List (Bytes × List Bytes)

/-- Well-formedness: no key occurs twice. -/
def GoMap.WF (m : GoMap) : Prop := (m.map Prod.fst).Nodup

/-- `m[k]`, `none` when absent. -/
def GoMap.get? (m : GoMap) (k : Bytes) : Option (List Bytes) := m.lookup k

/-- `m[k] = append(m[k], v...)`. -/
def GoMap.append (m : GoMap) (k : Bytes) (v : List Bytes) : GoMap :=
  match m with
  | [] => [(k, v)]
  | (k', v') :: r => if k' = k then (k', v' ++ v) :: r else (k', v') :: GoMap.append r k v

/-- The order in which a `range` visits a map: an arbitrary permutation, which
may depend on the contents. -/
structure IterOrd where
  run : GoMap → GoMap
  perm : ∀ m, (run m).Perm m

/-- `http.Header.Get(k)` for a canonical key `k` on a possibly nil header. -/
def headerGet (h : Option GoMap) (k : Bytes) : Bytes :=
  match h with
  | none => []
  | some m =>
    match m.get? k with
    | some (v :: _) => v
    | _ => []

end Verif
