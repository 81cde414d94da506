import Verif.Spec.Rules
/-! When the request body may be inspected. -/
namespace Verif.Spec

/-- The request body may be read: access is switched on, the method has a body,
and the body is not empty. -/
def BodyReadable (l : Limits) (t : Tx) : Prop :=
  l.requestBodyAccess = true ∧ (t.method = b!"POST" ∨ t.method = b!"PUT" ∨ t.method = b!"PATCH") ∧ t.reqBody.len ≠ 0

/-- The media type of the request, as the library reads it off the Content-Type
header; a missing header counts as `application/octet-stream`. -/
def mediaType (lib : Lib) (t : Tx) : Bytes :=
  (lib.mediaType (if headerGet t.reqHeader b!"Content-Type" = [] then b!"application/octet-stream"
    else headerGet t.reqHeader b!"Content-Type")).1

/-- The request declares an urlencoded body. -/
def Urlencoded (lib : Lib) (t : Tx) : Prop :=
  headerGet t.reqHeader b!"Content-Type" ≠ [] ∧ mediaType lib t = b!"application/x-www-form-urlencoded"

/-- The request body is an urlencoded or multipart form. -/
def FormBody (lib : Lib) (t : Tx) : Prop :=
  b!"application/x-www-form-urlencoded" <+: mediaType lib t ∨ b!"multipart/" <+: mediaType lib t

end Verif.Spec

namespace Verif

/-- Variables that read the request body. -/
def Var.readsBody : Var → Bool
  | .requestBody | .argsPost _ | .argsPostNames _ | .args _ _ | .argsNames _ _ => true
  | .count v => v.readsBody
  | _ => false

/-- Variables that look at the fields of the body. -/
inductive Spec.LooksAtFields : Var → Prop
  | post (f : Filter) : LooksAtFields (.argsPost f)
  | postNames (f : Filter) : LooksAtFields (.argsPostNames f)
  | args (g p : Filter) : LooksAtFields (.args g p)
  | argsNames (g p : Filter) : LooksAtFields (.argsNames g p)
  | count {v : Var} : LooksAtFields v → LooksAtFields (.count v)

/-- No rule, and no rule chained to one, looks at the fields. -/
def Spec.NoFields (rs : RuleSet) : Prop := ∀ p, ∀ r ∈ rs.phases p, ∀ s ∈ r :: r.subRules, ∀ v ∈ s.vars, ¬ LooksAtFields v

/-- Variables that read the names of the request body's arguments. -/
def Var.readsPostNames : Var → Bool
  | .argsPostNames _ | .argsNames _ _ => true
  | .count v => v.readsPostNames
  | _ => false

end Verif
