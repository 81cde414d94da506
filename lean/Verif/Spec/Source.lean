import Verif.Model.Literal
/-! Sources of rule texts. -/
namespace Verif.Spec

/-- A source gives the bytes `t` and never another one: after them, every read is an error. -/
structure Delivers (src : Nat → Read) (t : Bytes) : Prop where
  bytes : ∀ i c, t[i]? = some c → src i = .byte c
  ends : ∀ i, t.length ≤ i → ∀ c, src i ≠ .byte c

/-- It is a failure, and not the end of the text, that comes after the bytes. -/
def Broken (src : Nat → Read) (t : Bytes) : Prop := Delivers src t ∧ src t.length = .failed

/-- An ASCII letter. -/
def AsciiLetter (r : Nat) : Prop := (65 ≤ r ∧ r ≤ 90) ∨ (97 ≤ r ∧ r ≤ 122)

end Verif.Spec
