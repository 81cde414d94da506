import Verif.Model.Registry
/-! What a host has registered. -/
namespace Verif.Spec

/-- A call of `RegisterDir`. -/
structure Reg where
  token : Int
  name : Bytes
  factory : Factory

/-- The last element of a list that has a property. -/
def LastWith {α : Type} (P : α → Prop) (l : List α) (a : α) : Prop :=
  ∃ x y, l = x ++ a :: y ∧ P a ∧ ∀ b ∈ y, ¬ P b

/-- The factory that reads a directive of some name: of all registrations under that name, up
to the case of letters, the last one says which token it has; and of all registrations of
this token, the last one says what reads it. -/
def Reaches (lower : Bytes → Bytes) (regs : List Reg) (word : Bytes) (f : Factory) : Prop :=
  ∃ r r', LastWith (fun r => lower r.name = lower word) regs r ∧ LastWith (fun r' => r'.token = r.token) regs r' ∧ r'.factory = f

/-- The registrations of the package. -/
def packageRegs : List Reg :=
  [⟨128, b!"SecRule", .rule⟩, ⟨129, b!"SecRuleEngine", .tri 129⟩, ⟨130, b!"SecRequestBodyAccess", .bool 130⟩, ⟨131, b!"SecResponseBodyAccess", .bool 131⟩]

end Verif.Spec
