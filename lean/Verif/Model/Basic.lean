/-!
Common vocabulary of the model: byte strings, byte-string literals, and the
result of a Go computation that may panic or fail to terminate.
-/
namespace Verif

/-- Go `string` and `[]byte`: a sequence of bytes. -/
abbrev Bytes := List UInt8

open Lean in
/-- `b!"text"` is the list of the UTF-8 bytes of a literal. -/
macro:max "b!" s:str : term => do
  let bs := s.getString.toUTF8.toList
  let elts : Array (TSyntax `term) := bs.toArray.map fun b => Syntax.mkNumLit (toString b.toNat)
  `(([$elts,*] : List UInt8))

/-- Result of running a piece of Go code in the model: it returned a value, it
panicked, or the fuel given to the interpreter ran out (the computation had not
finished yet). -/
inductive Res (α : Type u) where
  | ok (a : α)
  | panic
  | fuel
deriving Repr, DecidableEq

namespace Res

/-- Sequencing: a panic or an unfinished computation is propagated. -/
@[inline] def bind {α : Type u} {β : Type v} : Res α → (α → Res β) → Res β
  | ok a, f => f a
  | panic, _ => panic
  | fuel, _ => fuel

instance : Monad Res where
  pure := ok
  bind := bind

@[simp] theorem bind_ok {α β : Type u} (a : α) (f : α → Res β) : (Res.ok a >>= f) = f a := rfl
@[simp] theorem bind_panic {α β : Type u} (f : α → Res β) : ((Res.panic : Res α) >>= f) = .panic := rfl
@[simp] theorem bind_fuel {α β : Type u} (f : α → Res β) : ((Res.fuel : Res α) >>= f) = .fuel := rfl
@[simp] theorem pure_eq {α : Type u} (a : α) : (pure a : Res α) = .ok a := rfl
@[simp] theorem bind_ok' {α : Type u} {β : Type v} (a : α) (f : α → Res β) : (Res.ok a).bind f = f a := rfl
@[simp] theorem bind_panic' {α : Type u} {β : Type v} (f : α → Res β) : (Res.panic : Res α).bind f = .panic := rfl
@[simp] theorem bind_fuel' {α : Type u} {β : Type v} (f : α → Res β) : (Res.fuel : Res α).bind f = .fuel := rfl

end Res

/-- A statement about every byte follows from its 256 instances. -/
theorem forall_u8 {P : UInt8 → Prop} (h : ∀ n : Fin 256, P (UInt8.ofNat n.val)) : ∀ b, P b := by
  intro b
  have := h ⟨b.toNat, b.toNat_lt⟩
  simpa using this

end Verif
