import Verif.Model.Filter
/-! Selectors of variables: `COLLECTION:name`, `!COLLECTION:/re/`. -/
namespace Verif

/-- One selector of a variable: `COLLECTION:s` or `!COLLECTION:s`. -/
inductive Selector where
  | incl (s : Bytes)
  | excl (s : Bytes)

/-- `s` is `/re/`. -/
def Spec.IsRegex (s re : Bytes) : Prop := s = 47 :: (re ++ [47])

/-- The name `k` is what the selector text `s` denotes. -/
def Spec.Denotes (rx : Bytes → Option (Bytes → Bool)) (s k : Bytes) : Prop :=
  (∃ re f, Spec.IsRegex s re ∧ rx re = some f ∧ f k = true) ∨ ((¬ ∃ re, Spec.IsRegex s re) ∧ s = k)

/-- A filter after the given selectors; `none` when one of them is rejected. -/
def applySelectors (rx : Bytes → Option (Bytes → Bool)) : Filter → List Selector → Option Filter
  | f, [] => some f
  | f, .incl s :: ss => (f.include rx s).bind fun f => applySelectors rx f ss
  | f, .excl s :: ss => (f.exclude rx s).bind fun f => applySelectors rx f ss

/-- The names chosen by a list of selectors: included (or no inclusion given) and
not excluded. -/
def Spec.Chosen (rx : Bytes → Option (Bytes → Bool)) (ss : List Selector) (k : Bytes) : Prop :=
  ((∀ s, .incl s ∉ ss) ∨ ∃ s, .incl s ∈ ss ∧ Spec.Denotes rx s k) ∧ ¬ ∃ s, .excl s ∈ ss ∧ Spec.Denotes rx s k

end Verif
