import Verif.Proofs.Compare
/-! C10, C11: the numeric operators (modsecurity/operators/compare.go). -/
namespace Verif
open Spec

/-- The relation each operator is documented to test. -/
def Spec.Cmp : CmpKind → Int → Int → Prop
  | .eq, v, n => v = n
  | .ge, v, n => n ≤ v
  | .gt, v, n => n < v
  | .le, v, n => v ≤ n
  | .lt, v, n => v < n

theorem cmp_fn (k : CmpKind) (v n : Int) : k.fn v n = true ↔ Cmp k v n := by
  cases k <;> simp [CmpKind.fn, Cmp]

/-- C10: an operator built from a numeral of value `n` matches a numeral of value
`v` iff the relation holds between `v` and `n`. -/
theorem C10_compare (k : CmpKind) (arg s : Bytes) (n v : Int) (ha : Numeral arg n) (hs : Numeral s v) :
    ∃ o, newOperatorCompare k arg = some o ∧ (o.run s = true ↔ Cmp k v n) := by
  have h1 := (parse_trim_iff _ _).2 ha
  have h2 := (parse_trim_iff _ _).2 hs
  refine ⟨_, by simp only [newOperatorCompare, h1]; rfl, ?_⟩
  simp only [OperatorCompare.run, h2]
  exact cmp_fn k v n

/-- C10: every 64-bit integer has such a numeral, the one `strconv.Itoa` prints. -/
theorem C10_every_int64 (n : Int) (h : InInt64 n) (l r : Bytes) (hl : Blank l) (hr : Blank r) :
    Numeral (l ++ itoa n ++ r) n := ⟨l, _, r, rfl, hl, hr, itoa_decimal n, h⟩

-- a negative number between a tab and a no-break space
example : ∃ o, newOperatorCompare .lt b!" +007 " = some o ∧ o.run b!"\t-12\u00a0" = true := by decide +kernel
example : Numeral b!"\t-12\u00a0" (-12) := by
  rw [show b!"\t-12\u00a0" = b!"\t" ++ itoa (-12) ++ b!"\u00a0" by decide +kernel]
  exact C10_every_int64 _ (by unfold InInt64; omega) _ _ ⟨['\t'], by decide, by decide⟩ ⟨['\u00a0'], by decide, by decide⟩

/-- C11: a value that is no 64-bit numeral is compared as 0. -/
theorem C11_value_as_zero (k : CmpKind) (arg s : Bytes) (n : Int) (ha : Numeral arg n)
    (hs : ¬ ∃ v, Numeral s v) : ∃ o, newOperatorCompare k arg = some o ∧ (o.run s = true ↔ Cmp k 0 n) := by
  have h1 := (parse_trim_iff _ _).2 ha
  have h2 : parseInt (trimSpace s) = none := by
    cases h : parseInt (trimSpace s) with
    | none => rfl
    | some v => exact absurd ⟨v, (parse_trim_iff _ _).1 h⟩ hs
  refine ⟨_, by simp only [newOperatorCompare, h1]; rfl, ?_⟩
  simp only [OperatorCompare.run, h2]
  exact cmp_fn k 0 n

/-- C11: the constructor fails exactly on arguments that are no 64-bit numeral. -/
theorem C11_bad_argument (k : CmpKind) (arg : Bytes) :
    newOperatorCompare k arg = none ↔ ¬ ∃ n, Numeral arg n := by
  constructor
  · rintro h ⟨n, hn⟩
    simp only [newOperatorCompare, (parse_trim_iff _ _).2 hn] at h
    cases h
  · intro h
    have h2 : parseInt (trimSpace arg) = none := by
      cases h' : parseInt (trimSpace arg) with
      | none => rfl
      | some v => exact absurd ⟨v, (parse_trim_iff _ _).1 h'⟩ h
    simp only [newOperatorCompare, h2]

-- the first integer above the range, and text
example : ¬ ∃ v, Numeral b!"9223372036854775808" v :=
  (C11_bad_argument .eq _).1 (by decide +kernel)
example : ¬ ∃ v, Numeral b!"12abc" v := (C11_bad_argument .eq _).1 (by decide +kernel)

end Verif
