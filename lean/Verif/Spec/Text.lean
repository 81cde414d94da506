import Verif.Model.Basic
/-!
Specifications about text: valid UTF-8 by Lean's own encoder, letter case,
adjacent spaces, blanks and decimal numerals by positional value.
-/
namespace Verif.Spec

/-- Valid UTF-8: the encoding of some sequence of characters. -/
def ValidUtf8 (s : Bytes) : Prop := ∃ cs : List Char, s = cs.flatMap String.utf8EncodeChar

/-- Every byte is ASCII. -/
def Ascii (s : Bytes) : Prop := ∀ b ∈ s, b.toNat < 128

/-- The same letter up to case. -/
def CaseEq (a b : UInt8) : Prop :=
  a = b ∨ (65 ≤ a.toNat ∧ a.toNat ≤ 90 ∧ b.toNat = a.toNat + 32) ∨
    (65 ≤ b.toNat ∧ b.toNat ≤ 90 ∧ a.toNat = b.toNat + 32)

/-- Two adjacent spaces somewhere. -/
def DoubleSpace (s : Bytes) : Prop := ∃ u v, s = u ++ 32 :: 32 :: v

/-- The code points with the Unicode property White_Space. -/
def whiteSpace : List Nat :=
  [9, 10, 11, 12, 13, 0x20, 0x85, 0xA0, 0x1680, 0x2000, 0x2001, 0x2002, 0x2003, 0x2004, 0x2005, 0x2006,
   0x2007, 0x2008, 0x2009, 0x200A, 0x2028, 0x2029, 0x202F, 0x205F, 0x3000]

/-- A string of white space. -/
def Blank (s : Bytes) : Prop :=
  ∃ cs : List Char, (∀ c ∈ cs, c.toNat ∈ whiteSpace) ∧ s = cs.flatMap String.utf8EncodeChar

/-- Text that neither begins nor ends with white space. -/
def Trimmed (s : Bytes) : Prop := ∀ w u, Blank w → s = w ++ u ∨ s = u ++ w → w = []

/-- Positional value of a digit string. -/
def digitSum : Bytes → Nat
  | [] => 0
  | d :: r => (d.toNat - 48) * 10 ^ r.length + digitSum r

/-- A non-empty string of decimal digits. -/
def Digits (s : Bytes) : Prop := s ≠ [] ∧ ∀ d ∈ s, 48 ≤ d.toNat ∧ d.toNat ≤ 57

/-- `s` is an optionally signed decimal numeral of value `v`. -/
def Decimal (s : Bytes) (v : Int) : Prop :=
  ∃ ds, Digits ds ∧
    ((s = ds ∧ v = digitSum ds) ∨ (s = 43 :: ds ∧ v = digitSum ds) ∨ (s = 45 :: ds ∧ v = -(digitSum ds : Int)))

/-- The range of a Go `int64`. -/
def InInt64 (v : Int) : Prop := -2 ^ 63 ≤ v ∧ v < 2 ^ 63

/-- `s` is a numeral of value `v` in the 64-bit range, possibly surrounded by white space. -/
def Numeral (s : Bytes) (v : Int) : Prop :=
  ∃ l a r, s = l ++ a ++ r ∧ Blank l ∧ Blank r ∧ Decimal a v ∧ InInt64 v

end Verif.Spec
