import Verif.Model.Basic
/-!
Specification of percent-encoding, independent of utils/urlencode.go: hex digit
values by table, encodings as a relation between texts and raw bytes, and
malformed escapes counted position by position.
-/
namespace Verif.Spec

/-- `c` is the hex digit of value `v`, in either case. -/
def HexVal (c : UInt8) (v : Nat) : Prop :=
  (v < 10 ∧ c.toNat = 48 + v) ∨ (10 ≤ v ∧ v < 16 ∧ (c.toNat = 65 + (v - 10) ∨ c.toNat = 97 + (v - 10)))

/-- `c` is a hex digit. -/
def IsHexDigit (c : UInt8) : Prop := ∃ v, HexVal c v

/-- `Encodes enc raw`: `enc` is a URL encoding of the raw bytes. -/
inductive Encodes : Bytes → Bytes → Prop
  /-- nothing -/
  | nil : Encodes [] []
  /-- a byte as itself -/
  | lit {c enc raw} : c ≠ 37 → c ≠ 43 → Encodes enc raw → Encodes (c :: enc) (c :: raw)
  /-- a space as '+' -/
  | plus {enc raw} : Encodes enc raw → Encodes (43 :: enc) (32 :: raw)
  /-- any byte as '%' and its two hex digits -/
  | hex {a b x va vb enc raw} : HexVal a va → HexVal b vb → x.toNat = 16 * va + vb →
      Encodes enc raw → Encodes (37 :: a :: b :: enc) (x :: raw)

/-- The text starts with a well-formed escape. -/
def WellFormedEscape (s : Bytes) : Prop := ∃ a b r, s = 37 :: a :: b :: r ∧ IsHexDigit a ∧ IsHexDigit b

/-- Position `i` of the text holds a '%' that does not start an escape. -/
def MalformedAt (s : Bytes) (i : Nat) : Prop := s[i]? = some 37 ∧ ¬ WellFormedEscape (s.drop i)

open Classical in
/-- How many positions hold a malformed '%'. -/
noncomputable def malformedCount (s : Bytes) : Nat :=
  ((List.range s.length).filter (fun i => decide (MalformedAt s i))).length

/-- The text contains `%u` or `%U`. -/
def HasPercentU (s : Bytes) : Prop := ∃ p r u, s = p ++ 37 :: u :: r ∧ (u = 117 ∨ u = 85)

/-- UTF-8 of a code point, by Lean's own encoder; U+FFFD for surrogates. -/
def utf8 (cp : Nat) : Bytes :=
  if 0xD800 ≤ cp ∧ cp ≤ 0xDFFF then String.utf8EncodeChar '\uFFFD' else String.utf8EncodeChar (Char.ofNat cp)

end Verif.Spec
