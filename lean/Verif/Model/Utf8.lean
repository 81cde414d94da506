import Verif.Model.Basic
/-!
The parts of Go's `unicode/utf8`, `unicode` and `strings` packages that the
repository relies on.  They are library code (not in /repo): re-implemented here
from the Go documentation and sources, and part of the trusted base.
-/
namespace Verif

/-- A Go `rune` as delivered by ranging over a string (never negative). -/
abbrev Rune := Nat

/-- `utf8.RuneError`. -/
def runeError : Rune := 0xFFFD

/-- Continuation byte, 0x80..0xBF. -/
def isCont (b : UInt8) : Bool := 0x80 ≤ b && b ≤ 0xBF

/-- First byte of a two-byte sequence. -/
def isLead2 (b : UInt8) : Bool := 0xC2 ≤ b && b ≤ 0xDF

/-- First two bytes of a three-byte sequence (with `utf8.acceptRanges`). -/
def isLead3 (b0 b1 : UInt8) : Bool :=
  (b0 == 0xE0 && 0xA0 ≤ b1 && b1 ≤ 0xBF) ||
  (b0 == 0xED && 0x80 ≤ b1 && b1 ≤ 0x9F) ||
  (0xE1 ≤ b0 && b0 ≤ 0xEF && b0 != 0xED && isCont b1)

/-- First two bytes of a four-byte sequence (with `utf8.acceptRanges`). -/
def isLead4 (b0 b1 : UInt8) : Bool :=
  (b0 == 0xF0 && 0x90 ≤ b1 && b1 ≤ 0xBF) ||
  (b0 == 0xF4 && 0x80 ≤ b1 && b1 ≤ 0x8F) ||
  (0xF1 ≤ b0 && b0 ≤ 0xF3 && isCont b1)

/-- A decoded unit of a string: the rune and the bytes it was decoded from. -/
structure Seg where
  rune : Rune
  bytes : Bytes
deriving Repr, DecidableEq

/-- `for _, c := range s` / `utf8.DecodeRuneInString` iterated: the runes of a
string with the bytes they come from.  An invalid byte gives `RuneError` and
consumes one byte. -/
def segs : Bytes → List Seg
  | [] => []
  | b0 :: r0 =>
    if b0 < 0x80 then ⟨b0.toNat, [b0]⟩ :: segs r0
    else match r0 with
      | [] => [⟨runeError, [b0]⟩]
      | b1 :: r1 =>
        if isLead2 b0 && isCont b1 then
          ⟨(b0.toNat - 0xC0) * 64 + (b1.toNat - 0x80), [b0, b1]⟩ :: segs r1
        else match r1 with
          | [] => ⟨runeError, [b0]⟩ :: segs (b1 :: [])
          | b2 :: r2 =>
            if isLead3 b0 b1 && isCont b2 then
              ⟨(b0.toNat - 0xE0) * 4096 + (b1.toNat - 0x80) * 64 + (b2.toNat - 0x80),
                [b0, b1, b2]⟩ :: segs r2
            else match r2 with
              | [] => ⟨runeError, [b0]⟩ :: segs (b1 :: b2 :: [])
              | b3 :: r3 =>
                if isLead4 b0 b1 && isCont b2 && isCont b3 then
                  ⟨(b0.toNat - 0xF0) * 262144 + (b1.toNat - 0x80) * 4096 +
                    (b2.toNat - 0x80) * 64 + (b3.toNat - 0x80), [b0, b1, b2, b3]⟩ :: segs r3
                else ⟨runeError, [b0]⟩ :: segs (b1 :: b2 :: b3 :: r3)

/-- `utf8.EncodeRune`. -/
def encodeRune (r : Rune) : Bytes :=
  if r ≤ 0x7F then [UInt8.ofNat r]
  else if r ≤ 0x7FF then [UInt8.ofNat (0xC0 + r / 64), UInt8.ofNat (0x80 + r % 64)]
  else if r > 0x10FFFF ∨ (0xD800 ≤ r ∧ r ≤ 0xDFFF) then [0xEF, 0xBF, 0xBD]
  else if r ≤ 0xFFFF then
    [UInt8.ofNat (0xE0 + r / 4096), UInt8.ofNat (0x80 + r / 64 % 64), UInt8.ofNat (0x80 + r % 64)]
  else
    [UInt8.ofNat (0xF0 + r / 262144), UInt8.ofNat (0x80 + r / 4096 % 64),
      UInt8.ofNat (0x80 + r / 64 % 64), UInt8.ofNat (0x80 + r % 64)]

/-- `strings.Map` with a stateful mapping (a closure): `f` is called once per
rune, in order; `none` stands for a negative result (drop the rune).  An invalid
byte is presented as `RuneError` and, if kept, written as the encoding of
U+FFFD (Go >= 1.12). -/
def stringsMapState {σ : Type} (f : σ → Rune → σ × Option Rune) : σ → List Seg → Bytes
  | _, [] => []
  | st, c :: cs =>
    let (st', r) := f st c.rune
    (match r with
      | none => []
      | some r' => encodeRune r') ++ stringsMapState f st' cs

/-- `strings.Map` with a pure mapping. -/
def stringsMap (f : Rune → Option Rune) (s : Bytes) : Bytes :=
  stringsMapState (fun (_ : Unit) c => ((), f c)) () (segs s)

/-- `unicode.IsSpace`. -/
def isSpace (r : Rune) : Bool :=
  (9 ≤ r && r ≤ 13) || r == 0x20 || r == 0x85 || r == 0xA0 || r == 0x1680 ||
  (0x2000 ≤ r && r ≤ 0x200A) || r == 0x2028 || r == 0x2029 || r == 0x202F ||
  r == 0x205F || r == 0x3000

/-- `strings.TrimSpace`: drop the leading and trailing Unicode white space.
(Go trims on the right with `DecodeLastRune`; lead bytes are never continuation
bytes, so this agrees with forward segmentation.) -/
def trimSpace (s : Bytes) : Bytes :=
  let front := (segs s).dropWhile (fun c => isSpace c.rune)
  let both := (front.reverse.dropWhile (fun c => isSpace c.rune)).reverse
  both.flatMap Seg.bytes

/-- ASCII part of `unicode.ToLower` / the ASCII fast path of `strings.ToLower`. -/
def lowerByte (b : UInt8) : UInt8 := if 65 ≤ b && b ≤ 90 then b + 32 else b

/-- `unicode.ToLower`; `hi` is its (library) behaviour above ASCII. -/
def lowerRune (hi : Rune → Rune) (r : Rune) : Rune :=
  if r < 0x80 then (if 65 ≤ r ∧ r ≤ 90 then r + 32 else r) else hi r

/-- `strings.ToLower`: byte-wise for pure ASCII, otherwise `Map(unicode.ToLower)`. -/
def toLower (hi : Rune → Rune) (s : Bytes) : Bytes :=
  if s.all (· < 0x80) then s.map lowerByte
  else stringsMap (fun r => some (lowerRune hi r)) s

end Verif
