import Verif.Model.Utf8
/-!
`strconv.ParseInt(s, 10, 64)`, `strconv.Atoi` and `strconv.Itoa` (Go library;
re-implemented, part of the trusted base).
-/
namespace Verif

/-- Decimal digit test used by `strconv`. -/
def isDigit (b : UInt8) : Bool := 48 ≤ b && b ≤ 57

/-- Value of a non-empty all-digit string, `none` on any other character. -/
def digitsVal : Nat → Bytes → Option Nat
  | acc, [] => some acc
  | acc, b :: r => if isDigit b then digitsVal (acc * 10 + (b.toNat - 48)) r else none

/-- `strconv.ParseUint(s, 10, _)` before the range check. -/
def parseNat (s : Bytes) : Option Nat :=
  match s with
  | [] => none
  | _ => digitsVal 0 s

/-- Range check for positive numbers: `un >= 1<<63` is `ErrRange`. -/
def posRange (n : Nat) : Option Int := if n < 2 ^ 63 then some (n : Int) else none

/-- Range check for negative numbers: `un > 1<<63` is `ErrRange`. -/
def negRange (n : Nat) : Option Int := if n ≤ 2 ^ 63 then some (-(n : Int)) else none

/-- `strconv.ParseInt(s, 10, 64)`; `none` is a syntax or range error. -/
def parseInt (s : Bytes) : Option Int :=
  match s with
  | [] => none
  | c :: r =>
    if c == 43 then (parseNat r).bind posRange        -- '+'
    else if c == 45 then (parseNat r).bind negRange   -- '-'
    else (parseNat (c :: r)).bind posRange

/-- `strconv.Atoi` on a 64-bit platform. -/
def atoi (s : Bytes) : Option Int := parseInt s

/-- Decimal digits of a natural number, most significant first. -/
def natDigits (n : Nat) : Bytes :=
  if n < 10 then [UInt8.ofNat (48 + n)]
  else natDigits (n / 10) ++ [UInt8.ofNat (48 + n % 10)]
termination_by n
decreasing_by omega

/-- `strconv.Itoa`. -/
def itoa (i : Int) : Bytes :=
  if i < 0 then 45 :: natDigits i.natAbs else natDigits i.natAbs

end Verif
