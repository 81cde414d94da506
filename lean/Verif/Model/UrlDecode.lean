import Verif.Model.Utf8
/-! utils/urlencode.go -/
namespace Verif

/-- utils/urlencode.go:56-66 `IsHex`. -/
def isHex (c : UInt8) : Bool :=
  if 48 ≤ c && c ≤ 57 then true
  else if 97 ≤ c && c ≤ 102 then true
  else if 65 ≤ c && c ≤ 70 then true
  else false

/-- utils/urlencode.go:68-78 `UnHex`. -/
def unHex (c : UInt8) : UInt8 :=
  if 48 ≤ c && c ≤ 57 then c - 48
  else if 97 ≤ c && c ≤ 102 then c - 97 + 10
  else if 65 ≤ c && c ≤ 70 then c - 65 + 10
  else 0

/-- utils/urlencode.go:25-37: the rune denoted by `%uHHHH`.  `c<<4 | d` on
nibbles is written `c * 16 + d`. -/
def uniRune (h0 h1 h2 h3 : UInt8) : Rune :=
  let c0 := (unHex h0).toNat
  let c1 := (unHex h1).toNat
  let c2 := (unHex h2).toNat
  let c3 := (unHex h3).toNat
  let v := c0 * 16 + c1
  if v = 0xff then (c2 * 16 + c3) + 0x20
  else (v * 16 + c2) * 16 + c3

/-- Prepend output bytes and error count to the result of the rest of the loop. -/
def emit (out : Bytes) (errs : Nat) (rest : Bytes × Nat) : Bytes × Nat :=
  (out ++ rest.1, errs + rest.2)

/-- utils/urlencode.go:15-55 `urldecode`.  The index loop is a recursion on the
remaining suffix `s[i:]`; `len(s) > i+2` is "at least three bytes remain". -/
def urldecode (uni : Bool) : Bytes → Bytes × Nat
  | [] => ([], 0)
  | c :: r =>
    -- lines 41-51, the single-byte cases
    let single : Bytes × Nat :=
      if c == 37 then emit [37] 1 (urldecode uni r)
      else if c == 43 then emit [32] 0 (urldecode uni r)
      else emit [c] 0 (urldecode uni r)
    match r with
    | a :: b :: r2 =>
      -- line 21
      if c == 37 && isHex a && isHex b then
        emit [(unHex a <<< 4) ||| unHex b] 0 (urldecode uni r2)
      else match r2 with
        | d :: e :: f :: r5 =>
          -- line 24
          if uni && c == 37 && (a == 117 || a == 85) && isHex b && isHex d && isHex e && isHex f then
            emit (encodeRune (uniRune b d e f)) 0 (urldecode uni r5)
          else single
        | _ => single
    | _ => single

/-- utils/urlencode.go:8-10 `UrlDecode`. -/
def urlDecode (s : Bytes) : Bytes × Nat := urldecode false s

/-- utils/urlencode.go:11-13 `UrlDecodeUni`. -/
def urlDecodeUni (s : Bytes) : Bytes × Nat := urldecode true s

end Verif
