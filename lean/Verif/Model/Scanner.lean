import Verif.Model.Strconv
/-! seclang/parser/scanner.go (characters, strings, blanks) and seclang/parser/utils.go -/
namespace Verif

/-- seclang/parser/scanner.go:33-38 `Scanner`.  `bos` is `current == BOS`;
otherwise `current` is the head of `inp`, or `EOS` when `inp` is empty, and the
reader holds the rest.  `LastLine` is never read. -/
structure Scan where
  bos : Bool := true
  inp : Bytes
  buf : Bytes := []
  line : Nat := 1
deriving Repr, DecidableEq

/-- seclang/parser/scanner.go:50-52. -/
def newScanner (s : Bytes) : Scan := { inp := s }

/-- The errors of the parser, without their texts. -/
inductive PErr where
  | eos                 -- `ErrEOS`
  | unexpectedEOS
  | newlineInString
  | notDirective
  | emptyVariable
  | emptySeparated
  | unknownVariable
  | emptyOperator
  | unknownOperator
  | emptyActions
  | unknownAction
  | badId
  | badSeverity
  | badTrans
  | badPhase
  | badValue
deriving Repr, DecidableEq

/-- Result of a scanner method: panic, no return, or the scanner afterwards and
a value or an error. -/
abbrev SR (α : Type) := Res (Scan × Except PErr α)

/-- Continue on success. -/
def SR.andThen {α β : Type} (x : SR α) (f : α → Scan → SR β) : SR β :=
  Res.bind x fun
    | (s, .ok a) => f a s
    | (s, .error e) => .ok (s, .error e)

/-- seclang/parser/utils.go:7. -/
def isBlank (c : UInt8) : Bool := c == 32 || c == 12 || c == 9 || c == 11
/-- seclang/parser/utils.go:8. -/
def isNewLine (c : UInt8) : Bool := c == 10 || c == 13
/-- seclang/parser/utils.go:10. -/
def isAlphabet (c : UInt8) : Bool := (97 ≤ c && c ≤ 122) || (65 ≤ c && c ≤ 90)
/-- seclang/parser/utils.go:11 (and seclang/actions.go:45). -/
def isQuote (c : UInt8) : Bool := c == 39 || c == 34

/-- seclang/parser/scanner.go:23-25 `escapes`. -/
def escape (c : UInt8) : Option UInt8 :=
  if c = 97 then some 7            -- \a
  else if c = 98 then some 8       -- \b
  else if c = 102 then some 12     -- \f
  else if c = 110 then some 10     -- \n
  else if c = 114 then some 13     -- \r
  else if c = 116 then some 9      -- \t
  else if c = 118 then some 11     -- \v
  else if c = 92 then some 92
  else if c = 34 then some 34
  else if c = 39 then some 39
  else none

/-- seclang/parser/scanner.go:400-406 `incrementLineNumber`: the input after the
newline `old` whose successors are `r` (a two-character newline is one). -/
def afterNewline (old : UInt8) (r : Bytes) : Bytes :=
  match r with
  | [] => []
  | c :: r' => if isNewLine c && c != old then r' else c :: r'

/-- seclang/parser/scanner.go:54-64 `ReadWord`: the letters. -/
def readLetters : Bytes → Bytes × Bytes
  | [] => ([], [])
  | c :: r => if isAlphabet c then let (w, r') := readLetters r; (c :: w, r') else ([], c :: r)

/-- seclang/parser/scanner.go:54-64 `ReadWord`. -/
def Scan.readWord (s : Scan) : Scan × Bytes :=
  if s.bos then ({ s with buf := [] }, s.buf)
  else
    let (w, r) := readLetters s.inp
    ({ s with inp := r, buf := [] }, s.buf ++ w)

/-- seclang/parser/scanner.go:349-367 `SkipBlank`, one iteration per unit of
fuel, literally. -/
def skipBlankFuel : Nat → Scan → Res Scan
  | 0, _ => .fuel
  | n + 1, s =>
    if s.bos then skipBlankFuel n { s with bos := false }
    else match s.inp with
      | [] => .ok s
      | c :: r =>
        if isBlank c then skipBlankFuel n { s with inp := r }
        else if c = 92 then
          if r.head? = some 10 then
            skipBlankFuel n { s with inp := afterNewline 10 r.tail, line := s.line + 1 }
          else skipBlankFuel n s
        else .ok s

/-- `SkipBlank` as a total function on the input after BOS: `none` when it does
not return (a backslash not followed by '\n': the iteration changes nothing). -/
def skipBlanks : Bytes → Nat → Option (Bytes × Nat)
  | [], l => some ([], l)
  | c :: r, l =>
    if isBlank c then skipBlanks r l
    else if c = 92 then
      match r with
      | 10 :: 13 :: r' => skipBlanks r' (l + 1)
      | 10 :: r' => skipBlanks r' (l + 1)
      | _ => none
    else some (c :: r, l)

/-- seclang/parser/scanner.go:349-367 `SkipBlank`. `Proofs/Scanner` shows that
this agrees with `skipBlankFuel`. -/
def Scan.skipBlank (s : Scan) : Res Scan :=
  match skipBlanks s.inp s.line with
  | some (r, l) => .ok { s with bos := false, inp := r, line := l }
  | none => .fuel

/-- seclang/parser/scanner.go:88-119: the loop of `readString`.  `delim` are the
delimiters other than EOS, `eosDelim` says whether EOS is one. -/
def readStringLoop (delim : UInt8 → Bool) (eosDelim : Bool) :
    Bytes → Bytes → Nat → Scan × Except PErr Bytes
  | [], buf, line =>
    if eosDelim then ({ bos := false, inp := [], buf := [], line }, .ok buf)
    else if buf.length > 0 then ({ bos := false, inp := [], buf, line }, .error .unexpectedEOS)
    else ({ bos := false, inp := [], buf, line }, .ok [])
  | c :: r, buf, line =>
    if delim c then ({ bos := false, inp := r, buf := [], line }, .ok buf)
    else if c = 10 ∨ c = 13 then ({ bos := false, inp := c :: r, buf, line }, .error .newlineInString)
    else if c = 92 then
      match r with
      | [] => ({ bos := false, inp := [], buf, line }, .error .unexpectedEOS)
      | e :: r' =>
        match escape e with
        | some x => readStringLoop delim eosDelim r' (buf ++ [x]) line
        | none =>
          if isNewLine e then
            match r' with
            | [] => readStringLoop delim eosDelim [] (buf ++ [10]) (line + 1)
            | c' :: r'' =>
              if isNewLine c' && c' != e then readStringLoop delim eosDelim r'' (buf ++ [10]) (line + 1)
              else readStringLoop delim eosDelim (c' :: r'') (buf ++ [10]) (line + 1)
          else readStringLoop delim eosDelim r' (buf ++ [e]) line
    else readStringLoop delim eosDelim r (buf ++ [c]) line

/-- seclang/parser/scanner.go:84-120 `readString` (after BOS). -/
def Scan.readStringDelim (s : Scan) (delim : UInt8 → Bool) (eosDelim : Bool) : Scan × Except PErr Bytes :=
  let inp := match s.inp with
    | [] => []
    | c :: r => if delim c then r else c :: r
  readStringLoop delim eosDelim inp s.buf s.line

/-- seclang/parser/scanner.go:66-82 `ReadString`. -/
def Scan.readString (s : Scan) : SR Bytes :=
  s.skipBlank.bind fun s =>
    match s.inp with
    | [] => .ok (s, .error .eos)
    | c :: r =>
      if isNewLine c then .ok ({ s with inp := afterNewline c r, line := s.line + 1 }, .ok [])
      else if c = 34 then .ok (s.readStringDelim (· == 34) false)
      else if c = 39 then .ok (s.readStringDelim (· == 39) false)
      else .ok (s.readStringDelim (fun c => isBlank c || isNewLine c) true)

/-- seclang/parser/utils.go:30-35 `trimQuote` (and seclang/actions.go:46-51). -/
def trimQuote (s : Bytes) : Bytes :=
  if s.length ≥ 2 then
    match s.head?, s.getLast? with
    | some a, some b => if isQuote a && isQuote b then (s.drop 1).take (s.length - 2) else s
    | _, _ => s
  else s

/-- `strings.Count(s, sep)` for a one-byte separator. -/
def countByte (sep : UInt8) : Bytes → Nat
  | [] => 0
  | c :: r => (if c = sep then 1 else 0) + countByte sep r

/-- seclang/parser/utils.go:46-57: the loop of `splitMulti`, filling an array of
`count` entries; an index out of range panics. `cur` is the piece being read. -/
def splitMultiLoop (seps : Bytes) (count : Nat) : Nat → Bytes → Bytes → Res (List Bytes)
  | i, cur, [] => if i < count then .ok [cur] else .panic
  | i, cur, c :: r =>
    if seps.contains c then
      if i < count then (splitMultiLoop seps count (i + 1) [] r).bind fun l => .ok (cur :: l) else .panic
    else splitMultiLoop seps count i (cur ++ [c]) r

/-- seclang/parser/utils.go:37-59 `splitMulti` (ASCII separators). -/
def splitMulti (s seps : Bytes) : Res (List Bytes) :=
  if seps.length = 0 then .ok [s]
  else splitMultiLoop seps (seps.foldl (fun n sep => n + countByte sep s) 1) 0 [] s

end Verif
