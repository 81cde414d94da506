import Verif.Model.Parser
/-!
seclang/parser/scanner.go, literally: one character at a time from any `io.Reader`.

Model/Scanner and Model/Parser describe the same methods for a text that is there from the
beginning, with the calls of `advance` folded into the loops; Proofs/Literal shows that
they agree.
-/
namespace Verif

/-- `Scanner.current`: a byte, or BOS (-1), or EOS (-2). -/
inductive Cur where
  | bos
  | eos
  | ch (c : UInt8)
deriving Repr, DecidableEq

/-- What a `ReadByte` of the `bufio.Reader` gives. -/
inductive Read where
  | byte (c : UInt8)
  /-- `io.EOF` -/
  | eof
  /-- any other error -/
  | failed
deriving Repr, DecidableEq

/-- The scanner does not look at the error (scanner.go:409, 417: `err != nil`). -/
def Read.got : Read → Option UInt8
  | .byte c => some c
  | _ => none

/-- seclang/parser/scanner.go:33-38 `Scanner`.  `src i` is what the `i`-th `ReadByte` of the
`bufio.Reader` gives.  After an error `bufio.Reader` forgets it and reads on when asked again,
so that what follows is not necessarily an error; `pos` is the number of reads made (less
those put back). -/
structure Lit where
  src : Nat → Read
  pos : Nat := 0
  cur : Cur := .bos
  buf : Bytes := []
  line : Nat := 1

/-- seclang/parser/scanner.go:40-48 `NewSecLangScanner`. -/
def newLit (src : Nat → Read) : Lit := { src }

/-- seclang/parser/scanner.go:408-414 `advance`. -/
def Lit.advance (s : Lit) : Lit :=
  match (s.src s.pos).got with
  | none => { s with pos := s.pos + 1, cur := .eos }
  | some c => { s with pos := s.pos + 1, cur := .ch c }

/-- seclang/parser/scanner.go:416-423 `next`: a byte is put back, an error is not. -/
def Lit.next (s : Lit) : Lit × Option UInt8 :=
  match (s.src s.pos).got with
  | none => ({ s with pos := s.pos + 1 }, none)
  | some c => (s, some c)

/-- seclang/parser/scanner.go:434-436 `save`. -/
def Lit.save (s : Lit) (c : UInt8) : Lit := { s with buf := s.buf ++ [c] }

/-- `byte(c)`. -/
def Cur.byte : Cur → UInt8
  | .bos => 255
  | .eos => 254
  | .ch c => c

/-- seclang/parser/scanner.go:425-428 `saveAndAdvance`. -/
def Lit.saveAndAdvance (s : Lit) : Lit := (s.save s.cur.byte).advance

/-- seclang/parser/scanner.go:430-433 `advanceAndSave`. -/
def Lit.advanceAndSave (s : Lit) (c : UInt8) : Lit := s.advance.save c

/-- seclang/parser/utils.go:21-28 `runeInSlice` for what `f` lists. -/
def Cur.among (f : UInt8 → Bool) : Cur → Bool
  | .ch c => f c
  | _ => false

/-- seclang/parser/scanner.go:400-406 `incrementLineNumber`. -/
def Lit.incrementLineNumber (s : Lit) : Lit :=
  let s' := s.advance
  let s' := if s'.cur.among isNewLine ∧ s'.cur ≠ s.cur then s'.advance else s'
  { s' with line := s'.line + 1 }

/-- Result of a method. -/
abbrev LR (α : Type) := Res (Lit × Except PErr α)

/-- Continue on success. -/
def LR.andThen {α β : Type} (x : LR α) (f : α → Lit → LR β) : LR β :=
  Res.bind x fun
    | (s, .ok a) => f a s
    | (s, .error e) => .ok (s, .error e)

/-- seclang/parser/scanner.go:54-64 `ReadWord`. -/
def Lit.readWord : Nat → Lit → Res (Lit × Bytes)
  | 0, _ => .fuel
  | n + 1, s =>
    if s.cur.among isAlphabet then Lit.readWord n s.saveAndAdvance
    else .ok ({ s with buf := [] }, s.buf)

/-- seclang/parser/scanner.go:349-367 `SkipBlank`. -/
def Lit.skipBlank : Nat → Lit → Res (Lit × Unit)
  | 0, _ => .fuel
  | n + 1, s =>
    if s.cur = .bos then Lit.skipBlank n s.advance
    else if s.cur.among isBlank then Lit.skipBlank n s.advance
    else if s.cur = .ch 92 then
      match s.next with
      | (s, some 10) => Lit.skipBlank n s.advance.incrementLineNumber
      | (s, _) => Lit.skipBlank n s
    else .ok (s, ())

/-- seclang/parser/scanner.go:88-119: the loop of `readString`. -/
def Lit.readLoop (delim : Cur → Bool) : Nat → Lit → LR Bytes
  | 0, _ => .fuel
  | n + 1, s =>
    if delim s.cur then .ok ({ s.advance with buf := [] }, .ok s.buf)
    else if s.cur = .eos then
      if s.buf.length > 0 then .ok (s, .error .unexpectedEOS) else .ok (s, .ok [])
    else if s.cur.among isNewLine then .ok (s, .error .newlineInString)
    else if s.cur = .ch 92 then
      let s := s.advance
      match s.cur with
      | .eos => .ok (s, .error .unexpectedEOS)
      | .bos => Lit.readLoop delim n s.saveAndAdvance
      | .ch e =>
        match escape e with
        | some x => Lit.readLoop delim n (s.advanceAndSave x)
        | none =>
          if isNewLine e then Lit.readLoop delim n (s.incrementLineNumber.save 10)
          else Lit.readLoop delim n s.saveAndAdvance
    else Lit.readLoop delim n s.saveAndAdvance

/-- seclang/parser/scanner.go:84-120 `readString`. -/
def Lit.readDelim (delim : Cur → Bool) (n : Nat) (s : Lit) : LR Bytes :=
  Lit.readLoop delim n (if delim s.cur then s.advance else s)

/-- seclang/parser/scanner.go:66-82 `ReadString`. -/
def Lit.readString (n : Nat) (s : Lit) : LR Bytes :=
  (s.skipBlank n).bind fun (s, ()) =>
    if s.cur.among isNewLine then .ok (s.incrementLineNumber, .ok [])
    else if s.cur = .ch 34 then s.readDelim (· == .ch 34) n
    else if s.cur = .ch 39 then s.readDelim (· == .ch 39) n
    else if s.cur = .eos then .ok (s, .error .eos)
    else s.readDelim (fun c => c.among (fun c => isBlank c || isNewLine c) || c == .eos) n

/-- seclang/parser/scanner.go:170-207 `ReadVariables`. -/
def Lit.readVariables (n : Nat) (s : Lit) : LR (List PVar) :=
  LR.andThen (s.readString n) fun arg s =>
    if arg.length = 0 then .ok (s, .error .emptyVariable)
    else (splitMulti arg [44, 124]).bind fun args => .ok (s, parseVariables args)

/-- seclang/parser/scanner.go:209-242 `ReadOperator`. -/
def Lit.readOperator (n : Nat) (s : Lit) : LR POp :=
  LR.andThen (s.readString n) fun str s => .ok (s, parseOperator str)

/-- seclang/parser/scanner.go:314-333 `ReadActions`. -/
def Lit.readActions (n : Nat) (s : Lit) : LR PActs :=
  LR.andThen (s.readString n) fun str s => .ok (s, parseActions str)

/-- seclang/parser/scanner.go:554-572 `RuleDirectiveScaner`. -/
def Lit.readRule (n : Nat) (s : Lit) : LR PDir :=
  LR.andThen (s.readVariables n) fun vars s =>
    LR.andThen (s.readOperator n) fun op s =>
      LR.andThen (s.readActions n) fun acts s => .ok (s, .ok (.rule { vars, op, acts }))

/-- The value tokens (seclang_token.go:17-19) and what they stand for
(seclang_token.go:199-202). -/
inductive ValTok where
  | other
  | off
  | on
  /-- any number that is no value token -/
  | unknown
deriving Repr, DecidableEq

/-- `Values[tk]` (seclang_token.go:196-202, 231-237). -/
def valueName : ValTok → Option Bytes
  | .other => some b!"DetectionOnly"
  | .off => some b!"Off"
  | .on => some b!"On"
  | .unknown => none

/-- seclang/parser/scanner.go:375-386: the loop of `ReadValue` (the two errors are not told
apart). -/
def matchValue (str : Bytes) : List ValTok → Except PErr (ValTok × Bytes)
  | [] => .error .badValue
  | tk :: tks =>
    match valueName tk with
    | none => .error .badValue
    | some name => if eqFold str name then .ok (tk, str) else matchValue str tks

/-- seclang/parser/scanner.go:369-387 `ReadValue`. -/
def Lit.readValue (n : Nat) (s : Lit) (tks : List ValTok) : LR (ValTok × Bytes) :=
  LR.andThen (s.readString n) fun str s => .ok (s, matchValue str tks)

/-- seclang/parser/scanner.go:469-480 `BoolArgDirectiveFactory`. -/
def Lit.readBool (n : Nat) (s : Lit) (mk : Bool → PDir) : LR PDir :=
  LR.andThen (s.readValue n [.on, .off]) fun v s => .ok (s, .ok (mk (v.1 = .on)))

/-- seclang/parser/scanner.go:497-513 `TriBoolArgDirectiveFactory`. -/
def Lit.readTri (n : Nat) (s : Lit) (mk : Int → PDir) : LR PDir :=
  LR.andThen (s.readValue n [.on, .off, .other]) fun v s =>
    .ok (s, .ok (mk (match v.1 with | .on => 1 | .other => 2 | _ => 0)))

/-- seclang/parser/scanner.go:447-458 `StringArgDirectiveFactory`: the string. -/
def Lit.readArg (n : Nat) (s : Lit) : LR Bytes :=
  LR.andThen (s.readString n) fun str s => .ok (s, .ok str)

/-- seclang/parser/scanner.go:161-168 `readDirective`, with the table of
seclang_token.go:208-229 as seclang.go:7-12 fills it. -/
def Lit.readDirective' (hi : Rune → Rune) (n : Nat) (s : Lit) : LR PDir :=
  (s.readWord n).bind fun (s, word) =>
    match dirIndex.lookup (toLower hi word) with
    | none => .ok (s, .error .notDirective)
    | some .rule => s.readRule n
    | some .ruleEng => s.readTri n .ruleEng
    | some .reqBody => s.readBool n .reqBody
    | some .resBody => s.readBool n .resBody

/-- seclang/parser/scanner.go:126-143: the loop of `ReadDirective`; `m` for what comes after
the blanks. -/
def Lit.directiveLoop (hi : Rune → Rune) (m : Nat) : Nat → Lit → LR PDir
  | 0, _ => .fuel
  | n + 1, s =>
    if s.cur.among isNewLine then Lit.directiveLoop hi m n s.incrementLineNumber
    else if s.cur.among isBlank then Lit.directiveLoop hi m n s.advance
    else if s.cur = .ch 0 then Lit.directiveLoop hi m n s.advance
    else if s.cur = .eos then .ok (s, .error .eos)
    else (s.readDirective' hi m).bind fun
      | (s, .error .eos) => .ok (s, .error .unexpectedEOS)
      | x => .ok x

/-- seclang/parser/scanner.go:122-144 `ReadDirective`. -/
def Lit.readDirective (hi : Rune → Rune) (n : Nat) (s : Lit) : LR PDir :=
  Lit.directiveLoop hi n n (if s.cur = .bos then s.advance else s)

/-- seclang/parser/scanner.go:146-159 `AllDirective`; `m` for each directive. -/
def Lit.allLoop (hi : Rune → Rune) (m : Nat) : Nat → Lit → LR (List PDir)
  | 0, _ => .fuel
  | n + 1, s =>
    (s.readDirective hi m).bind fun
      | (s, .error .eos) => .ok (s, .ok [])
      | (s, .error e) => .ok (s, .error e)
      | (s, .ok d) => LR.andThen (Lit.allLoop hi m n s) fun ds s => .ok (s, .ok (d :: ds))

/-- seclang/parser/scanner.go:146-159 `AllDirective`. -/
def Lit.allDirective (hi : Rune → Rune) (n : Nat) (s : Lit) : LR (List PDir) := Lit.allLoop hi n n s

/-- seclang/parser/scanner.go:389-398 `StartsWith`: `range` over a string gives its runes; the
current byte is compared as the character with that number. -/
def Lit.startsWith (hi : Rune → Rune) (s : Lit) : List Rune → Lit × Bool
  | [] => (s, true)
  | r :: rs =>
    match s.cur with
    | .ch c => if lowerRune hi c.toNat = lowerRune hi r then Lit.startsWith hi s.saveAndAdvance rs else (s, false)
    | _ => (s, false)

/-! ### The same methods on a text, and calls in any order -/

/-- seclang/parser/scanner.go:389-398 `StartsWith` on a text. -/
def Scan.startsWith (hi : Rune → Rune) (s : Scan) : List Rune → Scan × Bool
  | [] => (s, true)
  | r :: rs =>
    if s.bos then (s, false)
    else match s.inp with
      | [] => (s, false)
      | c :: t =>
        if lowerRune hi c.toNat = lowerRune hi r then Scan.startsWith hi { s with inp := t, buf := s.buf ++ [c] } rs
        else (s, false)

/-- seclang/parser/scanner.go:369-387 `ReadValue` on a text. -/
def Scan.readValue (s : Scan) (tks : List ValTok) : SR (ValTok × Bytes) :=
  SR.andThen s.readString fun str s => .ok (s, matchValue str tks)

/-- A call of an exported method of the scanner or of an exported function that reads from
one, or a look at its field `LineNumber`. -/
inductive ScanCall where
  | word
  | string
  | directive
  | all
  | variables
  | operator
  | actions
  | value (tks : List ValTok)
  | skipBlank
  | startsWith (str : List Rune)
  | lineNumber
  /-- The readers of directives: `StringArgDirectiveFactory`, `BoolArgDirectiveFactory`,
  `TriBoolArgDirectiveFactory`, `RuleDirectiveScaner`. -/
  | stringArg
  | boolArg (mk : Bool → PDir)
  | triArg (mk : Int → PDir)
  | rule

/-- What it answers. -/
inductive ScanOut where
  | word (w : Bytes)
  | string (r : Except PErr Bytes)
  | directive (r : Except PErr PDir)
  | all (r : Except PErr (List PDir))
  | variables (r : Except PErr (List PVar))
  | operator (r : Except PErr POp)
  | actions (r : Except PErr PActs)
  | value (r : Except PErr (ValTok × Bytes))
  | nothing
  | answer (b : Bool)
  | line (n : Nat)

/-- The state and the answer as `ScanOut`. -/
def outAs {σ α : Type} (f : α → ScanOut) (x : Res (σ × α)) : Res (σ × ScanOut) := x.bind fun p => .ok (p.1, f p.2)

/-- A call on a scanner that reads character by character. -/
def Lit.call (hi : Rune → Rune) (n : Nat) (s : Lit) : ScanCall → Res (Lit × ScanOut)
  | .word => outAs .word (s.readWord n)
  | .string => outAs .string (s.readString n)
  | .directive => outAs .directive (s.readDirective hi n)
  | .all => outAs .all (s.allDirective hi n)
  | .variables => outAs .variables (s.readVariables n)
  | .operator => outAs .operator (s.readOperator n)
  | .actions => outAs .actions (s.readActions n)
  | .value tks => outAs .value (s.readValue n tks)
  | .skipBlank => outAs (fun _ => .nothing) (s.skipBlank n)
  | .startsWith str => outAs .answer (.ok (s.startsWith hi str))
  | .lineNumber => .ok (s, .line s.line)
  | .stringArg => outAs .string (s.readArg n)
  | .boolArg f => outAs .directive (s.readBool n f)
  | .triArg f => outAs .directive (s.readTri n f)
  | .rule => outAs .directive (s.readRule n)

/-- A call on a scanner on a text. -/
def Scan.call (hi : Rune → Rune) (s : Scan) : ScanCall → Res (Scan × ScanOut)
  | .word => outAs .word (.ok s.readWord)
  | .string => outAs .string s.readString
  | .directive => outAs .directive (s.readDirective hi)
  | .all => outAs .all (s.allDirective hi)
  | .variables => outAs .variables s.readVariables
  | .operator => outAs .operator s.readOperator
  | .actions => outAs .actions s.readActions
  | .value tks => outAs .value (s.readValue tks)
  | .skipBlank => s.skipBlank.bind fun s => .ok (s, .nothing)
  | .startsWith str => outAs .answer (.ok (s.startsWith hi str))
  | .lineNumber => .ok (s, .line s.line)
  | .stringArg => outAs .string s.readString
  | .boolArg f => outAs .directive (s.readBool f)
  | .triArg f => outAs .directive (s.readTri f)
  | .rule => outAs .directive s.readRule

/-- Calls one after the other. -/
def Lit.calls (hi : Rune → Rune) (n : Nat) : List ScanCall → Lit → Res (Lit × List ScanOut)
  | [], s => .ok (s, [])
  | c :: cs, s => (s.call hi n c).bind fun p => (Lit.calls hi n cs p.1).bind fun q => .ok (q.1, p.2 :: q.2)

/-- Calls one after the other. -/
def Scan.calls (hi : Rune → Rune) : List ScanCall → Scan → Res (Scan × List ScanOut)
  | [], s => .ok (s, [])
  | c :: cs, s => (s.call hi c).bind fun p => (Scan.calls hi cs p.1).bind fun q => .ok (q.1, p.2 :: q.2)

end Verif
