import Verif.Model.Media
import Verif.Model.Header
/-! `multipart.Reader.ReadForm` of Go 1.12 (mime/multipart/formdata.go, multipart.go,
net/textproto/reader.go), the library function that request_body_parser.go:40-41 calls, as
far as it gets with bytes it has been given.  Where it depends on more than is described
here, the answer is `unknown`. -/
namespace Verif

/-- A line with its end, and what is left; `none` if there is no end of it among the bytes
read so far. -/
def readSlice (buf : Bytes) : Option (Bytes × Bytes) :=
  match buf.dropWhile (· != 10) with
  | [] => none
  | _ :: r => some (buf.takeWhile (· != 10) ++ [10], r)

/-- What follows a prefix. -/
def afterPrefix (p s : Bytes) : Option Bytes := if p.isPrefixOf s then some (s.drop p.length) else none

def isLWSP (c : UInt8) : Bool := c == 32 || c == 9

/-- mime/multipart/multipart.go `skipLWSPChar`. -/
def skipLWSP (s : Bytes) : Bytes := s.dropWhile isLWSP

/-- mime/multipart/multipart.go `NewReader`: `dashBoundary`. -/
def dashed (bnd : Bytes) : Bytes := 45 :: 45 :: bnd

/-- mime/multipart/multipart.go `isFinalBoundary`. -/
def isFinalBoundary (bnd nl line : Bytes) : Bool :=
  match afterPrefix (dashed bnd ++ [45, 45]) line with
  | none => false
  | some r => skipLWSP r = [] || skipLWSP r = nl

/-- mime/multipart/multipart.go `isBoundaryDelimiterLine`: the line ending from there on; in the first
such line it may be a line feed alone. -/
def delimiterLine (bnd nl : Bytes) (first : Bool) (line : Bytes) : Option Bytes :=
  match afterPrefix (dashed bnd) line with
  | none => none
  | some r =>
    let nl := if first && skipLWSP r = [10] then nl.drop 1 else nl
    if skipLWSP r = nl then some nl else none

/-- Errors, but for `io.EOF` and `ErrMessageTooLarge`; the line is in the message. -/
inductive FormFail where
  /-- "boundary is empty" -/
  | noBoundary
  /-- `bufio.ErrBufferFull` -/
  | bufferFull
  /-- "expecting a new Part" -/
  | expecting (line : Bytes)
  /-- "unexpected line" -/
  | unexpected (line : Bytes)
  /-- "malformed MIME header line" -/
  | header (line : Bytes)
  /-- "malformed MIME header initial line" -/
  | initial (line : Bytes)
deriving DecidableEq

/-- What `NextPart` finds. -/
inductive NextPart where
  /-- a part, with the line ending of delimiters and what follows the delimiter line -/
  | part (nl rest : Bytes)
  /-- `io.EOF`, after the last delimiter -/
  | last
  | failed (why : FormFail)
  /-- no end of line, fewer bytes being buffered than the buffer can hold -/
  | more (buffered : Nat)

/-- mime/multipart/multipart.go `NextPart`, up to the header of the part.  Its lines, taken with
bufio `ReadSlice('\n')`, must fit in the buffer.  Every round takes a line, so the number of
bytes is enough fuel. -/
def nextPart (bnd nl : Bytes) (first : Bool) : Nat → Bool → Bytes → NextPart
  | 0, _, _ => .failed .bufferFull
  | n + 1, expectNewPart, buf =>
    match readSlice buf with
    | none => if buf.length < 4096 then .more buf.length else .failed .bufferFull
    | some (line, rest) =>
      if 4096 < line.length then .failed .bufferFull
      else match delimiterLine bnd nl first line with
      | some nl => .part nl rest
      | none =>
        if isFinalBoundary bnd nl line then .last
        else if expectNewPart then .failed (.expecting line)
        else if first then nextPart bnd nl first n false rest
        else if line = nl then nextPart bnd nl first n true rest
        else .failed (.unexpected line)

/-- bufio `ReadLine`: without the end of the line. -/
def readLine (buf : Bytes) : Option (Bytes × Bytes) :=
  (readSlice buf).map fun (line, rest) =>
    (if [13, 10].isSuffixOf line then line.dropLast.dropLast else line.dropLast, rest)

/-- net/textproto/reader.go `trim`. -/
def trimLWSP (s : Bytes) : Bytes := ((s.dropWhile isLWSP).reverse.dropWhile isLWSP).reverse

/-- net/textproto/reader.go `readContinuedLineSlice`: the lines that continue one. -/
def continuedLine : Nat → Bytes → Bytes → Option (Bytes × Bytes)
  | 0, _, _ => none
  | n + 1, line, rest =>
    match rest with
    | [] => none
    | c :: _ =>
      if isLWSP c then (readLine (skipLWSP rest)).bind fun (l, rest) => continuedLine n (line ++ 32 :: trimLWSP l) rest
      else some (line, rest)

/-- net/textproto/reader.go `readContinuedLineSlice`. -/
def readContinued (buf : Bytes) : Option (Bytes × Bytes) :=
  (readLine buf).bind fun (line, rest) =>
    if line = [] then some ([], rest) else continuedLine (rest.length + 1) (trimLWSP line) rest

/-- net/textproto/reader.go `ReadMIMEHeader`: its loop. -/
def mimeLoop : Nat → GoMap → Bytes → Option (Except FormFail (GoMap × Bytes))
  | 0, _, _ => none
  | n + 1, m, buf =>
    (readContinued buf).bind fun (kv, rest) =>
      if kv = [] then some (.ok (m, rest))
      else match kv.dropWhile (· != 58) with
        | [] => some (.error (.header kv))
        | _ :: v =>
          let key := canonicalKey (((kv.takeWhile (· != 58)).reverse.dropWhile (· == 32)).reverse)
          if key = [] then mimeLoop n m rest else mimeLoop n (m.append key [skipLWSP v]) rest

/-- net/textproto/reader.go `ReadMIMEHeader`: the first line must not begin with a blank. -/
def readMimeHeader (buf : Bytes) : Option (Except FormFail (GoMap × Bytes)) :=
  match buf with
  | [] => none
  | c :: _ => if isLWSP c then (readLine buf).map fun p => .error (.initial p.1) else mimeLoop (buf.length + 1) [] buf

/-- `bytes.Index`, as what comes before and after. -/
def cutAt (sep : Bytes) : Bytes → Option (Bytes × Bytes)
  | [] => if sep = [] then some ([], []) else none
  | c :: r => if sep.isPrefixOf (c :: r) then some ([], (c :: r).drop sep.length) else (cutAt sep r).map fun p => (c :: p.1, p.2)

/-- mime/multipart/multipart.go `matchAfterPrefix`: what may follow a boundary. -/
def endsBoundary (c : UInt8) : Bool := isLWSP c || c == 13 || c == 10 || c == 45

/-- The body of a part, as far as it can be told. -/
inductive PartText where
  /-- it ends: the body, and what is left -/
  | ends (content rest : Bytes)
  /-- no delimiter ends it: so many bytes are handed out, and so many kept because a delimiter
  may begin with them -/
  | runs (taken kept : Nat)

/-- Bytes before. -/
def PartText.after (p : Bytes) : PartText → PartText
  | .ends c r => .ends (p ++ c) r
  | .runs t k => .runs (p.length + t) k

/-- mime/multipart/multipart.go `scanUntilBoundary`, at its end: how many of the last bytes may begin a
delimiter.  (The code looks at the last byte that equals the first one of the delimiter; as
that occurs only once in a delimiter, it is the same.) -/
def keptBack (nlDash : Bytes) : Bytes → Nat
  | [] => 0
  | c :: r => if (c :: r).isPrefixOf nlDash then (c :: r).length else keptBack nlDash r

/-- mime/multipart/multipart.go `partReader.Read`, `scanUntilBoundary`: the body of a part after its
beginning. -/
def partRest (nlDash : Bytes) : Nat → Bytes → PartText
  | 0, _ => .runs 0 0
  | n + 1, buf =>
    match cutAt nlDash buf with
    | none => .runs (buf.length - keptBack nlDash buf) (keptBack nlDash buf)
    | some (before, after) =>
      match after with
      | [] => .runs before.length nlDash.length
      | c :: _ =>
        if endsBoundary c then .ends before (nlDash ++ after)
        else (partRest nlDash n after).after (before ++ nlDash)

/-- mime/multipart/multipart.go `partReader.Read`, `scanUntilBoundary`: at the beginning the delimiter
needs no line ending before it. -/
def partBody (bnd nl buf : Bytes) : PartText :=
  match afterPrefix (dashed bnd) buf with
  | some [] => .runs 0 buf.length
  | some (c :: r) =>
    if endsBoundary c then .ends [] buf
    else (partRest (nl ++ dashed bnd) (buf.length + 1) (c :: r)).after (dashed bnd)
  | none =>
    if buf.isPrefixOf (dashed bnd) then .runs 0 buf.length
    else partRest (nl ++ dashed bnd) (buf.length + 1) buf

/-- mime/multipart/multipart.go `parseContentDisposition`: the disposition, `name` and `filename`. -/
def disposition (hi : Rune → Rune) (v : Bytes) : Bytes × Bytes × Bytes :=
  let disp := mediaHead hi v
  if !isMediaType disp then ([], [], [])
  else
    let rest := v.dropWhile (· != 59)
    match paramLoop rest.length rest [] with
    | .duplicate => ([], [], [])
    | .invalid => (disp, [], [])
    | .semicolon ps => (disp, (ps.lookup b!"name").getD [], (ps.lookup b!"filename").getD [])
    | .all ps => (disp, (paramValue hi ps b!"name").getD [], (paramValue hi ps b!"filename").getD [])

/-- How far `ReadForm` gets. -/
inductive FormStep where
  /-- a form with these values -/
  | form (m : GoMap)
  /-- `ErrMessageTooLarge` -/
  | tooLarge
  | failed (why : FormFail)
  /-- it reads again, this many bytes being buffered -/
  | more (buffered : Nat)
  | unknown
deriving DecidableEq

/-- mime/multipart/formdata.go `readForm`: its loop.  Every round takes a delimiter line, so the number of
bytes is enough fuel.  A part without a name is read to its end by the next `NextPart`; of a field
no more is read than may be kept.  Unknown: if the bytes end within the header of a part; parts in
quoted-printable encoding; fields that have a Content-Type; files that do not fit in memory;
delimiters that do not fit in the buffer. -/
def readParts (hi : Rune → Rune) (bnd : Bytes) : Nat → Bytes → Bool → Int → Int → GoMap → Bytes → FormStep
  | 0, _, _, _, _, _, _ => .unknown
  | n + 1, nl, first, maxMemory, maxValueBytes, m, buf =>
    match nextPart bnd nl first (buf.length + 1) false buf with
    | .more k => .more k
    | .failed e => .failed e
    | .last => .form m
    | .part nl rest =>
      match readMimeHeader rest with
      | none => .unknown
      | some (.error e) => .failed e
      | some (.ok (h, rest)) =>
        if (headerGet (some h) b!"Content-Transfer-Encoding").map lowerByte = b!"quoted-printable" then .unknown
        else
          let (disp, name, filename) := disposition hi (headerGet (some h) b!"Content-Disposition")
          match partBody bnd nl rest with
          | .runs taken kept =>
            if 4096 ≤ kept then .unknown
            else if disp ≠ b!"form-data" ∨ name = [] then .more kept
            else if filename = [] then
              if (h.get? b!"Content-Type").isSome then .unknown
              else if maxValueBytes < taken then .tooLarge
              else .more kept
            else if maxMemory < taken then .unknown
            else .more kept
          | .ends content rest =>
            if disp ≠ b!"form-data" ∨ name = [] then readParts hi bnd n nl false maxMemory maxValueBytes m rest
            else if filename = [] then
              if (h.get? b!"Content-Type").isSome then .unknown
              else if maxValueBytes < content.length then .tooLarge
              else readParts hi bnd n nl false maxMemory (maxValueBytes - content.length) (m.append name [content]) rest
            else if maxMemory < content.length then .unknown
            else readParts hi bnd n nl false (maxMemory - content.length) (maxValueBytes - content.length) m rest

/-- mime/multipart/formdata.go `readForm`; 10 MB more than for files are reserved for values.
Unknown as well: boundaries that contain a line end; a memory limit so large that the sum
is negative. -/
def readFormOn (hi : Rune → Rune) (bnd : Bytes) (maxMemory : Int) (text : Bytes) : FormStep :=
  if bnd = [] then .failed .noBoundary
  else if maxMemory + 10485760 ≥ 2 ^ 63 ∨ 13 ∈ bnd ∨ 10 ∈ bnd then .unknown
  else readParts hi bnd (text.length + 1) [13, 10] true maxMemory (maxMemory + 10485760) [] text

end Verif
