import Verif.Model.Variables
import Verif.Model.UrlDecode
/-! `mime.ParseMediaType` of Go 1.12 (mime/mediatype.go, mime/grammar.go), the library
function behind the checks of Content-Type in request_body_parser.go:62-66,
request_body.go:34 and response_content_type.go:26; a possible value of
`Lib.mediaType`. -/
namespace Verif

/-- mime/grammar.go `isTSpecial`. -/
def isTSpecial (c : UInt8) : Bool := (b!"()<>@,;:\\\"/[]?=").contains c

/-- mime/grammar.go `isTokenChar`; bytes above ASCII are no token characters, whatever
rune they belong to. -/
def isTokenByte (c : UInt8) : Bool := 0x20 < c && c < 0x7F && !isTSpecial c

/-- mime/mediatype.go `consumeToken`. -/
def consumeToken (v : Bytes) : Bytes × Bytes := (v.takeWhile isTokenByte, v.dropWhile isTokenByte)

/-- `strings.TrimLeftFunc(v, unicode.IsSpace)`. -/
def trimLeftSpace (v : Bytes) : Bytes := ((segs v).dropWhile fun c => isSpace c.rune).flatMap Seg.bytes

/-- mime/mediatype.go `consumeValue`: the quoted string after its first quote; `none` if
there is no end of it. -/
def consumeQuoted : Bytes → Option (Bytes × Bytes)
  | [] => none
  | c :: r =>
    if c = 34 then some ([], r)
    else if c = 92 then
      match r with
      | d :: r' =>
        -- a backslash not followed by a special character is one
        if isTSpecial d then (consumeQuoted r').map fun p => (d :: p.1, p.2)
        else (consumeQuoted (d :: r')).map fun p => (92 :: p.1, p.2)
      | [] => none
    else if c = 13 || c = 10 then none
    else (consumeQuoted r).map fun p => (c :: p.1, p.2)

/-- mime/mediatype.go `consumeValue`. -/
def consumeValue (v : Bytes) : Bytes × Bytes :=
  match v with
  | 34 :: r => (consumeQuoted r).getD ([], v)
  | _ => consumeToken v

/-- mime/mediatype.go `consumeMediaParam`: name in lower case, value and what is left; `none`
for an empty name. -/
def consumeMediaParam (v : Bytes) : Option (Bytes × Bytes × Bytes) :=
  match trimLeftSpace v with
  | 59 :: rest =>
    let (param, rest) := consumeToken (trimLeftSpace rest)
    let param := param.map lowerByte
    if param = [] then none
    else match trimLeftSpace rest with
      | 61 :: rest =>
        let rest := trimLeftSpace rest
        let (value, rest2) := consumeValue rest
        if value = [] ∧ rest2 = rest then none else some (param, value, rest2)
      | _ => none
  | _ => none

/-- How the loop over the parameters ends. -/
inductive ParamsRes where
  /-- at the end of the text, with the parameters -/
  | all (ps : List (Bytes × Bytes))
  /-- at a semicolon at the end -/
  | semicolon (ps : List (Bytes × Bytes))
  /-- `ErrInvalidMediaParameter` -/
  | invalid
  /-- `mime: duplicate parameter name` -/
  | duplicate
deriving DecidableEq

/-- mime/mediatype.go `ParseMediaType`, the loop over the parameters.  The parameters with
a star in their name are kept apart by the code; as the part before the star is part of
the name, one list serves for both.  Every round takes something from the text, so its
length is enough fuel. -/
def paramLoop : Nat → Bytes → List (Bytes × Bytes) → ParamsRes
  | 0, _, ps => .all ps
  | n + 1, v, ps =>
    let v := trimLeftSpace v
    if v = [] then .all ps
    else match consumeMediaParam v with
      | none => if trimSpace v = [59] then .semicolon ps else .invalid
      | some (key, value, rest) =>
        if (ps.lookup key).isSome then .duplicate else paramLoop n rest (ps ++ [(key, value)])

/-- mime/mediatype.go `percentHexUnescape`. -/
def percentHexUnescape : Bytes → Option Bytes
  | [] => some []
  | c :: r =>
    if c = 37 then
      match r with
      | a :: b :: r' =>
        if isHex a && isHex b then (percentHexUnescape r').map ((unHex a <<< 4 ||| unHex b) :: ·) else none
      | _ => none
    else (percentHexUnescape r).map (c :: ·)

/-- mime/mediatype.go `decode2231Enc`. -/
def decode2231Enc (hi : Rune → Rune) (v : Bytes) : Option Bytes :=
  let charset := v.takeWhile (· != 39)
  match v.drop charset.length with
  | [] => none
  | _ :: r =>
    match r.drop (r.takeWhile (· != 39)).length with
    | [] => none
    | _ :: enc =>
      let charset := toLower hi charset
      if charset = b!"us-ascii" ∨ charset = b!"utf-8" then percentHexUnescape enc else none

/-- mime/mediatype.go `ParseMediaType`: the pieces `key*0`, `key*1*`, ... from the `i`th on,
and whether there was one. -/
def stitch (hi : Rune → Rune) (ps : List (Bytes × Bytes)) (key : Bytes) : Nat → Nat → Bytes × Bool
  | 0, _ => ([], false)
  | n + 1, i =>
    let simple := key ++ 42 :: itoa i
    match ps.lookup simple with
    | some v => (v ++ (stitch hi ps key n (i + 1)).1, true)
    | none =>
      match ps.lookup (simple ++ [42]) with
      | none => ([], false)
      | some v =>
        let dec := if i = 0 then (decode2231Enc hi v).getD [] else (percentHexUnescape v).getD []
        (dec ++ (stitch hi ps key n (i + 1)).1, true)

/-- mime/mediatype.go `ParseMediaType`: the value of one parameter of the result, after the
continuations have been put together.  There are at most as many pieces as parameters. -/
def paramValue (hi : Rune → Rune) (ps : List (Bytes × Bytes)) (key : Bytes) : Option Bytes :=
  match ps.lookup (key ++ [42]) with
  | some v => (decode2231Enc hi v).or (ps.lookup key)
  | none =>
    let (v, valid) := stitch hi ps key ps.length 0
    if valid then some v else ps.lookup key

/-- mime/mediatype.go `checkMediaTypeDisposition`: no error. -/
def isMediaType (s : Bytes) : Bool :=
  let (typ, rest) := consumeToken s
  typ ≠ [] && match rest with
    | [] => true
    | c :: rest =>
      c = 47 && (let (subtype, rest) := consumeToken rest
        subtype ≠ [] && rest = [])

/-- mime/mediatype.go `ParseMediaType` up to the parameters: the text before the first
semicolon. -/
def mediaHead (hi : Rune → Rune) (v : Bytes) : Bytes := trimSpace (toLower hi (v.takeWhile (· != 59)))

/-- mime/mediatype.go `ParseMediaType`: the media type and the `boundary` parameter, the
error being ignored by all callers. -/
def parseMediaType (hi : Rune → Rune) (v : Bytes) : Bytes × Bytes :=
  let mediatype := mediaHead hi v
  if !isMediaType mediatype then ([], [])
  else
    let rest := v.dropWhile (· != 59)
    match paramLoop rest.length rest [] with
    | .duplicate => ([], [])
    | .invalid => (mediatype, [])
    | .semicolon ps => (mediatype, (ps.lookup b!"boundary").getD [])
    | .all ps => (mediatype, (paramValue hi ps b!"boundary").getD [])

end Verif
