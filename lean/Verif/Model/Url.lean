import Verif.Model.Query
/-! `url.URL.String` and `url.ParseRequestURI` of Go 1.12 (net/url/url.go), the
library functions behind REQUEST_URI and the URL a Go HTTP server hands to
`ProcessRequestURL`; `urlString` is a possible value of `Lib.urlString`. -/
namespace Verif

/-- `'a'..'z'`, `'A'..'Z'`, `'0'..'9'`. -/
def isAlnum (c : UInt8) : Bool := (97 ≤ c && c ≤ 122) || (65 ≤ c && c ≤ 90) || (48 ≤ c && c ≤ 57)

/-- net/url `shouldEscape(c, encodePath)`: letters, digits, `-_.~` and `$&+,/:;=@`
are kept. -/
def escapeInPath (c : UInt8) : Bool := !(isAlnum c || c ∈ b!"-_.~$&+,/:;=@")

/-- net/url `shouldEscape(c, encodeFragment)`: also `?` and `!()*` are kept. -/
def escapeInFragment (c : UInt8) : Bool := !(isAlnum c || c ∈ b!"-_.~$&+,/:;=?@!()*")

/-- net/url `shouldEscape(c, encodeHost)`. -/
def escapeInHost (c : UInt8) : Bool := !(isAlnum c || c ∈ b!"!$&'()*+,;=:[]<>\"-_.~")

/-- `"0123456789ABCDEF"[n]`. -/
def upperHex (n : UInt8) : UInt8 := if n < 10 then 48 + n else 55 + n

/-- net/url `escape` in a mode other than `encodeQueryComponent`. -/
def pctEscape (should : UInt8 → Bool) : Bytes → Bytes
  | [] => []
  | c :: r =>
    if should c then 37 :: upperHex (c >>> 4) :: upperHex (c &&& 15) :: pctEscape should r
    else c :: pctEscape should r

/-- net/url `unescape(s, encodePath)`; `none` is an `EscapeError`. -/
def pathUnescape : Bytes → Option Bytes
  | [] => some []
  | c :: r =>
    if c = 37 then
      match r with
      | a :: b :: r' =>
        if isHex a && isHex b then (pathUnescape r').map ((unHex a <<< 4 ||| unHex b) :: ·) else none
      | _ => none
    else (pathUnescape r).map (c :: ·)

/-- net/url `validEncodedPath`. -/
def validEncodedPath (s : Bytes) : Bool :=
  s.all fun c => c ∈ b!"!$&'()*+,;=:@[]%" || !escapeInPath c

/-- net/url `URL.EscapedPath`. -/
def URL.escapedPath (u : URL) : Bytes :=
  if u.rawPath ≠ [] ∧ validEncodedPath u.rawPath ∧ pathUnescape u.rawPath = some u.path then u.rawPath
  else if u.path = b!"*" then b!"*"
  else pctEscape escapeInPath u.path

/-- The first segment of the path has a colon (net/url `URL.String`). -/
def colonFirst (path : Bytes) : Bool :=
  let seg := path.takeWhile (· != 58)
  seg.length < path.length && !seg.contains 47

/-- net/url `URL.String`. -/
def urlString (u : URL) : Bytes :=
  let buf := if u.scheme ≠ [] then u.scheme ++ [58] else []
  let buf :=
    if u.opaque_ ≠ [] then buf ++ u.opaque_
    else
      let buf :=
        if u.scheme ≠ [] ∨ u.host ≠ [] ∨ u.user ≠ none then
          let buf := if u.host ≠ [] ∨ u.path ≠ [] ∨ u.user ≠ none then buf ++ b!"//" else buf
          let buf := match u.user with | some ui => buf ++ ui ++ [64] | none => buf
          if u.host ≠ [] then buf ++ pctEscape escapeInHost u.host else buf
        else buf
      let path := u.escapedPath
      let buf := if path ≠ [] ∧ path.head? ≠ some 47 ∧ u.host ≠ [] then buf ++ [47] else buf
      let buf := if buf.length = 0 ∧ colonFirst path then buf ++ b!"./" else buf
      buf ++ path
  let buf := if u.forceQuery ∨ u.rawQuery ≠ [] then buf ++ [63] ++ u.rawQuery else buf
  if u.fragment ≠ [] then buf ++ [35] ++ pctEscape escapeInFragment u.fragment else buf

/-- net/url `URL.setPath`: path and raw path; `none` is an `EscapeError`. -/
def setPath (p : Bytes) : Option (Bytes × Bytes) :=
  (pathUnescape p).map fun path => (path, if p = pctEscape escapeInPath path then [] else p)

/-- net/url `ParseRequestURI` of a target that begins with `/` (no scheme and no
authority is looked for); `none` is an error. -/
def parseRequestURI (target : Bytes) : Option URL :=
  if target.any (fun c => c < 32 || c == 127) then none
  else
    -- strings.Split at the first '?'; a lone trailing '?' sets ForceQuery
    let rest := target.takeWhile (· != 63)
    let forceQuery := rest.length + 1 = target.length
    let rawQuery := target.drop (rest.length + 1)
    (setPath rest).map fun (path, rawPath) => { path, rawPath, forceQuery, rawQuery }

end Verif
