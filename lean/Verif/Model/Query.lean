import Verif.Model.Variables
import Verif.Model.UrlDecode
/-! `url.ParseQuery` of Go 1.12 (net/url/url.go), the library function behind
ARGS_GET (`URL.Query`) and urlencoded bodies; a possible value of `Lib.parseQuery`.
The error's text is shortened to its constant part. -/
namespace Verif

/-- net/url `unescape(s, encodeQueryComponent)`; `none` is an `EscapeError`.  The
library's `ishex`/`unhex` are those of utils/urlencode.go. -/
def queryUnescape : Bytes → Option Bytes
  | [] => some []
  | c :: r =>
    if c = 37 then
      match r with
      | a :: b :: r' =>
        if isHex a && isHex b then (queryUnescape r').map ((unHex a <<< 4 ||| unHex b) :: ·) else none
      | _ => none
    else if c = 43 then (queryUnescape r).map (32 :: ·)
    else (queryUnescape r).map (c :: ·)

/-- `EscapeError` -/
def errEscape : Err := b!"invalid URL escape"

/-- net/url `parseQuery`: one iteration per key, `m` and `err` being the variables
of the function. -/
def parseQueryLoop (query : Bytes) (m : GoMap) (err : Option Err) : GoMap × Option Err :=
  if h : query = [] then (m, err)
  else
    -- strings.IndexAny(key, "&;"); nothing is left when there is none
    let key := query.takeWhile fun c => c != 38 && c != 59
    let rest := query.drop (key.length + 1)
    have : rest.length < query.length := by
      have : query.length ≠ 0 := fun e => h (List.length_eq_zero_iff.1 e)
      simp only [rest, List.length_drop]; omega
    if key = [] then parseQueryLoop rest m err
    else
      -- strings.Index(key, "=")
      let name := key.takeWhile (· != 61)
      let value := key.drop (name.length + 1)
      match queryUnescape name with
      | none => parseQueryLoop rest m (some (err.getD errEscape))
      | some n =>
        match queryUnescape value with
        | none => parseQueryLoop rest m (some (err.getD errEscape))
        | some v => parseQueryLoop rest (m.append n [v]) err
termination_by query.length

/-- net/url `ParseQuery`. -/
def parseQuery (query : Bytes) : GoMap × Option Err := parseQueryLoop query [] none

end Verif
