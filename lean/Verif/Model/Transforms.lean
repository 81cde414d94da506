import Verif.Model.Utf8
import Verif.Model.UrlDecode
/-! modsecurity/transforms/*.go -/
namespace Verif

/-- modsecurity/transforms/lowercase.go:18-20. `hi` is `unicode.ToLower` above ASCII. -/
def transLowercase (hi : Rune → Rune) (s : Bytes) : Bytes := toLower hi s

/-- modsecurity/transforms/urldecode.go:17-20 (the error count is discarded). -/
def transUrlDecode (s : Bytes) : Bytes := (urlDecode s).1

/-- modsecurity/transforms/urldecode_uni.go:17-20. -/
def transUrlDecodeUni (s : Bytes) : Bytes := (urlDecodeUni s).1

/-- modsecurity/transforms/none.go:16-18. -/
def transNone (s : Bytes) : Bytes := s

/-- modsecurity/transforms/compress_whitespace.go:21-31: the closure given to
`strings.Map`; the state is `previousIsSpace`. -/
def compressStep (previousIsSpace : Bool) (i : Rune) : Bool × Option Rune :=
  if i = 32 then
    if previousIsSpace then (previousIsSpace, none)
    else (true, some i)
  else (false, some i)

/-- modsecurity/transforms/compress_whitespace.go:19-32. -/
def transCompressWhitespace (s : Bytes) : Bytes :=
  stringsMapState compressStep false (segs s)

/-- modsecurity/transforms/map_rune.go:35-42 `replaceRune`; a negative target is `none`. -/
def replaceRune (src : Rune) (to : Option Rune) (i : Rune) : Option Rune :=
  if i = src then to else some i

/-- modsecurity/transforms/map_rune.go:14-19, 47-49. -/
def transRemoveWhitespace (s : Bytes) : Bytes := stringsMap (replaceRune 32 none) s

/-- modsecurity/transforms/map_rune.go:21-26, 47-49. -/
def transRemoveNulls (s : Bytes) : Bytes := stringsMap (replaceRune 0 none) s

/-- modsecurity/transforms/map_rune.go:28-33, 47-49. -/
def transReplaceNulls (s : Bytes) : Bytes := stringsMap (replaceRune 0 (some 32)) s

end Verif
