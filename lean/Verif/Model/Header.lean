import Verif.Model.GoMap
/-! Go 1.12 net/textproto/reader.go `CanonicalMIMEHeaderKey`, by which net/http
names the entries of the `http.Header` values it hands to a host, and
`http.Header.Add`.  Not called by the repository itself. -/
namespace Verif

/-- net/textproto/reader.go `validHeaderFieldByte`: the token characters of RFC 7230. -/
def validHeaderByte (c : UInt8) : Bool :=
  (48 ≤ c.toNat && c.toNat ≤ 57) || (65 ≤ c.toNat && c.toNat ≤ 90) || (97 ≤ c.toNat && c.toNat ≤ 122) ||
    (b!"!#$%&'*+-.^_`|~").contains c

/-- The loop of `canonicalMIMEHeaderKey`: upper case at the start and after a dash,
lower case elsewhere. -/
def canonicalLoop : Bool → Bytes → Bytes
  | _, [] => []
  | upper, c :: r =>
    let c := if upper && (97 ≤ c.toNat && c.toNat ≤ 122) then c - 32
      else if !upper && (65 ≤ c.toNat && c.toNat ≤ 90) then c + 32 else c
    c :: canonicalLoop (c == 45) r

/-- `CanonicalMIMEHeaderKey`: names with other bytes are left alone. -/
def canonicalKey (s : Bytes) : Bytes := if s.all validHeaderByte then canonicalLoop true s else s

/-- net/textproto/reader.go `ReadMIMEHeader`: the map of the header lines of a message, each
a name and a value (`m[key] = append(m[key], value)`). -/
def readHeader (lines : List (Bytes × Bytes)) : GoMap := lines.foldl (fun m l => m.append (canonicalKey l.1) [l.2]) []

end Verif
