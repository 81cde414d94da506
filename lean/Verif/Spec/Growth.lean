import Verif.Model.Rule
import Verif.Model.Transaction
import Verif.Model.Query
import Verif.Model.Url
import Verif.Model.Media
import Verif.Spec.Logs
/-! How much there is to look at. -/
namespace Verif

/-- The size of some values: their bytes, and one for each. -/
def Spec.size (vs : List Bytes) : Nat := (vs.map fun v => v.length + 1).sum

/-- Neither the values nor the names of a map are larger. -/
def Spec.Within (k : Nat) (m : GoMap) : Prop := size (m.flatMap Prod.snd) ≤ k ∧ size (m.map Prod.fst) ≤ k

/-- A transformation of the library. -/
def Trans.Library (tr : Trans) : Prop := ∀ f, tr ≠ .custom f

/-- A variable of the library. -/
def Var.Library : Var → Prop
  | .custom _ => False
  | .count v => v.Library
  | _ => True

namespace Spec

/-- The query: its length and one, nothing without a URL. -/
def querySize (t : Tx) : Nat :=
  match t.url with
  | none => 0
  | some u => u.rawQuery.length + 1

/-- The size of the values, or names, of a header. -/
def headerSize (h : Option GoMap) : Nat := size ((h.getD []).flatMap Prod.snd)
def headerNamesSize (h : Option GoMap) : Nat := size ((h.getD []).map Prod.fst)

/-- The size of the Cookie lines. -/
def cookieSize (h : Option GoMap) : Nat := size (((h.getD []).get? b!"Cookie").getD [])

/-- The size that a variable may show of what was told to the transaction; `req`
and `resp` bytes of bodies were sent, and a form has at most the size `form`. -/
def atMost (t : Tx) (req resp form : Nat) : Var → Nat
  | .args .. | .argsNames .. => querySize t + max (req + 1) form
  | .argsGet _ | .argsGetNames _ | .queryString => querySize t
  | .argsPost _ | .argsPostNames _ => max (req + 1) form
  | .remoteAddr => t.srcIp.length + 1
  | .requestBasename => (t.url.map fun u => u.path.length + 2).getD 0
  | .requestBody => req + 1
  | .requestCookies _ | .requestCookiesNames _ => cookieSize t.reqHeader
  | .requestFilename => (t.url.map fun u => u.path.length + 1).getD 0
  | .requestHeaders _ => headerSize t.reqHeader
  | .requestHeadersNames _ => headerNamesSize t.reqHeader
  | .requestMethod => t.method.length + 1
  | .requestProtocol => t.reqProto.length + 1
  -- each byte of the path and the fragment may be escaped
  | .requestUri => (t.url.map fun u => 3 * u.path.length + u.rawQuery.length + 3 * u.fragment.length + 5).getD 0
  | .responseBody => resp + 1
  | .responseContentLength => (headerGet t.respHeader b!"Content-Length").length + 2
  -- the text is put into lower case
  | .responseContentType => 4 * (headerGet t.respHeader b!"Content-Type").length + 97
  | .responseHeaders _ => headerSize t.respHeader
  | .responseHeadersNames _ => headerNamesSize t.respHeader
  | .responseProtocol => t.respProto.length + 1
  | .responseStatus => (itoa t.respCode).length + 1
  -- a number is shorter than what it counts
  | .count v => atMost t req resp form v + 2
  | .custom _ => 0

/-- While the loop over the rules of phase `p` runs from position `i` on, the rule is
evaluated, in this state: it is at a position, or in the chain of a rule there. -/
inductive Judged (env : Env) (rs : RuleSet) (p : Int) : Int → Tx → Rule → Tx → Prop where
  | rule {t : Tx} {k : Nat} {r : Rule} : t.phase = p → (rs.phases p)[k]? = some r → Judged env rs p k t r t
  | chain {t t1 u : Tx} {k : Nat} {r s : Rule} {before after : List Rule} : t.phase = p → (rs.phases p)[k]? = some r →
      r.matches env t = .ok (true, t1) → r.subRules = before ++ s :: after → matchSubs env before t1 = .ok (true, u) →
      Judged env rs p k t s u
  | later {i : Int} {t t1 u : Tx} {n : Nat} {r : Rule} : t.phase = p → i ≠ statusEndOfRules → rs.process env n t p i = .ok t1 →
      t1.intervention.disruptive = false →
      Judged env rs p (t1.touch.next (rs.phases t1.phase).length).2 (t1.touch.next (rs.phases t1.phase).length).1 r u →
      Judged env rs p i t r u

/-- The phase that a call asks for. -/
def phaseAsked : Op → Option Int
  | .processConnection .. => some 1
  | .processRequestHeader _ => some 2
  | .processRequestBody => some 3
  | .processResponseHeaders .. => some 4
  | .processResponseBody => some 5
  | .processLogging => some 6
  | .processPhase p => some p
  | _ => none

/-- The transaction when the call has handed over what it tells. -/
def handed (t : Tx) : Op → Tx
  | .processConnection a b c d => { t with srcIp := a, srcPort := b, dstIp := c, dstPort := d }
  | .processRequestHeader h => { t with reqHeader := some (h.getD []) }
  | .processResponseHeaders c p h => { t with respCode := c, respProto := p, respHeader := some (h.getD []) }
  | _ => t

/-- During the call the rule is evaluated in this state. -/
def JudgedIn (env : Env) (rs : RuleSet) (t : Tx) (op : Op) (r : Rule) (u : Tx) : Prop :=
  ∃ p, phaseAsked op = some p ∧ (handed t op).phase < p ∧ (handed t op).abort = false ∧
    let s := ((handed t op).jumpToPhase p).next (rs.phases ((handed t op).jumpToPhase p).phase).length
    Judged env rs p s.2 s.1 r u

/-- The bytes of bodies that were sent. -/
def sentBytes (resp : Bool) (ops : List Op) : Nat :=
  (ops.map fun op => match resp, op with
    | false, .appendRequestBody p _ => p.length
    | true, .appendResponseBody p _ => p.length
    | _, _ => 0).sum

end Spec

/-- Only actions of the library. -/
def RuleSet.LibraryActions (rs : RuleSet) : Prop :=
  (∀ p, ∀ r ∈ rs.phases p, ∀ a ∈ r.allActions, a.Library) ∧ ∀ a ∈ rs.defaultActions, a.Library

/-- What is assumed of the library: queries, media types and URLs are those of the models of
Go's packages, and no form is larger than `form`. -/
structure Lib.Frugal (lib : Lib) (form : Nat) : Prop where
  query : lib.parseQuery = Verif.parseQuery
  media : lib.mediaType = parseMediaType lib.lowerHi
  url : lib.urlString = Verif.urlString
  form : ∀ c b m g, (lib.readForm c b m).1 = .ok g → Spec.Within form g

end Verif
