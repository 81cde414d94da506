import Verif.Model.Form
import Verif.Model.Media
import Verif.Model.Seclang
import Verif.Model.Build
import Verif.Model.Url
import Verif.Model.StringSlice
/-!
The repository's own tests of variables, actions, engine and SecLang loading, run
on the model with the net/url functions of Model/Url.lean and Model/Query.lean and
a small regular-expression matcher.  Tests of the model, not proofs of
properties.  Not covered: the cases that fetch from a nil transaction.
-/
namespace Verif.Conform

/-! ### A regular-expression matcher sufficient for the tests -/

/-- One element: a byte class repeated `lo` to `hi` times. -/
structure Elt where
  cls : UInt8 → Bool
  lo : Nat := 1
  hi : Nat := 1

/-- Literals, `[0-9]`, `?`, `{2}`. -/
def compile : Bytes → List Elt → Option (List Elt)
  | [], acc => some acc.reverse
  | 91 :: 48 :: 45 :: 57 :: 93 :: r, acc => compile r ({ cls := fun c => 48 ≤ c && c ≤ 57 } :: acc)
  | 63 :: r, e :: acc => compile r ({ e with lo := 0 } :: acc)
  | 123 :: 50 :: 125 :: r, e :: acc => compile r ({ e with lo := 2, hi := 2 } :: acc)
  | c :: r, acc => if c = 40 ∨ c = 91 then none else compile r ({ cls := fun d => d == c } :: acc)

/-- Does the text begin with a match? -/
def matchHere : List Elt → Bytes → Bool
  | [], _ => true
  | e :: es, s => (List.range' e.lo (e.hi + 1 - e.lo)).any fun n => (s.take n).length == n && (s.take n).all e.cls && matchHere es (s.drop n)

/-- `MatchString`. -/
def matchAny (es : List Elt) (s : Bytes) : Bool := (List.range (s.length + 1)).any fun n => matchHere es (s.drop n)

def rx : Bytes → Option (Bytes → Bool)
  | 94 :: re => (compile re []).map matchHere
  | re => (compile re []).map matchAny

/-- The multipart body of args_posts_test.go:53-55. -/
def multipartBody : Bytes :=
  b!"--foo\r\nContent-Disposition: form-data; name=\"text\"\r\n\r\nA section\r\n" ++
  b!"--foo\r\nContent-Disposition: form-data; name=\"test2\"\r\n\r\nAnother section\r\n" ++ b!"--foo--\r\n"

def lib : Lib where
  rx := rx
  lowerHi := id
  parseQuery := parseQuery
  urlString := urlString
  mediaType := parseMediaType id
  readForm := fun b boundary m =>
    -- what one read is enough for
    match readFormOn id boundary m ((b.getD []).take 4096) with
    | .form form => (.ok form, 4096)
    | .tooLarge => (.tooLarge, 4096)
    | _ => (.err b!"unknown", 0)

def ord : IterOrd where
  run := id
  perm := fun _ => .refl _

def varOrd : VarOrd where
  run := id
  perm := fun _ => .refl _

/-- `operators/rx_test.go`. -/
example : rx b!"[" = none := by rfl
example : rx b!"(" = none := by rfl
example : (rx b!"ab?c[0-9]").map (fun f => [b!"ac0", b!"abc1", b!"bc1", b!"xxx", b!""].map f) =
    some [true, true, false, false, false] := by decide +kernel

/-! ### Variables -/

/-- The values a variable shows after some calls on a new transaction without
rules, and the transaction. -/
def fetched (limits : Limits) (ops : List Op) (v : Option Var) : Option (List Bytes × Tx) :=
  match v with
  | none => none
  | some v =>
    match Tx.steps { lib, ord, limits } {} 9 (newTransaction limits) ops with
    | .ok (t, _, _) =>
      match v.fetch { lib, ord, limits } t with
      | .ok r => some r
      | _ => none
    | _ => none

/-- The variable shows these values, in some order. -/
def shows (ops : List Op) (v : Option Var) (expect : List Bytes) (limits : Limits := newDefaultLimits) : Bool :=
  match fetched limits ops v with
  | some (vals, _) => sameStringSlice vals expect
  | none => false

def access : Limits := { newDefaultLimits with requestBodyAccess := true, responseBodyAccess := true }

def query : Bytes := b!"a1=1&a2=2&b1=3&b2=4"
/-- http://localhost/query?a1=1&a2=2&b1=3&b2=4 -/
def queryUrl : URL := { scheme := b!"http", host := b!"localhost", path := b!"/query", rawQuery := query }
def get (u : URL := queryUrl) : Op := .processRequestURL (some u) b!"GET" b!"HTTP/1.1"
def post (u : URL := { queryUrl with rawQuery := [] }) : Op := .processRequestURL (some u) b!"POST" b!"HTTP/1.1"
def urlencoded : GoMap := [(b!"Content-Type", [b!"application/x-www-form-urlencoded"])]
def body (b : Bytes) : List Op := [post, .processRequestHeader (some urlencoded), .appendRequestBody b .none]

-- count_test.go
example : shows [get] ((Var.count (.argsGet {})).include lib b!"/a/") [b!"2"] = true := by decide +kernel
-- remote_addr_test.go
example : shows [.processConnection b!"192.168.1.1" b!"12345" b!"1.1.1.1" b!"80"] (some .remoteAddr) [b!"192.168.1.1"] = true := by decide +kernel
-- query_string_test.go
example : shows [get] (some .queryString) [query] = true := by decide +kernel
example : shows [get { queryUrl with fragment := b!"123" }] (some .queryString) [query] = true := by decide +kernel
-- args_gets_test.go
example : shows [get] ((Var.argsGet {}).include lib b!"/a/") [b!"1", b!"2"] = true := by decide +kernel
-- args_get_names_test.go
example : shows [get] ((Var.argsGetNames {}).include lib b!"/a/") [b!"a1", b!"a2"] = true := by decide +kernel
example : shows [get] ((Var.argsGetNames {}).exclude lib b!"b1") [b!"a1", b!"a2", b!"b2"] = true := by decide +kernel
example : shows [get] ((Var.argsGetNames {}).exclude lib b!"/^a/") [b!"b1", b!"b2"] = true := by decide +kernel
-- args_test.go, args_names_test.go
def both : List Op := [post queryUrl, .processRequestHeader (some urlencoded), .appendRequestBody b!"a3=5&a4=6&b3=7&b4=8" .none]
example : shows both ((Var.args {} {}).include lib b!"/a/") [b!"1", b!"2", b!"5", b!"6"] access = true := by decide +kernel
example : shows both ((Var.argsNames {} {}).include lib b!"/a/") [b!"a1", b!"a2", b!"a3", b!"a4"] access = true := by decide +kernel
-- args_posts_test.go, args_post_names_test.go
example : shows (body query) (some (.argsPost {})) [b!"1", b!"2", b!"3", b!"4"] access = true := by decide +kernel
example : shows (body query) (some (.argsPostNames {})) [b!"a1", b!"a2", b!"b1", b!"b2"] access = true := by decide +kernel
def multi : List Op := [post, .processRequestHeader (some [(b!"Content-Type", [b!"MultIpart/mixed; boundary=foo"])]), .appendRequestBody multipartBody .none]
example : shows multi (some (.argsPost {})) [b!"A section", b!"Another section"] access = true := by decide +kernel
example : shows multi (some (.argsPostNames {})) [b!"text", b!"test2"] access = true := by decide +kernel
def large : List Op := [post queryUrl, .processRequestHeader (some urlencoded),
  .appendRequestBody (List.replicate 20 (query ++ b!"&")).flatten .none]
example : (fetched { access with requestBodyInMem := 64 } large (some (.argsPost {}))).map
    (fun (vs, t) => (vs, t.reqBodyError.isSome, t.abort)) = some ([], true, true) := by decide +kernel
example : (fetched { access with requestBodyInMem := 64 } large (some (.argsPostNames {}))).map
    (fun (vs, t) => (vs, t.reqBodyError.isSome, t.abort)) = some ([], true, true) := by decide +kernel
-- request_headers_test.go, request_headers_names_test.go
def headers : GoMap := [(b!"Content-Type", [b!"application/x-www-form-urlencoded"]), (b!"Content-Length", [b!"0"])]
example : shows [post, .processRequestHeader (some headers)] (some (.requestHeaders {})) [b!"application/x-www-form-urlencoded", b!"0"] = true := by decide +kernel
example : shows [post, .processRequestHeader (some headers)] (some (.requestHeadersNames {})) [b!"Content-Type", b!"Content-Length"] = true := by decide +kernel
-- request_cookies_test.go, request_cookies_names_test.go
def cookies : GoMap := [(b!"Cookie", [b!"abc=def", b!"ghi=jkl"])]
example : shows [post, .processRequestHeader (some urlencoded)] (some (.requestCookies {})) [] = true := by decide +kernel
example : shows [post, .processRequestHeader (some urlencoded)] (some (.requestCookiesNames {})) [] = true := by decide +kernel
example : shows [post, .processRequestHeader (some cookies)] (some (.requestCookies {})) [b!"def", b!"jkl"] = true := by decide +kernel
example : shows [post, .processRequestHeader (some cookies)] (some (.requestCookiesNames {})) [b!"abc", b!"ghi"] = true := by decide +kernel
-- request_basename_test.go
example : ([(b!"/query", b!"query"), (b!"/query/", b!"query"), (b!"/query///////", b!"query"), (b!"////////", b!"/"),
    (b!"/\\query", b!"query"), (b!"/\\query\\", b!"query"), (b!"/\\query\\\\\\\\\\\\\\", b!"query"),
    (b!"/\\\\\\\\\\\\\\\\", b!"/")] : List (Bytes × Bytes)).all
    (fun e => shows [get { queryUrl with path := e.1 }] (some .requestBasename) [e.2]) = true := by decide +kernel
-- request_filename_test.go
example : shows [get] (some .requestFilename) [b!"/query"] = true := by decide +kernel
example : shows [get { queryUrl with path := b!"/query.php", fragment := b!"123" }] (some .requestFilename) [b!"/query.php"] = true := by decide +kernel
-- request_uri_test.go
example : shows [get] (some .requestUri) [b!"/query?a1=1&a2=2&b1=3&b2=4"] = true := by decide +kernel
-- request_method_test.go, request_protocol_test.go
example : shows [.processRequestURL none b!"GET" b!"HTTP/1.1"] (some .requestMethod) [b!"GET"] = true := by decide +kernel
example : shows [.processRequestURL none b!"GET" b!"HTTP/1.1"] (some .requestProtocol) [b!"HTTP/1.1"] = true := by decide +kernel
-- request_body_test.go
example : shows [post, .processRequestHeader (some urlencoded)] (some .requestBody) [] access = true := by decide +kernel
example : shows (body query) (some .requestBody) [query] access = true := by decide +kernel
-- response_body_test.go
example : shows [] (some .responseBody) [] access = true := by decide +kernel
example : shows [.appendResponseBody b!"123456890-" .none] (some .responseBody) [b!"123456890-"] access = true := by decide +kernel
-- response_*_test.go
def response (h : Option GoMap) : List Op := [.processResponseHeaders 200 b!"HTTP/1.1" h]
example : shows (response (some urlencoded)) (some .responseContentLength) [b!"0"] = true := by decide +kernel
example : shows (response (some [(b!"Content-Type", [b!"application/x-www-form-urlencoded"]), (b!"Content-Length", [b!"123"])]))
    (some .responseContentLength) [b!"123"] = true := by decide +kernel
example : shows (response (some [])) (some .responseContentType) [b!"application/octet-stream"] = true := by decide +kernel
example : shows (response (some urlencoded)) (some .responseContentType) [b!"application/x-www-form-urlencoded"] = true := by decide +kernel
example : shows (response (some headers)) (some (.responseHeaders {})) [b!"application/x-www-form-urlencoded", b!"0"] = true := by decide +kernel
example : shows (response (some headers)) (some (.responseHeadersNames {})) [b!"Content-Type", b!"Content-Length"] = true := by decide +kernel
example : shows (response none) (some .responseProtocol) [b!"HTTP/1.1"] = true := by decide +kernel
example : shows (response none) (some .responseStatus) [b!"200"] = true := by decide +kernel
-- filter_test.go
example : [b!"abc", b!"/abc", b!"abc/", b!"/abc/", b!"/", b!"//"].map isRegex = [false, false, false, true, false, true] := by decide +kernel
example : (match compileRegex rx b!"/(((/" with | .err => true | _ => false) = true := by decide +kernel
def input : GoMap := [(b!"a1", [b!"1"]), (b!"a2", [b!"2"]), (b!"b1", [b!"3"]), (b!"b2", [b!"4"])]
def filtered (f : Option Filter) : Option (List Bytes) := f.map fun f => f.fetch ord input
example : filtered (some {}) = some [b!"1", b!"2", b!"3", b!"4"] := by decide +kernel
example : filtered (({} : Filter).include rx b!"a1") = some [b!"1"] := by decide +kernel
example : filtered (({} : Filter).include rx b!"/^a/") = some [b!"1", b!"2"] := by decide +kernel
example : filtered (({} : Filter).exclude rx b!"b1") = some [b!"1", b!"2", b!"4"] := by decide +kernel
example : filtered (({} : Filter).exclude rx b!"/b/") = some [b!"1", b!"2"] := by decide +kernel
example : filtered ((({} : Filter).include rx b!"/^a/").bind (·.exclude rx b!"a2")) = some [b!"1"] := by decide +kernel
-- merge_test.go, with ARGS as the merger
def merged : List Op := [post { queryUrl with rawQuery := b!"v111=v111&v112=v112" }, .processRequestHeader (some urlencoded),
  .appendRequestBody b!"v211=v211&v212=v212" .none]
example : shows merged (some (.args {} {})) [b!"v111", b!"v112", b!"v211", b!"v212"] access = true := by decide +kernel
example : shows merged ((Var.args {} {}).include lib b!"/v[0-9]11/") [b!"v111", b!"v211"] access = true := by decide +kernel
example : shows merged ((Var.args {} {}).exclude lib b!"/v[0-9]{2}2/") [b!"v111", b!"v211"] access = true := by decide +kernel

/-! ### Actions -/

/-- Run actions directly on a new transaction. -/
def acted (rs : RuleSet) (as : List Action) : Option Tx :=
  match doAll (Action.run rs 9) as (newTransaction newDefaultLimits) with
  | .ok t => some t
  | _ => none

-- allow_test.go
example : (acted {} [.allow []]).map (·.phase) = some phaseLogging := by decide +kernel
example : ([1, 2, 3, 4, 5, 6, 7, 8] : List Nat).map (fun n => (acted {} (List.replicate n (.allow b!"phase"))).map (·.phase)) =
    [phaseConnection, phaseRequestHeaders, phaseRequestBody, phaseResponseHeaders, phaseResponseBody, phaseLogging, phaseEnd, phaseEnd].map some := by
  decide +kernel
example : (acted {} [.allow b!"request"]).map (·.phase) = some phaseResponseHeaders := by decide +kernel
-- block_test.go
example : (acted { defaultActions := [.deny, .log] } [.block]).map (fun t => (t.intervention.status, t.intervention.disruptive, t.intervention.log.length)) =
    some (403, true, 2) := by decide +kernel
-- deny_test.go
example : (acted {} [.deny]).map (fun t => (t.intervention.status, t.intervention.disruptive)) = some (403, true) := by decide +kernel
-- log_test.go
example : (acted {} [.log]).map (fun t => t.intervention.log.length) = some 1 := by decide +kernel
-- pass_test.go
example : (acted {} [.deny, .pass]).map (fun t => (t.intervention.status, t.intervention.disruptive)) = some (200, false) := by decide +kernel
-- skip_test.go
example : (acted {} [.skip]).map (fun t => t.nextRule) = some statusEndOfRules := by decide +kernel
-- status_test.go
example : (acted {} [.status 444, .deny]).map (fun t => (t.intervention.status, t.intervention.disruptive)) = some (444, true) := by decide +kernel

/-! ### Engine (engine_test.go) -/

/-- engine_test.go:65-72. -/
def engineRule (phase : Int) : Rule :=
  { id := 1, phase, vars := [.custom fun _ => [b!"abc"]], trans := [.custom fun _ s => s ++ b!"def"],
    op := some (.custom fun _ s => s == b!"abcdef"), actions := [.custom groupNonDisruptive fun t => t.log b!"ok"] }

/-- The log after one call. -/
def logAfter (phase : Int) (op : Op) : Option (List Bytes) :=
  match Engine.run (newEngine.addSecRule [engineRule phase]) lib ord 9 newEngine.newTransaction [op] with
  | .ok (t, _, _) => some t.intervention.log
  | _ => none

example : logAfter phaseConnection (.processConnection b!"192.168.1.1" b!"1234" [] []) = some [b!"[client 192.168.1.1:1234] (phase 1) ok"] := by decide +kernel
example : logAfter phaseRequestHeaders (.processRequestHeader none) = some [b!"[client :] (phase 2) ok"] := by decide +kernel
example : logAfter phaseRequestBody .processRequestBody = some [b!"[client :] (phase 3) ok"] := by decide +kernel
example : logAfter phaseResponseHeaders (.processResponseHeaders 200 b!"HTTP/1.1" none) = some [b!"[client :] (phase 4) ok"] := by decide +kernel
example : logAfter phaseResponseBody .processResponseBody = some [b!"[client :] (phase 5) ok"] := by decide +kernel
example : logAfter phaseLogging .processLogging = some [b!"[client :] (phase 6) ok"] := by decide +kernel
example : (newEngine.enable statusOn).enabled = true ∧ (newEngine.enable statusOn).detectionOnly = false := by decide
example : (newEngine.enable statusOff).enabled = false ∧ (newEngine.enable statusOff).detectionOnly = false := by decide
example : (newEngine.enable statusDect).enabled = false ∧ (newEngine.enable statusDect).detectionOnly = true := by decide

/-! ### SecLang -/

def loaded (text : Bytes) : Option DireSet :=
  match DireSet.addSecLangString lib varOrd [] text with
  | .ok (set, none) => some set
  | _ => none

def configured (text : Bytes) : Option Engine := (loaded text).map fun set => set.execute newEngine

/-- The result after the request headers of a GET of this target. -/
def verdict (text target : Bytes) : Option Intervention :=
  match configured text, parseRequestURI target with
  | some e, some u =>
    match e.run lib ord 99 e.newTransaction [.processConnection b!"127.0.0.1" b!"12345" b!"127.0.0.1" b!"80", get u, .processRequestHeader none] with
    | .ok (t, _, _) => some t.result.2
    | _ => none
  | _, _ => none

/-- rule_set_test.go:16-22, examples/rule_from_seclang_test.go. -/
def denyText : Bytes := b!"SecRuleEngine On
                 SecRule REQUEST_URI '@rx cmd' \\
                            \"id:123,\\
                             phase:2,\\
                             t:lowercase,\\
                             deny\"
"
-- rule_set_test.go:35-66
example : verdict denyText b!"/search?=\"a';CMD echo '1\"" =
    some { status := 403, log := [b!"[client 127.0.0.1:12345] (phase 2) ModSecurity: Access denied with code 403"], disruptive := true } := by
  decide +kernel
-- rule_set_test.go:68-95
example : verdict denyText b!"/search?=\"a1\"" = some { status := 200 } := by decide +kernel

/-- examples/rule_from_go_test.go:21-32. -/
def selectRule : HostRule := .mk 0 phaseRequestHeaders [.new .requestUri] [] (some (.rx, b!"select")) false [.deny] []
/-- The result after the calls of examples/rule_from_go_test.go:42-51. -/
def goVerdict (target : Bytes) : Option Out :=
  match parseRequestURI target with
  | none => none
  | some u =>
    match Tx.hostCalls lib 99 (newTransaction newDefaultLimits) ([.processConnection b!"127.0.0.1" b!"12345" b!"127.0.0.1" b!"80", get u, .processRequestHeader none,
        .result].map fun op => { limits := newDefaultLimits, rules := [selectRule], ord, op }) with
    | .ok (_, os) => os.getLast?
    | _ => none
-- examples/rule_from_go_test.go:56-65
example : goVerdict b!"/search?=\"a';select '1\"" =
    some (.intervention { status := 403, log := [b!"[client 127.0.0.1:12345] (phase 2) ModSecurity: Access denied with code 403"], disruptive := true }) := by
  decide +kernel
example : goVerdict b!"/search?=1" = some (.intervention { status := 200 }) := by decide +kernel

/-- rule_set_test.go:99-108. -/
def chainText : Bytes := b!"
SecRule REQUEST_URI '@rx cmd' \\
    \"id:123,\\
    phase:2,\\
    t:lowercase,\\
    chain,\\
    deny\"
    SecRule ARGS_POST '@rx abc' log,chain
        SecRule ARGS_GET '@rx xyz' status:403
"
example : (loaded chainText).map (fun set => set.map fun | .rule r _ => some r.subRules.length | _ => none) = some [some 2] := by decide +kernel

-- rules_test.go
example : (configured b!"SecRequestBodyAccess On").map (·.limits.requestBodyAccess) = some true := by decide +kernel
example : (configured b!"SecResponseBodyAccess On").map (·.limits.responseBodyAccess) = some true := by decide +kernel
example : (configured b!"SecRuleEngine On").map (fun e => (e.enabled, e.detectionOnly)) = some (true, false) := by decide +kernel

/-- sec_rule_test.go:17-21. -/
def secRuleText : Bytes := b!"SecRule REQUEST_URI '@rx abc' \\
                            \"id:123,\\
                             phase:2,\\
                             t:lowercase,\\
                             deny\" "
def secRule : Option (List Rule) := (configured secRuleText).map fun e => e.ruleSet.phases 2
example : secRule.map (·.map fun r => (r.id, r.phase)) = some [(123, 2)] := by decide +kernel
example : secRule.map (·.map fun r => r.vars.map fun | .requestUri => true | _ => false) = some [[true]] := by decide +kernel
example : secRule.map (·.map fun r => r.trans.map fun | .lowercase => true | _ => false) = some [[true]] := by decide +kernel
example : secRule.map (·.map fun r => match r.op with | some (.rx r) => some r.src | _ => none) = some [some b!"abc"] := by decide +kernel
example : secRule.map (·.map fun r => r.actions.map fun | .deny => true | _ => false) = some [[true]] := by decide +kernel

/-- variable_test.go:77-97. -/
def selectorText : Bytes := b!"
SecRuleEngine On
SecRule ARGS_GET \\
        '@rx v1' \\
        \"id:123,\\
        phase:2,\\
        t:lowercase,\\
        deny\"
SecRule ARGS_GET:a2 \\
        '@rx v2' \\
        \"id:123,\\
        phase:2,\\
        t:lowercase,\\
        deny\"
SecRule ARGS_GET:/^b/ \\
        '@rx v3' \\
        \"id:123,\\
        phase:2,\\
        t:lowercase,\\
        deny\"
"
-- variable_test.go:109-118
example : ([(b!"/?query=v1", 403), (b!"/?query=v3", 200), (b!"/?a2=v2", 403), (b!"/?a2=ok", 200), (b!"/?a1=v2", 200),
    (b!"/?b1=v3", 403), (b!"/?b2=ok", 200), (b!"/?a1=v3", 200)] : List (Bytes × Int)).all
    (fun e => (verdict selectorText e.1).map (·.status) == some e.2) = true := by decide +kernel
-- variable_test.go:14-70
example : (loaded b!"SecRule REQUEST_URI a id:1").map (fun set => set.map fun | .rule r _ => r.vars.map (fun | .requestUri => 1 | _ => 0) | _ => []) =
    some [[1]] := by decide +kernel
example : (loaded b!"SecRule &REQUEST_URI a id:1").map (fun set => set.map fun
    | .rule r _ => r.vars.map (fun | .count .requestUri => 1 | _ => 0) | _ => []) = some [[1]] := by decide +kernel
-- actions_test.go
example : (loaded b!"SecRule REQUEST_URI a id:123,phase:2,deny").map (fun set => set.map fun
    | .rule r _ => some (r.id, r.phase, r.actions.map (fun | .deny => true | _ => false)) | _ => none) =
    some [some (123, 2, [true])] := by decide +kernel
def metaDire : Option DireSet := loaded b!"SecRule REQUEST_URI a id:333,phase:1,tag:'tag123',msg:'msg321',rev:'1.1',ver:'my-rule/123'"
example : metaDire.map (fun set => set.map fun | .rule r _ => some (r.id, r.phase, r.actions.length) | _ => none) = some [some (333, 1, 0)] := by decide +kernel
example : metaDire.map (fun set => set.map fun | .rule r _ => [b!"tag", b!"msg", b!"rev", b!"ver"].map r.metaData.get? | _ => []) =
    some [[some [b!"tag123"], some [b!"msg321"], some [b!"1.1"], some [b!"my-rule/123"]]] := by decide +kernel

end Verif.Conform
