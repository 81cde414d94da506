import Verif.Model.Tx
import Verif.Model.Filter
/-! modsecurity/variables/*.go -/
namespace Verif

/-- Outcome of `multipart.Reader.ReadForm` on the request body (library). -/
inductive FormRes where
  /-- a form with these values -/
  | ok (values : GoMap)
  /-- `multipart.ErrMessageTooLarge` -/
  | tooLarge
  /-- any other error -/
  | err (e : Err)
  /-- does not return -/
  | hang

/-- Library functions the repository calls and that are not re-implemented. -/
structure Lib where
  /-- `regexp.Compile` and the `MatchString` of the result -/
  rx : Bytes → Option (Bytes → Bool)
  /-- `unicode.ToLower` above ASCII -/
  lowerHi : Rune → Rune
  /-- `url.ParseQuery`: the values (also on error) and the error, if any -/
  parseQuery : Bytes → GoMap × Option Err
  /-- `url.URL.String` -/
  urlString : URL → Bytes
  /-- `mime.ParseMediaType`: media type and `boundary` parameter, error ignored -/
  mediaType : Bytes → Bytes × Bytes
  /-- `multipart.NewReader(body, boundary).ReadForm(maxMemory)`: the outcome and
  the number of bytes its last `Read` asked for, 0 if it has not read.  All it sees of the body is what
  `Read` returns, and every `Read` starts at the beginning of the content; `none` if
  every `Read` fails, the file having been closed.  (Props/Multipart.lean proves that
  a function of the content is enough.) -/
  readForm : Option Bytes → Bytes → Int → FormRes × Nat

/-- What a variable fetch or a rule evaluation can see besides the transaction. -/
structure Env where
  lib : Lib
  ord : IterOrd
  limits : Limits

/-- modsecurity/variables/*.go: the variables.  `args`/`argsNames` are a
`merger` (merge.go) over their GET and POST parts, each with its own filter.
`custom` is any other implementation of the `Variable` interface, as a pure
function of the transaction. -/
inductive Var where
  | args (get post : Filter)
  | argsNames (get post : Filter)
  | argsGet (f : Filter)
  | argsGetNames (f : Filter)
  | argsPost (f : Filter)
  | argsPostNames (f : Filter)
  | queryString
  | remoteAddr
  | requestBasename
  | requestBody
  | requestCookies (f : Filter)
  | requestCookiesNames (f : Filter)
  | requestFilename
  | requestHeaders (f : Filter)
  | requestHeadersNames (f : Filter)
  | requestMethod
  | requestProtocol
  | requestUri
  | responseBody
  | responseContentLength
  | responseContentType
  | responseHeaders (f : Filter)
  | responseHeadersNames (f : Filter)
  | responseProtocol
  | responseStatus
  | count (v : Var)
  | custom (fetch : Tx → List Bytes)

/-- `Include` / `Exclude` of every variable; `upd` is the filter's `Include` or
`Exclude`.  Variables without a filter ignore it (their methods return nil, e.g.
modsecurity/variables/request_uri.go:19-20); the mergers update their first
part, then the second, stopping at an error (merge.go:11-27); `count` delegates
to the embedded variable (count.go:13-15). `none` is an error. -/
def Var.select (upd : Filter → Option Filter) : Var → Option Var
  | .args g p => (upd g).bind fun g => (upd p).map fun p => .args g p
  | .argsNames g p => (upd g).bind fun g => (upd p).map fun p => .argsNames g p
  | .argsGet f => (upd f).map .argsGet
  | .argsGetNames f => (upd f).map .argsGetNames
  | .argsPost f => (upd f).map .argsPost
  | .argsPostNames f => (upd f).map .argsPostNames
  | .requestCookies f => (upd f).map .requestCookies
  | .requestCookiesNames f => (upd f).map .requestCookiesNames
  | .requestHeaders f => (upd f).map .requestHeaders
  | .requestHeadersNames f => (upd f).map .requestHeadersNames
  | .responseHeaders f => (upd f).map .responseHeaders
  | .responseHeadersNames f => (upd f).map .responseHeadersNames
  | .count v => (v.select upd).map .count
  | v => some v

/-- `Variable.Include`. -/
def Var.include (lib : Lib) (v : Var) (s : Bytes) : Option Var := v.select (fun f => f.include lib.rx s)

/-- `Variable.Exclude`. -/
def Var.exclude (lib : Lib) (v : Var) (s : Bytes) : Option Var := v.select (fun f => f.exclude lib.rx s)

/-! ### REQUEST_BASENAME -/

/-- modsecurity/variables/request_basename.go:50-52. -/
def isPathSeparator (b : UInt8) : Bool := b == 92 || b == 47

/-- modsecurity/variables/request_basename.go:26-48 `basename`.  The backward
index loops are written with `reverse`/`takeWhile`/`dropWhile`. -/
def basename (path : Bytes) : Bytes :=
  if path = [] then [47]
  else
    let path := (path.reverse.dropWhile isPathSeparator).reverse
    if path = [] then [47]
    else
      let path := (path.reverse.takeWhile (fun b => !isPathSeparator b)).reverse
      if path = [] then [47] else path

/-! ### Cookies -/

/-- `strings.Split(s, sep)` for a one-byte separator. -/
def splitByte (sep : UInt8) : Bytes → List Bytes
  | [] => [[]]
  | b :: r =>
    if b = sep then [] :: splitByte sep r
    else match splitByte sep r with
      | [] => [[b]]
      | w :: ws => (b :: w) :: ws

/-- modsecurity/variables/request_cookies.go:48-51: split at the first '='. -/
def cookiePair (part : Bytes) : Bytes × Bytes :=
  let name := part.takeWhile (· != 61)
  if name.length < part.length then (name, part.drop (name.length + 1)) else (part, [])

/-- modsecurity/variables/request_cookies.go:42-53: one attribute of a line. -/
def readCookiePart (res : GoMap) (part : Bytes) : GoMap :=
  let part := trimSpace part
  if part.length = 0 then res
  else
    let (name, val) := cookiePair part
    res.append name [val]

/-- modsecurity/variables/request_cookies.go:37-54: one Cookie header line. -/
def readCookieLine (res : GoMap) (line : Bytes) : GoMap :=
  let parts := splitByte 59 (trimSpace line)
  if parts.length = 1 ∧ parts.head? = some [] then res
  else parts.foldl readCookiePart res

/-- modsecurity/variables/request_cookies.go:30-56 `readCookie` (a nil result
map behaves as an empty one). -/
def readCookie (h : GoMap) : GoMap :=
  match h.get? b!"Cookie" with
  | none => []
  | some lines => lines.foldl readCookieLine []

/-! ### Request body -/

/-- modsecurity/variables/request_body_parser.go:27, 38: content type prefixes. -/
def BodyType.contentType : BodyType → Bytes
  | .urlencoded => b!"application/x-www-form-urlencoded"
  | .multipart => b!"multipart/"

/-- request_body.go:24 and request_body_parser.go:53: methods with a body. -/
def hasBodyMethod (m : Bytes) : Bool := m = b!"POST" || m = b!"PUT" || m = b!"PATCH"

/-- The body after `ReadForm`, whose last `Read` was for `n` bytes; 0 if there was none (the
boundary being empty). -/
def Buf.afterForm (b : Buf) (n : Nat) : Buf :=
  if n = 0 then b
  else match b.read n with
    | .ok (b, _) => b
    | _ => b

/-- modsecurity/variables/request_body_parser.go:25-49: the two parsers.  The
result is the dynamic value returned and the error. -/
def parseBody (env : Env) (tp : BodyType) (boundary : Bytes) (t : Tx) : Res (Tx × Parsed × Option Err) :=
  match tp with
  | .urlencoded =>
    let (b, body, err) := t.reqBody.string
    let t := { t with reqBody := b }
    match err with
    | some _ => .ok (t.abortWithError 413 errOutOfMemLimit, .nil, some errOutOfMemLimit)
    | none =>
      let (m, err) := env.lib.parseQuery body
      .ok (t, .values m, err)
  | .multipart =>
    let (res, pos) := env.lib.readForm t.reqBody.content boundary env.limits.requestBodyInMem
    let t := { t with reqBody := t.reqBody.afterForm pos }
    match res with
    | .ok m => .ok (t, .form (some m), none)
    | .tooLarge => .ok (t.abortWithError 413 errMessageTooLarge, .nil, some errMessageTooLarge)
    | .err e => .ok (t, .form none, some e)
    | .hang => .fuel

/-- `t.VariableCache[key] = v`. -/
def Tx.setCache (t : Tx) (k : BodyType) (v : Parsed) : Tx :=
  { t with cache := (k, v) :: t.cache.filter (fun e => e.1 != k) }

/-- modsecurity/variables/request_body_parser.go:64-85: the loop over the
requested types. -/
def requestBodyLoop (env : Env) (ct boundary : Bytes) : List BodyType → Tx → Res (Tx × Option BodyType × Parsed)
  | [], t => .ok (t, none, .nil)
  | tp :: tps, t =>
    if !(tp.contentType.isPrefixOf ct) then requestBodyLoop env ct boundary tps t
    else match t.cache.lookup tp with
      | some res =>
        if res = .nil then requestBodyLoop env ct boundary tps t else .ok (t, some tp, res)
      | none =>
        (parseBody env tp boundary t).bind fun (t, res, err) =>
          let t := t.setCache tp res
          match err with
          | some e => .ok ({ t with reqBodyError := some e }, none, .nil)
          | none => if res = .nil then requestBodyLoop env ct boundary tps t else .ok (t, some tp, res)

/-- modsecurity/variables/request_body_parser.go:51-88 `requestBodyParse(t,
bodyTypeUrlencoded, bodyTypeMultipart)`; `none` is `bodyTypeNone`. -/
def requestBodyParse (env : Env) (t : Tx) : Res (Tx × Option BodyType × Parsed) :=
  if !hasBodyMethod t.method then .ok (t, none, .nil)
  else if !env.limits.requestBodyAccess || t.reqBody.len == 0 then .ok (t, none, .nil)
  else
    let ct := headerGet t.reqHeader b!"Content-Type"
    let ct := if ct = [] then b!"application/octet-stream" else ct
    let (ct, boundary) := env.lib.mediaType ct
    requestBodyLoop env ct boundary [.urlencoded, .multipart] t

/-- modsecurity/variables/args_posts.go:23-39 `VariableArgsPost.Fetch`. -/
def fetchArgsPost (env : Env) (f : Filter) (t : Tx) : Res (List Bytes × Tx) :=
  (requestBodyParse env t).bind fun (t, tp, parsed) =>
    match tp, parsed with
    | some .urlencoded, .values m => .ok (f.fetch env.ord m, t)
    | some .multipart, .form (some m) => .ok (f.fetch env.ord m, t)
    | _, _ => .ok ([], t)

/-- modsecurity/variables/args_post_names.go:23-39 `VariableArgsPostNames.Fetch`:
a nil `*multipart.Form` is dereferenced. -/
def fetchArgsPostNames (env : Env) (f : Filter) (t : Tx) : Res (List Bytes × Tx) :=
  (requestBodyParse env t).bind fun (t, tp, parsed) =>
    match tp, parsed with
    | some .urlencoded, .values m => .ok (f.names env.ord m, t)
    | some .multipart, .form (some m) => .ok (f.names env.ord m, t)
    | some .multipart, .form none => .panic
    | _, _ => .ok ([], t)

/-- modsecurity/variables/args_gets.go:18-23. `URL.Query()` is `ParseQuery` with
the error ignored. -/
def fetchArgsGet (env : Env) (f : Filter) (t : Tx) : List Bytes :=
  match t.url with
  | none => []
  | some u => f.fetch env.ord (env.lib.parseQuery u.rawQuery).1

/-- modsecurity/variables/args_get_names.go:18-23. -/
def fetchArgsGetNames (env : Env) (f : Filter) (t : Tx) : List Bytes :=
  match t.url with
  | none => []
  | some u => f.names env.ord (env.lib.parseQuery u.rawQuery).1

/-- modsecurity/variables/request_body.go:23-44. -/
def fetchRequestBody (env : Env) (t : Tx) : List Bytes × Tx :=
  if !hasBodyMethod t.method then ([], t)
  else if !env.limits.requestBodyAccess || t.reqBody.len == 0 then ([], t)
  else
    let ct := headerGet t.reqHeader b!"Content-Type"
    if ct = [] then ([], t)
    else if (env.lib.mediaType ct).1 ≠ b!"application/x-www-form-urlencoded" then ([], t)
    else
      let (b, body, err) := t.reqBody.string
      let t := { t with reqBody := b }
      match err with
      | some _ => ([], t.abortWithError 413 errOutOfMemLimit)
      | none => ([body], t)

/-- modsecurity/variables/response_body.go:22-32. -/
def fetchResponseBody (env : Env) (t : Tx) : List Bytes × Tx :=
  if !env.limits.responseBodyAccess || t.respBody.len == 0 then ([], t)
  else
    let (b, body, err) := t.respBody.string
    let t := { t with respBody := b }
    match err with
    | some _ => ([], t.abortWithError 500 errOutOfMemLimit)
    | none => ([body], t)

/-- modsecurity/variables/request_uri.go:21-32. -/
def fetchRequestUri (env : Env) (t : Tx) : List Bytes :=
  match t.url with
  | none => []
  | some u => [env.lib.urlString { u with scheme := [], host := [], opaque_ := [], user := none }]

/-- `Variable.Fetch`: the values and the transaction afterwards. -/
def Var.fetch (env : Env) : Var → Tx → Res (List Bytes × Tx)
  -- args.go:25-27, merge.go:29-35
  | .args g p, t =>
    (fetchArgsPost env p t).bind fun (post, t') => .ok (fetchArgsGet env g t ++ post, t')
  -- args_names.go:25-27, merge.go:29-35
  | .argsNames g p, t =>
    (fetchArgsPostNames env p t).bind fun (post, t') => .ok (fetchArgsGetNames env g t ++ post, t')
  | .argsGet f, t => .ok (fetchArgsGet env f t, t)
  | .argsGetNames f, t => .ok (fetchArgsGetNames env f t, t)
  | .argsPost f, t => fetchArgsPost env f t
  | .argsPostNames f, t => fetchArgsPostNames env f t
  -- query_string.go:19-24
  | .queryString, t => .ok ((match t.url with | none => [] | some u => [u.rawQuery]), t)
  -- remote_addr.go:19-21
  | .remoteAddr, t => .ok ([t.srcIp], t)
  -- request_basename.go:19-25
  | .requestBasename, t => .ok ((match t.url with | none => [] | some u => [basename u.path]), t)
  | .requestBody, t => .ok (fetchRequestBody env t)
  -- request_cookies.go:23-28
  | .requestCookies f, t =>
    .ok ((match t.reqHeader with | none => [] | some h => f.fetch env.ord (readCookie h)), t)
  -- request_cookies_names.go:20-25
  | .requestCookiesNames f, t =>
    .ok ((match t.reqHeader with | none => [] | some h => f.names env.ord (readCookie h)), t)
  -- request_filename.go:19-24
  | .requestFilename, t => .ok ((match t.url with | none => [] | some u => [u.path]), t)
  -- request_headers.go:18-20 (ranging over a nil map does nothing)
  | .requestHeaders f, t => .ok (f.fetch env.ord (t.reqHeader.getD []), t)
  -- request_headers_names.go:18-23
  | .requestHeadersNames f, t =>
    .ok ((match t.url with | none => [] | some _ => f.names env.ord (t.reqHeader.getD [])), t)
  -- request_method.go:19-21
  | .requestMethod, t => .ok ([t.method], t)
  -- request_protocol.go:19-21
  | .requestProtocol, t => .ok ([t.reqProto], t)
  | .requestUri, t => .ok (fetchRequestUri env t, t)
  | .responseBody, t => .ok (fetchResponseBody env t)
  -- response_content_length.go:19-24
  | .responseContentLength, t =>
    let res := headerGet t.respHeader b!"Content-Length"
    .ok (if res ≠ [] then [res] else [b!"0"], t)
  -- response_content_type.go:21-28
  | .responseContentType, t =>
    let ct := headerGet t.respHeader b!"Content-Type"
    let ct := if ct = [] then b!"application/octet-stream" else ct
    .ok ([(env.lib.mediaType ct).1], t)
  -- response_headers.go:20-22
  | .responseHeaders f, t => .ok (f.fetch env.ord (t.respHeader.getD []), t)
  -- response_headers_names.go:18-20
  | .responseHeadersNames f, t => .ok (f.names env.ord (t.respHeader.getD []), t)
  -- response_protocol.go:19-21
  | .responseProtocol, t => .ok ([t.respProto], t)
  -- response_status.go:21-23
  | .responseStatus, t => .ok ([itoa t.respCode], t)
  -- count.go:17-19
  | .count v, t => (v.fetch env t).bind fun (vs, t) => .ok ([itoa vs.length], t)
  | .custom f, t => .ok (f t, t)

end Verif
