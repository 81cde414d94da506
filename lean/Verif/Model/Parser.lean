import Verif.Model.Scanner
import Verif.Model.Utf8
import Verif.Model.Variables
/-! seclang/parser/scanner.go (directives), seclang_token.go, seclang.go -/
namespace Verif

/-- seclang/parser/seclang_token.go:21-46. -/
inductive VarTok where
  | args | argsGet | argsGetNames | argsPost | argsPostNames | argsNames | queryString | remoteAddr
  | requestBasename | requestBody | requestCookies | requestCookiesNames | requestFilename
  | requestHeaders | requestHeadersNames | requestMethod | requestProtocol | requestUri
  | responseBody | responseContentLength | responseContentType | responseHeaders
  | responseHeadersNames | responseProtocol | responseStatus | xml
deriving Repr, DecidableEq

/-- seclang/parser/seclang_token.go:48-53. -/
inductive OpTok where
  | rx | eq | ge | gt | le | lt
deriving Repr, DecidableEq

/-- seclang/parser/seclang_token.go:55-74 (`TkActionpHase` is never used). -/
inductive ActTok where
  | allow | msg | id | tag | rev | severity | log | deny | block | status | t | skip | chain
  | phase | ver | logdata | setvar | capture | pass
deriving Repr, DecidableEq

/-- seclang/parser/seclang_token.go:76-83. -/
inductive TransTok where
  | lowercase | urlDecode | urlDecodeUni | none | compressWhitespace | removeWhitespace
  | replaceNulls | removeNulls
deriving Repr, DecidableEq

/-- seclang/parser/seclang_token.go:87-94. -/
def operatorMap : List (Bytes × OpTok) :=
  [(b!"rx", .rx), (b!"eq", .eq), (b!"ge", .ge), (b!"gt", .gt), (b!"le", .le), (b!"lt", .lt)]

/-- seclang/parser/seclang_token.go:96-116. -/
def actionTokMap : List (Bytes × ActTok) :=
  [(b!"allow", .allow), (b!"msg", .msg), (b!"id", .id), (b!"tag", .tag), (b!"rev", .rev),
   (b!"ver", .ver), (b!"severity", .severity), (b!"log", .log), (b!"deny", .deny),
   (b!"block", .block), (b!"status", .status), (b!"phase", .phase), (b!"t", .t), (b!"skip", .skip),
   (b!"chain", .chain), (b!"logdata", .logdata), (b!"setvar", .setvar), (b!"capture", .capture),
   (b!"pass", .pass)]

/-- seclang/parser/seclang_token.go:117-126. -/
def transformationMap : List (Bytes × TransTok) :=
  [(b!"lowercase", .lowercase), (b!"urlDecode", .urlDecode), (b!"urlDecodeUni", .urlDecodeUni),
   (b!"none", .none), (b!"compressWhitespace", .compressWhitespace),
   (b!"removeWhitespace", .removeWhitespace), (b!"replaceNulls", .replaceNulls),
   (b!"removeNulls", .removeNulls)]

/-- seclang/parser/seclang_token.go:128-155. -/
def variableMap : List (Bytes × VarTok) :=
  [(b!"ARGS", .args), (b!"ARGS_NAMES", .argsNames), (b!"ARGS_GET", .argsGet),
   (b!"ARGS_GET_NAMES", .argsGetNames), (b!"ARGS_POST", .argsPost),
   (b!"ARGS_POST_NAMES", .argsPostNames), (b!"QUERY_STRING", .queryString),
   (b!"REMOTE_ADDR", .remoteAddr), (b!"REQUEST_BASENAME", .requestBasename),
   (b!"REQUEST_BODY", .requestBody), (b!"REQUEST_COOKIES", .requestCookies),
   (b!"REQUEST_COOKIES_NAMES", .requestCookiesNames), (b!"REQUEST_FILENAME", .requestFilename),
   (b!"REQUEST_HEADERS", .requestHeaders), (b!"REQUEST_HEADERS_NAMES", .requestHeadersNames),
   (b!"REQUEST_METHOD", .requestMethod), (b!"REQUEST_PROTOCOL", .requestProtocol),
   (b!"REQUEST_URI", .requestUri), (b!"RESPONSE_BODY", .responseBody),
   (b!"RESPONSE_CONTENT_LENGTH", .responseContentLength),
   (b!"RESPONSE_CONTENT_TYPE", .responseContentType), (b!"RESPONSE_HEADERS", .responseHeaders),
   (b!"RESPONSE_HEADERS_NAMES", .responseHeadersNames), (b!"RESPONSE_PROTOCOL", .responseProtocol),
   (b!"RESPONSE_STATUS", .responseStatus), (b!"XML", .xml)]

/-- seclang/parser/seclang_token.go:157-166. -/
def severityMap : List (Bytes × Int) :=
  [(b!"EMERGENCY", 0), (b!"ALERT", 1), (b!"CRITICAL", 2), (b!"ERROR", 3), (b!"WARNING", 4),
   (b!"NOTICE", 5), (b!"INFO", 6), (b!"DEBUG", 7)]

/-- seclang/parser/seclang_token.go:168-180. -/
def phaseAlias : List (Bytes × Int) := [(b!"request", 2), (b!"response", 4), (b!"logging", 5)]

/-- seclang/parser/scanner.go:515-520. -/
structure PVar where
  tk : VarTok
  index : Bytes := []
  count : Bool := false
  exclusion : Bool := false
deriving Repr, DecidableEq

/-- seclang/parser/scanner.go:522-526. -/
structure POp where
  tk : OpTok
  not : Bool := false
  arg : Bytes := []
deriving Repr, DecidableEq

/-- seclang/parser/scanner.go:528-531. -/
structure PAct where
  tk : ActTok
  arg : Bytes := []
deriving Repr, DecidableEq

/-- seclang/parser/scanner.go:536-542. -/
structure PActs where
  id : Int := 0
  phase : Int := 0
  chain : Bool := false
  trans : List TransTok := []
  action : List PAct := []
deriving Repr, DecidableEq

/-- seclang/parser/scanner.go:544-548. -/
structure PRule where
  vars : List PVar
  op : POp
  acts : PActs
deriving Repr, DecidableEq

/-- The directives registered in seclang/parser/seclang.go:7-12 with their
parsed arguments (scanner.go:460-513). -/
inductive PDir where
  | rule (r : PRule)
  | ruleEng (v : Int)
  | reqBody (b : Bool)
  | resBody (b : Bool)
deriving Repr, DecidableEq

/-! ### Variables -/

/-- `strings.IndexAny(a, ".:")` split of the name and the index
(scanner.go:193-197): only when the position is positive. -/
def splitIndex (a : Bytes) : Bytes × Bytes :=
  let name := a.takeWhile (fun c => !(c == 46 || c == 58))
  if 0 < name.length ∧ name.length < a.length then (name, a.drop (name.length + 1)) else (a, [])

/-- seclang/parser/scanner.go:181-204: one element of the variable list. -/
def parseVariable (a : Bytes) : Except PErr PVar :=
  match a with
  | [] => .error .emptySeparated
  | c :: r =>
    let (excl, count, a) := if c = 33 then (true, false, r) else if c = 38 then (false, true, r) else (false, false, c :: r)
    let (name, index) := splitIndex a
    match variableMap.lookup name with
    | none => .error .unknownVariable
    | some tk => .ok { tk, index, count, exclusion := excl }

/-- The loop of scanner.go:181-204. -/
def parseVariables : List Bytes → Except PErr (List PVar)
  | [] => .ok []
  | a :: as =>
    match parseVariable a with
    | .error e => .error e
    | .ok v =>
      match parseVariables as with
      | .error e => .error e
      | .ok vs => .ok (v :: vs)

/-- seclang/parser/scanner.go:170-207 `ReadVariables`. -/
def Scan.readVariables (s : Scan) : SR (List PVar) :=
  SR.andThen s.readString fun arg s =>
    if arg.length = 0 then .ok (s, .error .emptyVariable)
    else (splitMulti arg [44, 124]).bind fun args => .ok (s, parseVariables args)

/-! ### Operator -/

/-- seclang/parser/scanner.go:215-241: the operator string. -/
def parseOperator (str : Bytes) : Except PErr POp :=
  match str with
  | [] => .error .emptyOperator
  | c :: r =>
    let (neg, str) := if c = 33 then (true, r) else (false, c :: r)
    match str with
    | [] => .error .emptyOperator
    | c :: r =>
      if c ≠ 64 then .ok { tk := .rx, not := neg, arg := c :: r }
      else
        let op := r.takeWhile (· != 32)
        let arg := r.drop (op.length + 1)
        match operatorMap.lookup op with
        | none => .error .unknownOperator
        | some tk => .ok { tk, not := neg, arg }

/-- seclang/parser/scanner.go:209-242 `ReadOperator`. -/
def Scan.readOperator (s : Scan) : SR POp :=
  SR.andThen s.readString fun str s => .ok (s, parseOperator str)

/-! ### Actions -/

/-- seclang/parser/scanner.go:335-347 `parseAction`. -/
def parseAction (act : Bytes) : Except PErr (ActTok × Bytes) :=
  let name := act.takeWhile (· != 58)
  let arg := act.drop (name.length + 1)
  match actionTokMap.lookup (trimSpace name) with
  | none => .error .unknownAction
  | some tk => .ok (tk, arg)

/-- seclang/parser/scanner.go:244-312 `actionProcessors`, `processAction`. -/
def processAction (a : PActs) (str : Bytes) : Except PErr PActs :=
  match parseAction str with
  | .error e => .error e
  | .ok (tk, arg) =>
    match tk with
    | .id =>
      match atoi (trimQuote arg) with
      | some n => .ok { a with id := n }
      | none => .error .badId
    | .severity =>
      let arg := trimQuote arg
      match severityMap.lookup arg with
      | some n => .ok { a with action := a.action ++ [⟨.severity, itoa n⟩] }
      | none =>
        match atoi arg with
        | some n =>
          if n ≥ 0 ∧ n ≤ 7 then .ok { a with action := a.action ++ [⟨.severity, itoa n⟩] }
          else .error .badSeverity
        | none => .error .badSeverity
    | .t =>
      match transformationMap.lookup (trimQuote arg) with
      | some tt => .ok { a with trans := a.trans ++ [tt] }
      | none => .error .badTrans
    | .phase =>
      let arg := trimQuote arg
      match phaseAlias.lookup arg with
      | some p => .ok { a with phase := p }
      | none =>
        match atoi arg with
        | some p => if p < 1 ∨ p > 5 then .error .badPhase else .ok { a with phase := p }
        | none => .error .badPhase
    | .chain => .ok { a with chain := true }
    | tk => .ok { a with action := a.action ++ [⟨tk, arg⟩] }

/-- The loop of scanner.go:326-331. -/
def processActions : PActs → List Bytes → Except PErr PActs
  | a, [] => .ok a
  | a, str :: strs =>
    match processAction a str with
    | .error e => .error e
    | .ok a => processActions a strs

/-- seclang/parser/scanner.go:320-332: the action list string. -/
def parseActions (str : Bytes) : Except PErr PActs :=
  let str := trimSpace str
  if str.length = 0 then .error .emptyActions else processActions {} (splitByte 44 str)

/-- seclang/parser/scanner.go:314-333 `ReadActions`. -/
def Scan.readActions (s : Scan) : SR PActs :=
  SR.andThen s.readString fun str s => .ok (s, parseActions str)

/-! ### Directives -/

/-- seclang/parser/scanner.go:554-572 `RuleDirectiveScaner`. -/
def Scan.readRule (s : Scan) : SR PDir :=
  SR.andThen s.readVariables fun vars s =>
    SR.andThen s.readOperator fun op s =>
      SR.andThen s.readActions fun acts s => .ok (s, .ok (.rule { vars, op, acts }))

/-- Matching of `(?i)^On$`, `(?i)^Off$`, `(?i)^DetectionOnly$`
(seclang_token.go:196-202, 231-237): ASCII case-insensitive equality (the
letters involved have no non-ASCII case variants). -/
def eqFold (s name : Bytes) : Bool := s.map lowerByte = name.map lowerByte

/-- seclang/parser/scanner.go:469-480 with `ReadValue` (369-387). -/
def parseBool (str : Bytes) : Except PErr Bool :=
  if eqFold str b!"On" then .ok true
  else if eqFold str b!"Off" then .ok false
  else .error .badValue

/-- seclang/parser/scanner.go:497-513 with `ReadValue` (369-387): 1 on, 0 off,
2 DetectionOnly. -/
def parseTri (str : Bytes) : Except PErr Int :=
  if eqFold str b!"On" then .ok 1
  else if eqFold str b!"Off" then .ok 0
  else if eqFold str b!"DetectionOnly" then .ok 2
  else .error .badValue

/-- seclang/parser/scanner.go:469-480 `BoolArgDirectiveFactory`. -/
def Scan.readBool (s : Scan) (mk : Bool → PDir) : SR PDir :=
  SR.andThen s.readString fun str s => .ok (s, (parseBool str).map mk)

/-- seclang/parser/scanner.go:497-513 `TriBoolArgDirectiveFactory`. -/
def Scan.readTri (s : Scan) (mk : Int → PDir) : SR PDir :=
  SR.andThen s.readString fun str s => .ok (s, (parseTri str).map mk)

/-- seclang/parser/seclang.go:7-12: the registered directives by lower-cased name. -/
inductive DirTok where
  | rule | ruleEng | reqBody | resBody
deriving Repr, DecidableEq

/-- seclang/parser/seclang_token.go:208-229 `dirIndex`. -/
def dirIndex : List (Bytes × DirTok) :=
  [(b!"secrule", .rule), (b!"secruleengine", .ruleEng), (b!"secrequestbodyaccess", .reqBody),
   (b!"secresponsebodyaccess", .resBody)]

/-- seclang/parser/scanner.go:161-168 `readDirective`. -/
def Scan.readDirective' (hi : Rune → Rune) (s : Scan) : SR PDir :=
  let (s, word) := s.readWord
  match dirIndex.lookup (toLower hi word) with
  | none => .ok (s, .error .notDirective)
  | some .rule => s.readRule
  | some .ruleEng => s.readTri .ruleEng
  | some .reqBody => s.readBool .reqBody
  | some .resBody => s.readBool .resBody

/-- seclang/parser/scanner.go:126-135: blanks, newlines and NULs before a
directive. -/
def skipLines : Bytes → Nat → Bytes × Nat
  | [], l => ([], l)
  | c :: r, l =>
    if isNewLine c then
      match r with
      | [] => ([], l + 1)
      | c' :: r' => if isNewLine c' && c' != c then skipLines r' (l + 1) else skipLines (c' :: r') (l + 1)
    else if isBlank c || c == 0 then skipLines r l
    else (c :: r, l)

/-- seclang/parser/scanner.go:122-144 `ReadDirective`. -/
def Scan.readDirective (hi : Rune → Rune) (s : Scan) : SR PDir :=
  let (r, l) := skipLines s.inp s.line
  let s := { s with bos := false, inp := r, line := l }
  match s.inp with
  | [] => .ok (s, .error .eos)
  | _ :: _ =>
    (s.readDirective' hi).bind fun
      | (s, .error .eos) => .ok (s, .error .unexpectedEOS)
      | x => .ok x

/-- seclang/parser/scanner.go:146-159 `AllDirective`, one directive per unit of fuel. -/
def allDirectiveFuel (hi : Rune → Rune) : Nat → Scan → SR (List PDir)
  | 0, _ => .fuel
  | n + 1, s =>
    (s.readDirective hi).bind fun
      | (s, .error .eos) => .ok (s, .ok [])
      | (s, .error e) => .ok (s, .error e)
      | (s, .ok d) => SR.andThen (allDirectiveFuel hi n s) fun ds s => .ok (s, .ok (d :: ds))

/-- `AllDirective` with enough fuel: a directive takes at least one byte
(`Proofs/Parser` shows that more fuel changes nothing). -/
def Scan.allDirective (hi : Rune → Rune) (s : Scan) : SR (List PDir) :=
  allDirectiveFuel hi (s.inp.length + 1) s

/-- Parse a rule text with a new scanner. -/
def parse (hi : Rune → Rune) (text : Bytes) : Res (Except PErr (List PDir)) :=
  ((newScanner text).allDirective hi).bind fun r => .ok r.2

end Verif
