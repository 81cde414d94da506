import Verif.Model.Parser
import Verif.Spec.Text
/-!
The rule language as a grammar: relations between text and syntax trees that do
not mention the scanner.  (The syntax trees themselves are the types of
`Model/Parser`.)  `Props/Syntax` shows that the parser accepts exactly this
language.
-/
namespace Verif.Spec

/-! ### Characters -/

/-- A line break character. -/
def Nl (c : UInt8) : Prop := c = 10 ∨ c = 13
/-- A blank: space, tab, vertical tab, form feed. -/
def Sp (c : UInt8) : Prop := c = 32 ∨ c = 9 ∨ c = 11 ∨ c = 12
/-- A quotation mark. -/
def Quote (c : UInt8) : Prop := c = 34 ∨ c = 39
/-- An ASCII letter. -/
def Letter (c : UInt8) : Prop := (65 ≤ c.toNat ∧ c.toNat ≤ 90) ∨ (97 ≤ c.toNat ∧ c.toNat ≤ 122)

/-- Escape letters and what they stand for. -/
def escapes : List (UInt8 × UInt8) :=
  [(97, 7), (98, 8), (102, 12), (110, 10), (114, 13), (116, 9), (118, 11), (92, 92), (34, 34), (39, 39)]

/-- The same word up to the case of letters. -/
inductive CaseVariant : Bytes → Bytes → Prop
  | nil : CaseVariant [] []
  | cons {a b : UInt8} {s t : Bytes} : CaseEq a b → CaseVariant s t → CaseVariant (a :: s) (b :: t)

/-! ### Tokens -/

/-- Space between tokens: blanks and line continuations. -/
inductive Gap : Bytes → Prop
  | nil : Gap []
  | blank {c : UInt8} {g : Bytes} : Sp c → Gap g → Gap (c :: g)
  | cont {g : Bytes} : Gap g → Gap (92 :: 10 :: g)
  | cont2 {g : Bytes} : Gap g → Gap (92 :: 10 :: 13 :: g)

/-- `Lex stop eos text value rest`: the characters of a string up to and
including the first stop character (or the end, if `eos`), the string they
stand for and the text behind. -/
inductive Lex (stop : UInt8 → Prop) (eos : Prop) : Bytes → Bytes → Bytes → Prop
  | eos : eos → Lex stop eos [] [] []
  | stop {c : UInt8} {r : Bytes} : stop c → Lex stop eos (c :: r) [] r
  | plain {c : UInt8} {r v rest : Bytes} : ¬ stop c → ¬ Nl c → c ≠ 92 → Lex stop eos r v rest →
      Lex stop eos (c :: r) (c :: v) rest
  | esc {e x : UInt8} {r v rest : Bytes} : (e, x) ∈ escapes → Lex stop eos r v rest →
      Lex stop eos (92 :: e :: r) (x :: v) rest
  | line2 {a b : UInt8} {r v rest : Bytes} : Nl a → Nl b → a ≠ b → Lex stop eos r v rest →
      Lex stop eos (92 :: a :: b :: r) (10 :: v) rest
  | line1 {a : UInt8} {r v rest : Bytes} : Nl a → (∀ b, r.head? = some b → Nl b → b = a) → Lex stop eos r v rest →
      Lex stop eos (92 :: a :: r) (10 :: v) rest
  | other {e : UInt8} {r v rest : Bytes} : ¬ Nl e → (∀ x, (e, x) ∉ escapes) → Lex stop eos r v rest →
      Lex stop eos (92 :: e :: r) (e :: v) rest

/-- A string token behind a gap: quoted, or a bare word ending at a blank, a
line break or the end of the text. -/
inductive Token : Bytes → Bytes → Bytes → Prop
  | quoted {g t v rest : Bytes} {q : UInt8} : Gap g → Quote q → Lex (· = q) False t v rest →
      Token (g ++ q :: t) v rest
  | bare {g t v rest : Bytes} {c : UInt8} : Gap g → ¬ Sp c → ¬ Nl c → ¬ Quote c → c ≠ 92 →
      Lex (fun c => Sp c ∨ Nl c) True (c :: t) v rest → Token (g ++ c :: t) v rest

/-! ### Lists -/

/-- `a sep b sep ... sep z`, items without separators. -/
inductive SepBy {α : Type} (seps : List UInt8) (item : Bytes → α → Prop) : Bytes → List α → Prop
  | one {s : Bytes} {a : α} : (∀ c ∈ s, c ∉ seps) → item s a → SepBy seps item s [a]
  | more {s r : Bytes} {a : α} {l : List α} {c : UInt8} : (∀ c ∈ s, c ∉ seps) → item s a → c ∈ seps →
      SepBy seps item r l → SepBy seps item (s ++ c :: r) (a :: l)

/-! ### Variables -/

/-- The names of the variables. -/
def varName : VarTok → Bytes
  | .args => b!"ARGS" | .argsNames => b!"ARGS_NAMES" | .argsGet => b!"ARGS_GET"
  | .argsGetNames => b!"ARGS_GET_NAMES" | .argsPost => b!"ARGS_POST" | .argsPostNames => b!"ARGS_POST_NAMES"
  | .queryString => b!"QUERY_STRING" | .remoteAddr => b!"REMOTE_ADDR" | .requestBasename => b!"REQUEST_BASENAME"
  | .requestBody => b!"REQUEST_BODY" | .requestCookies => b!"REQUEST_COOKIES"
  | .requestCookiesNames => b!"REQUEST_COOKIES_NAMES" | .requestFilename => b!"REQUEST_FILENAME"
  | .requestHeaders => b!"REQUEST_HEADERS" | .requestHeadersNames => b!"REQUEST_HEADERS_NAMES"
  | .requestMethod => b!"REQUEST_METHOD" | .requestProtocol => b!"REQUEST_PROTOCOL"
  | .requestUri => b!"REQUEST_URI" | .responseBody => b!"RESPONSE_BODY"
  | .responseContentLength => b!"RESPONSE_CONTENT_LENGTH" | .responseContentType => b!"RESPONSE_CONTENT_TYPE"
  | .responseHeaders => b!"RESPONSE_HEADERS" | .responseHeadersNames => b!"RESPONSE_HEADERS_NAMES"
  | .responseProtocol => b!"RESPONSE_PROTOCOL" | .responseStatus => b!"RESPONSE_STATUS" | .xml => b!"XML"

/-- `!` excludes, `&` counts. -/
inductive VarMark : Bytes → Bool → Bool → Prop
  | none : VarMark [] false false
  | excl : VarMark [33] true false
  | count : VarMark [38] false true

/-- `[!|&]NAME[:index|.index]`. -/
def VarItem (s : Bytes) (v : PVar) : Prop :=
  ∃ m tail, s = m ++ varName v.tk ++ tail ∧ VarMark m v.exclusion v.count ∧
    ((tail = [] ∧ v.index = []) ∨ tail = 58 :: v.index ∨ tail = 46 :: v.index)

/-- A variable list. -/
def Vars : Bytes → List PVar → Prop := SepBy [44, 124] VarItem

/-! ### Operator -/

/-- The names of the operators. -/
def opName : OpTok → Bytes
  | .rx => b!"rx" | .eq => b!"eq" | .ge => b!"ge" | .gt => b!"gt" | .le => b!"le" | .lt => b!"lt"

/-- `[!]@name[ argument]`, or `[!]pattern`. -/
def Oper (s : Bytes) (o : POp) : Prop :=
  ∃ t, ((o.not = true ∧ s = 33 :: t) ∨ (o.not = false ∧ s = t ∧ t.head? ≠ some 33)) ∧
    ((o.tk = .rx ∧ t = o.arg ∧ t ≠ [] ∧ t.head? ≠ some 64) ∨
      (t = 64 :: opName o.tk ∧ o.arg = []) ∨ t = 64 :: opName o.tk ++ 32 :: o.arg)

/-! ### Actions -/

/-- The names of the actions. -/
def actName : ActTok → Bytes
  | .allow => b!"allow" | .msg => b!"msg" | .id => b!"id" | .tag => b!"tag" | .rev => b!"rev"
  | .severity => b!"severity" | .log => b!"log" | .deny => b!"deny" | .block => b!"block"
  | .status => b!"status" | .t => b!"t" | .skip => b!"skip" | .chain => b!"chain" | .phase => b!"phase"
  | .ver => b!"ver" | .logdata => b!"logdata" | .setvar => b!"setvar" | .capture => b!"capture" | .pass => b!"pass"

/-- The names of the transformations. -/
def transName : TransTok → Bytes
  | .lowercase => b!"lowercase" | .urlDecode => b!"urlDecode" | .urlDecodeUni => b!"urlDecodeUni"
  | .none => b!"none" | .compressWhitespace => b!"compressWhitespace" | .removeWhitespace => b!"removeWhitespace"
  | .replaceNulls => b!"replaceNulls" | .removeNulls => b!"removeNulls"

/-- An argument without its quotes, if it has any. -/
def Unquoted (s t : Bytes) : Prop :=
  (∃ a b, Quote a ∧ Quote b ∧ s = a :: t ++ [b]) ∨
    ((¬ ∃ a m b, Quote a ∧ Quote b ∧ s = a :: m ++ [b]) ∧ s = t)

/-- A decimal number in the 64-bit range. -/
def Int64 (s : Bytes) (n : Int) : Prop := Decimal s n ∧ InInt64 n

/-- A severity name or number. -/
def Severity (s : Bytes) (n : Int) : Prop :=
  (s = b!"EMERGENCY" ∧ n = 0) ∨ (s = b!"ALERT" ∧ n = 1) ∨ (s = b!"CRITICAL" ∧ n = 2) ∨ (s = b!"ERROR" ∧ n = 3) ∨
    (s = b!"WARNING" ∧ n = 4) ∨ (s = b!"NOTICE" ∧ n = 5) ∨ (s = b!"INFO" ∧ n = 6) ∨ (s = b!"DEBUG" ∧ n = 7) ∨
    (Int64 s n ∧ 0 ≤ n ∧ n ≤ 7)

/-- A phase number or alias. -/
def Phase (s : Bytes) (n : Int) : Prop :=
  (s = b!"request" ∧ n = 2) ∨ (s = b!"response" ∧ n = 4) ∨ (s = b!"logging" ∧ n = 5) ∨
    (Int64 s n ∧ 1 ≤ n ∧ n ≤ 5)

/-- A checked action. -/
inductive Item where
  | id (n : Int)
  | phase (n : Int)
  | trans (t : TransTok)
  | chain
  | act (a : PAct)

/-- The meaning of an action name and its argument. -/
inductive Means : ActTok → Bytes → Item → Prop
  | id {arg u : Bytes} {n : Int} : Unquoted arg u → Int64 u n → Means .id arg (.id n)
  | phase {arg u : Bytes} {n : Int} : Unquoted arg u → Phase u n → Means .phase arg (.phase n)
  | severity {arg u : Bytes} {n : Int} : Unquoted arg u → Severity u n → Means .severity arg (.act ⟨.severity, itoa n⟩)
  | trans {arg : Bytes} {t : TransTok} : Unquoted arg (transName t) → Means .t arg (.trans t)
  | chain {arg : Bytes} : Means .chain arg .chain
  | other {tk : ActTok} {arg : Bytes} : tk ≠ .id → tk ≠ .phase → tk ≠ .severity → tk ≠ .t → tk ≠ .chain →
      Means tk arg (.act ⟨tk, arg⟩)

/-- ` name [: argument]`. -/
def ActItem (s : Bytes) (i : Item) : Prop :=
  ∃ l tk r tail arg, s = l ++ actName tk ++ r ++ tail ∧ Blank l ∧ Blank r ∧
    ((tail = [] ∧ arg = []) ∨ tail = 58 :: arg) ∧ Means tk arg i

def Item.id? : Item → Option Int | .id n => some n | _ => none
def Item.phase? : Item → Option Int | .phase n => some n | _ => none
def Item.trans? : Item → Option TransTok | .trans t => some t | _ => none
def Item.chain? : Item → Bool | .chain => true | _ => false
def Item.act? : Item → Option PAct | .act a => some a | _ => none

/-- The last value, 0 if there is none. -/
def lastOr0 (l : List Int) : Int := l.getLast?.getD 0

/-- What a list of actions amounts to. -/
def summary (is : List Item) : PActs where
  id := lastOr0 (is.filterMap Item.id?)
  phase := lastOr0 (is.filterMap Item.phase?)
  chain := is.any Item.chain?
  trans := is.filterMap Item.trans?
  action := is.filterMap Item.act?

/-- An action list, white space around it ignored. -/
def Acts (s : Bytes) (a : PActs) : Prop :=
  ∃ l core r is, s = l ++ core ++ r ∧ Blank l ∧ Blank r ∧ Trimmed core ∧ core ≠ [] ∧
    SepBy [44] ActItem core is ∧ a = summary is

/-! ### Directives -/

/-- One directive at the beginning of a text, and the text behind it. -/
inductive Directive : Bytes → PDir → Bytes → Prop
  | rule {w t t2 t3 rest vs os as : Bytes} {vars : List PVar} {op : POp} {acts : PActs} :
      CaseVariant w b!"SecRule" → (∀ c, t.head? = some c → ¬ Letter c) →
      Token t vs t2 → Vars vs vars → Token t2 os t3 → Oper os op → Token t3 as rest → Acts as acts →
      Directive (w ++ t) (.rule { vars, op, acts }) rest
  | engine {w t v rest : Bytes} {n : Int} :
      CaseVariant w b!"SecRuleEngine" → (∀ c, t.head? = some c → ¬ Letter c) → Token t v rest →
      ((CaseVariant v b!"On" ∧ n = 1) ∨ (CaseVariant v b!"Off" ∧ n = 0) ∨ (CaseVariant v b!"DetectionOnly" ∧ n = 2)) →
      Directive (w ++ t) (.ruleEng n) rest
  | reqBody {w t v rest : Bytes} {b : Bool} :
      CaseVariant w b!"SecRequestBodyAccess" → (∀ c, t.head? = some c → ¬ Letter c) → Token t v rest →
      ((CaseVariant v b!"On" ∧ b = true) ∨ (CaseVariant v b!"Off" ∧ b = false)) →
      Directive (w ++ t) (.reqBody b) rest
  | resBody {w t v rest : Bytes} {b : Bool} :
      CaseVariant w b!"SecResponseBodyAccess" → (∀ c, t.head? = some c → ¬ Letter c) → Token t v rest →
      ((CaseVariant v b!"On" ∧ b = true) ∨ (CaseVariant v b!"Off" ∧ b = false)) →
      Directive (w ++ t) (.resBody b) rest

/-- Text between directives: blanks, line breaks and NULs. -/
def Filler (s : Bytes) : Prop := ∀ c ∈ s, Sp c ∨ Nl c ∨ c = 0

/-- A rule file and the directives in it. -/
inductive Program : Bytes → List PDir → Prop
  | done {s : Bytes} : Filler s → Program s []
  | dir {f t rest : Bytes} {d : PDir} {ds : List PDir} : Filler f → Directive t d rest → Program rest ds →
      Program (f ++ t) (d :: ds)

/-! ### Texts on which the parser does not return -/

/-- A backslash that continues no line, where a token should begin. -/
def Stuck (t : Bytes) : Prop := ∃ g r, Gap g ∧ t = g ++ 92 :: r ∧ r.head? ≠ some 10

/-- A directive with such a backslash before one of its tokens. -/
inductive HangsIn : Bytes → Prop
  | first {w t n : Bytes} :
      n ∈ [b!"SecRule", b!"SecRuleEngine", b!"SecRequestBodyAccess", b!"SecResponseBodyAccess"] →
      CaseVariant w n → Stuck t → HangsIn (w ++ t)
  | operator {w t t2 vs : Bytes} {vars : List PVar} :
      CaseVariant w b!"SecRule" → (∀ c, t.head? = some c → ¬ Letter c) → Token t vs t2 → Vars vs vars → Stuck t2 →
      HangsIn (w ++ t)
  | actions {w t t2 t3 vs os : Bytes} {vars : List PVar} {op : POp} :
      CaseVariant w b!"SecRule" → (∀ c, t.head? = some c → ¬ Letter c) → Token t vs t2 → Vars vs vars →
      Token t2 os t3 → Oper os op → Stuck t3 → HangsIn (w ++ t)

/-- A text whose first defect is such a backslash. -/
inductive Hangs : Bytes → Prop
  | here {f t : Bytes} : Filler f → HangsIn t → Hangs (f ++ t)
  | later {f t rest : Bytes} {d : PDir} : Filler f → Directive t d rest → Hangs rest → Hangs (f ++ t)

end Verif.Spec
