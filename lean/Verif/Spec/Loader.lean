import Verif.Model.Seclang
import Verif.Spec.Syntax
import Verif.Spec.Selectors
/-!
What loading a parsed rule text should give, independent of the loader's maps,
positions and loops.
-/
namespace Verif

/-- Two lists related element by element. -/
inductive Pairs {α β : Type} (R : α → β → Prop) : List α → List β → Prop
  | nil : Pairs R [] []
  | cons {a : α} {b : β} {as : List α} {bs : List β} : R a b → Pairs R as bs → Pairs R (a :: as) (b :: bs)

namespace Spec

/-! ### Variables -/

/-- The variables that have named entries to select from. -/
def Selectable : VarTok → Bool
  | .args | .argsNames | .argsGet | .argsGetNames | .argsPost | .argsPostNames | .requestCookies
  | .requestCookiesNames | .requestHeaders | .requestHeadersNames | .responseHeaders | .responseHeadersNames => true
  | _ => false

/-- The variable of a name, restricted by `f` if it has named entries; `none` if
there is no such variable. -/
def variableOf (f : Filter) : VarTok → Option Var
  | .args => some (.args f f)
  | .argsNames => some (.argsNames f f)
  | .argsGet => some (.argsGet f)
  | .argsGetNames => some (.argsGetNames f)
  | .argsPost => some (.argsPost f)
  | .argsPostNames => some (.argsPostNames f)
  | .queryString => some .queryString
  | .remoteAddr => some .remoteAddr
  | .requestBasename => some .requestBasename
  | .requestBody => some .requestBody
  | .requestCookies => some (.requestCookies f)
  | .requestCookiesNames => some (.requestCookiesNames f)
  | .requestFilename => some .requestFilename
  | .requestHeaders => some (.requestHeaders f)
  | .requestHeadersNames => some (.requestHeadersNames f)
  | .requestMethod => some .requestMethod
  | .requestProtocol => some .requestProtocol
  | .requestUri => some .requestUri
  | .responseBody => some .responseBody
  | .responseContentLength => some .responseContentLength
  | .responseContentType => some .responseContentType
  | .responseHeaders => some (.responseHeaders f)
  | .responseHeadersNames => some (.responseHeadersNames f)
  | .responseProtocol => some .responseProtocol
  | .responseStatus => some .responseStatus
  | .xml => none

/-- The selector of a parsed variable. -/
def selectorOf (v : PVar) : Selector := if v.exclusion then .excl v.index else .incl v.index

/-- The selectors given for a name (counted or not) in a variable list. -/
def selectors (vs : List PVar) (tk : VarTok) (count : Bool) : List Selector :=
  (vs.filter fun v => v.tk = tk ∧ v.count = count ∧ v.index ≠ []).map selectorOf

/-- `x` is the variable `tk` (counted or not) with all selectors `vs` has for it. -/
def Carries (rx : Bytes → Option (Bytes → Bool)) (vs : List PVar) (k : VarTok × Bool) (x : Var) : Prop :=
  ∃ f y, (Selectable k.1 = true → applySelectors rx {} (selectors vs k.1 k.2) = some f) ∧ variableOf f k.1 = some y ∧
    x = if k.2 then .count y else y

/-- A variable that is implemented, with a valid selector. -/
def VarOk (lib : Lib) (v : PVar) : Prop :=
  v.tk ≠ .xml ∧ (Selectable v.tk = true → ∀ re, IsRegex v.index re → ∃ f, lib.rx re = some f)

/-! ### Operator, transformations -/

/-- The comparison of an operator name. -/
def cmpOf : OpTok → Option CmpKind
  | .rx => none | .eq => some .eq | .ge => some .ge | .gt => some .gt | .le => some .le | .lt => some .lt

/-- `a` is `s` without the white space around it. -/
def Core (s a : Bytes) : Prop := Trimmed a ∧ ∃ l r, s = l ++ a ++ r ∧ Blank l ∧ Blank r

/-- The loaded operator: the compiled pattern, or a comparison with the number, which
keeps the numeral as written. -/
inductive OpMeans (lib : Lib) (o : POp) : Operator → Prop
  | rx {f : Bytes → Bool} : o.tk = .rx → lib.rx o.arg = some f → OpMeans lib o (.rx ⟨o.arg, f⟩)
  | cmp {c : OperatorCompare} : cmpOf o.tk = some c.kind → Numeral o.arg c.arg → Core o.arg c.argString → OpMeans lib o (.cmp c)

/-- An operator with a valid argument. -/
def OpOk (lib : Lib) (o : POp) : Prop := ∃ op, OpMeans lib o op

/-- The transformation of a name. -/
def transOf : TransTok → Trans
  | .lowercase => .lowercase | .urlDecode => .urlDecode | .urlDecodeUni => .urlDecodeUni | .none => .none
  | .compressWhitespace => .compressWhitespace | .removeWhitespace => .removeWhitespace
  | .replaceNulls => .replaceNulls | .removeNulls => .removeNulls

/-! ### Actions -/

/-- The loaded action. -/
inductive ActMeans : PAct → Action → Prop
  | deny {arg : Bytes} : ActMeans ⟨.deny, arg⟩ .deny
  | skip {arg : Bytes} : ActMeans ⟨.skip, arg⟩ .skip
  | log {arg : Bytes} : ActMeans ⟨.log, arg⟩ .log
  | block {arg : Bytes} : ActMeans ⟨.block, arg⟩ .block
  | status {arg u : Bytes} {n : Int} : Unquoted arg u → Int64 u n → ActMeans ⟨.status, arg⟩ (.status n)
  | allow {arg u : Bytes} : Unquoted arg u → ActMeans ⟨.allow, arg⟩ (.allow u)

/-- Actions that only describe the rule. -/
def metaName : ActTok → Option Bytes
  | .tag => some b!"tag" | .msg => some b!"msg" | .rev => some b!"rev" | .ver => some b!"ver" | _ => none

/-- An action that is implemented, with a valid argument. -/
def ActOk (a : PAct) : Prop := (∃ x, ActMeans a x) ∨ ∃ k, metaName a.tk = some k

/-! ### Rules -/

/-- A rule all of whose parts are implemented and valid. -/
structure RuleOk (lib : Lib) (p : PRule) : Prop where
  vars : ∀ v ∈ p.vars, VarOk lib v
  op : OpOk lib p.op
  acts : ∀ a ∈ p.acts.action, ActOk a

/-- The loaded rule. -/
structure RuleMeans (lib : Lib) (p : PRule) (r : Rule) : Prop where
  id : r.id = p.acts.id
  phase : r.phase = p.acts.phase
  not : r.not = p.op.not
  subRules : r.subRules = []
  vars : ∃ ks, ks.Nodup ∧ (∀ k, k ∈ ks ↔ ∃ v ∈ p.vars, (v.tk, v.count) = k) ∧ Pairs (Carries lib.rx p.vars) ks r.vars
  trans : r.trans = p.acts.trans.map transOf
  op : ∃ op, r.op = some op ∧ OpMeans lib p.op op
  actions : Pairs ActMeans (p.acts.action.filter fun a => (metaName a.tk).isNone) r.actions
  metaData : ∀ k, Pairs (fun a u => Unquoted a.arg u) (p.acts.action.filter fun a => metaName a.tk = some k)
    ((r.metaData.get? k).getD [])

/-- A directive that loads. -/
def DirOk (lib : Lib) : PDir → Prop
  | .rule p => RuleOk lib p
  | _ => True

/-- The loaded directive. -/
inductive DirMeans (lib : Lib) : PDir → Dire → Prop
  | rule {p : PRule} {r : Rule} : RuleMeans lib p r → DirMeans lib (.rule p) (.rule r p.acts.chain)
  | ruleEng {v : Int} : DirMeans lib (.ruleEng v) (.ruleEng v)
  | reqBody {b : Bool} : DirMeans lib (.reqBody b) (.reqBody b)
  | resBody {b : Bool} : DirMeans lib (.resBody b) (.resBody b)

/-! ### Chains -/

/-- What follows a rule with `chain`: the rules up to and including the first
one without `chain`, the other directives on the way, and the rest. -/
def takeChain : List Dire → List Rule × List Dire × List Dire
  | [] => ([], [], [])
  | .rule r false :: ds => ([r], [], ds)
  | .rule r true :: ds => let (rs, os, rest) := takeChain ds; (r :: rs, os, rest)
  | d :: ds => let (rs, os, rest) := takeChain ds; (rs, d :: os, rest)

theorem takeChain_length : ∀ ds : List Dire, (takeChain ds).2.2.length ≤ ds.length
  | [] => Nat.le_refl _
  | .rule r false :: ds => Nat.le_succ _
  | .rule r true :: ds => Nat.le_succ_of_le (takeChain_length ds)
  | .reqBody _ :: ds | .resBody _ :: ds | .ruleEng _ :: ds => Nat.le_succ_of_le (takeChain_length ds)

/-- Each rule with `chain` takes the rules chained to it as its sub-rules. -/
def group : List Dire → List Dire
  | [] => []
  | .rule r true :: ds =>
    .rule { r with subRules := r.subRules ++ (takeChain ds).1 } true :: ((takeChain ds).2.1 ++ group (takeChain ds).2.2)
  | d :: ds => d :: group ds
termination_by ds => ds.length
decreasing_by
  · have := takeChain_length ds; simp only [List.length_cons]; omega
  · simp

/-! ### Execution -/

/-- The rules of a set of directives. -/
def rulesOf (ds : List Dire) : List Rule := ds.filterMap fun | .rule r _ => some r | _ => none

/-- The values given by `SecRequestBodyAccess`. -/
def reqBodies (ds : List Dire) : List Bool := ds.filterMap fun | .reqBody b => some b | _ => none

/-- The values given by `SecResponseBodyAccess`. -/
def resBodies (ds : List Dire) : List Bool := ds.filterMap fun | .resBody b => some b | _ => none

/-- The modes given by `SecRuleEngine`: (enabled, detection only). -/
def modes (ds : List Dire) : List (Bool × Bool) :=
  ds.filterMap fun
    | .ruleEng 1 => some (true, false)
    | .ruleEng 0 => some (false, false)
    | .ruleEng 2 => some (false, true)
    | _ => none

end Spec
end Verif
