import Verif.Model.Parser
import Verif.Model.Engine
/-! seclang/*.go: from parsed directives to an engine configuration. -/
namespace Verif

/-- The order in which `range` visits `varMap`/`countVarMap` in
seclang/variable.go:90-95: an arbitrary permutation. -/
structure VarOrd where
  run : List (VarTok × Var) → List (VarTok × Var)
  perm : ∀ m, (run m).Perm m

/-- Errors of loading. -/
inductive LoadErr where
  | parse (e : PErr)
  | notImplemented
  | badArgument
deriving Repr, DecidableEq

/-- seclang/variable.go:11-37 `variableFactorys`; `none`: not implemented. -/
def variableFactory : VarTok → Option Var
  | .args => some (.args {} {})
  | .argsNames => some (.argsNames {} {})
  | .argsGet => some (.argsGet {})
  | .argsGetNames => some (.argsGetNames {})
  | .argsPost => some (.argsPost {})
  | .argsPostNames => some (.argsPostNames {})
  | .queryString => some .queryString
  | .remoteAddr => some .remoteAddr
  | .requestBasename => some .requestBasename
  | .requestBody => some .requestBody
  | .requestCookies => some (.requestCookies {})
  | .requestCookiesNames => some (.requestCookiesNames {})
  | .requestFilename => some .requestFilename
  | .requestHeaders => some (.requestHeaders {})
  | .requestHeadersNames => some (.requestHeadersNames {})
  | .requestMethod => some .requestMethod
  | .requestProtocol => some .requestProtocol
  | .requestUri => some .requestUri
  | .responseBody => some .responseBody
  | .responseContentLength => some .responseContentLength
  | .responseContentType => some .responseContentType
  | .responseHeaders => some (.responseHeaders {})
  | .responseHeadersNames => some (.responseHeadersNames {})
  | .responseProtocol => some .responseProtocol
  | .responseStatus => some .responseStatus
  | .xml => none

/-- A Go map from variable tokens: insertion order kept, keys unique. -/
abbrev VarMap := List (VarTok × Var)

/-- `m[k] = v` for an absent `k`; replaces the entry of a present one. -/
def VarMap.set (m : VarMap) (k : VarTok) (v : Var) : VarMap :=
  match m with
  | [] => [(k, v)]
  | (k', v') :: r => if k' = k then (k, v) :: r else (k', v') :: VarMap.set r k v

/-- seclang/variable.go:76-88: apply the selector of one parsed variable (the
object is shared with the map, so the map entry is updated). -/
def applySelector (lib : Lib) (v : PVar) (x : Var) : Except LoadErr Var :=
  if v.index = [] then .ok x
  else
    match (if !v.exclusion then x.include lib v.index else x.exclude lib v.index) with
    | some x => .ok x
    | none => .error .badArgument

/-- seclang/variable.go:56-89: the loop over the parsed variables. -/
def collectVars (lib : Lib) : List PVar → VarMap → VarMap → Except LoadErr (VarMap × VarMap)
  | [], m, cm => .ok (m, cm)
  | v :: vs, m, cm =>
    match variableFactory v.tk with
    | none => .error .notImplemented
    | some fresh =>
      if !v.count then
        match applySelector lib v ((m.lookup v.tk).getD fresh) with
        | .error e => .error e
        | .ok x => collectVars lib vs (m.set v.tk x) cm
      else
        match applySelector lib v ((cm.lookup v.tk).getD (.count fresh)) with
        | .error e => .error e
        | .ok x => collectVars lib vs m (cm.set v.tk x)

/-- seclang/variable.go:47-97 `applyVariables`: the variables appended. -/
def applyVariables (lib : Lib) (vo : VarOrd) (vs : List PVar) : Except LoadErr (List Var) :=
  match collectVars lib vs [] [] with
  | .error e => .error e
  | .ok (m, cm) => .ok ((vo.run m).map Prod.snd ++ (vo.run cm).map Prod.snd)

/-- seclang/trans.go:11-20 `transFactorys` (all are implemented). -/
def transFactory : TransTok → Trans
  | .lowercase => .lowercase
  | .urlDecode => .urlDecode
  | .urlDecodeUni => .urlDecodeUni
  | .none => .none
  | .compressWhitespace => .compressWhitespace
  | .removeWhitespace => .removeWhitespace
  | .replaceNulls => .replaceNulls
  | .removeNulls => .removeNulls

/-- seclang/operators.go:11-40 `applyOperator`. -/
def applyOperator (lib : Lib) (o : POp) : Except LoadErr Operator :=
  let r := match o.tk with
    | .rx => newOperatorRx lib o.arg
    | .eq => (newOperatorCompare .eq o.arg).map .cmp
    | .ge => (newOperatorCompare .ge o.arg).map .cmp
    | .gt => (newOperatorCompare .gt o.arg).map .cmp
    | .le => (newOperatorCompare .le o.arg).map .cmp
    | .lt => (newOperatorCompare .lt o.arg).map .cmp
  match r with
  | some op => .ok op
  | none => .error .badArgument

/-- seclang/actions.go:12-43, 96-117: one parsed action added to the rule. -/
def applyAction (a : PAct) (acts : List Action) (md : GoMap) : Except LoadErr (List Action × GoMap) :=
  match a.tk with
  | .deny => .ok (acts ++ [.deny], md)
  | .skip => .ok (acts ++ [.skip], md)
  | .log => .ok (acts ++ [.log], md)
  | .block => .ok (acts ++ [.block], md)
  | .status =>
    match atoi (trimQuote a.arg) with
    | some n => .ok (acts ++ [.status n], md)
    | none => .error .badArgument
  | .allow => .ok (acts ++ [.allow (trimQuote a.arg)], md)
  | .tag => .ok (acts, md.append b!"tag" [trimQuote a.arg])
  | .msg => .ok (acts, md.append b!"msg" [trimQuote a.arg])
  | .rev => .ok (acts, md.append b!"rev" [trimQuote a.arg])
  | .ver => .ok (acts, md.append b!"ver" [trimQuote a.arg])
  | _ => .error .notImplemented

/-- seclang/actions.go:96-117: the loop. -/
def applyActionList : List PAct → List Action → GoMap → Except LoadErr (List Action × GoMap)
  | [], acts, md => .ok (acts, md)
  | a :: as, acts, md =>
    match applyAction a acts md with
    | .error e => .error e
    | .ok (acts, md) => applyActionList as acts md

/-- seclang/rules.go:16-96 and seclang/sec_rule.go:15-18: loaded directives. -/
inductive Dire where
  | rule (r : Rule) (chain : Bool)
  | reqBody (b : Bool)
  | resBody (b : Bool)
  | ruleEng (v : Int)

/-- seclang/sec_rule.go:30-59 `DireRule.FromSecLang`. -/
def loadRule (lib : Lib) (vo : VarOrd) (p : PRule) : Except LoadErr Dire :=
  match applyVariables lib vo p.vars with
  | .error e => .error e
  | .ok vars =>
    match applyOperator lib p.op with
    | .error e => .error e
    | .ok op =>
      match applyActionList p.acts.action [] [] with
      | .error e => .error e
      | .ok (acts, md) =>
        .ok (.rule { id := p.acts.id, phase := p.acts.phase, vars := vars,
                     trans := p.acts.trans.map transFactory, op := some op, actions := acts,
                     not := p.op.not, metaData := md } p.acts.chain)

/-- seclang/rule_set.go:21-27 `direFactory`. -/
def direFactory (lib : Lib) (vo : VarOrd) : PDir → Except LoadErr Dire
  | .rule r => loadRule lib vo r
  | .ruleEng v => .ok (.ruleEng v)
  | .reqBody b => .ok (.reqBody b)
  | .resBody b => .ok (.resBody b)

/-- seclang/rule_set.go:41-43 `DireSet`. -/
abbrev DireSet := List Dire

/-- `parent.rule.AppendSubRules(r)` (seclang/rule_set.go:66). -/
def Dire.addSub (r : Rule) : Dire → Dire
  | .rule p c => .rule { p with subRules := p.subRules ++ [r] } c
  | d => d

/-- seclang/rule_set.go:52-71: the loop of `AddSecLangString`.  `chainParent`
points to a `DireRule` in the set: modelled by its position. -/
def addDirs (lib : Lib) (vo : VarOrd) : List PDir → DireSet → Option Nat → DireSet × Option LoadErr
  | [], set, _ => (set, none)
  | dir :: dirs, set, parent =>
    match direFactory lib vo dir with
    | .error e => (set, some e)
    | .ok (.rule r chain) =>
      match parent with
      | some i => addDirs lib vo dirs (set.modify i (Dire.addSub r)) (if chain then parent else none)
      | none => addDirs lib vo dirs (set ++ [.rule r chain]) (if chain then some set.length else none)
    | .ok d => addDirs lib vo dirs (set ++ [d]) parent

/-- seclang/rule_set.go:45-73 `AddSecLangString`: the set afterwards and the error. -/
def DireSet.addSecLangString (lib : Lib) (vo : VarOrd) (set : DireSet) (text : Bytes) :
    Res (DireSet × Option LoadErr) :=
  (parse lib.lowerHi text).bind fun
    | .error e => .ok (set, some (.parse e))
    | .ok dirs => .ok (addDirs lib vo dirs set none)

/-- seclang/rules.go:86-96 `DireRuleEngine.Execute`. -/
def execRuleEng (v : Int) (e : Engine) : Engine :=
  if v = 1 then e.enable statusOn
  else if v = 0 then e.enable statusOff
  else if v = 2 then e.enable statusDect
  else e

/-- `Dire.Execute` (seclang/rules.go:36-39, 61-64, 86-96, sec_rule.go:61-64). -/
def Dire.execute (e : Engine) : Dire → Engine
  | .rule r _ => e.addSecRule [r]
  | .reqBody b => { e with limits := { e.limits with requestBodyAccess := b } }
  | .resBody b => { e with limits := { e.limits with responseBodyAccess := b } }
  | .ruleEng v => execRuleEng v e

/-- seclang/rule_set.go:75-82 `Execute` (no directive returns an error). -/
def DireSet.execute (set : DireSet) (e : Engine) : Engine := set.foldl Dire.execute e

end Verif
