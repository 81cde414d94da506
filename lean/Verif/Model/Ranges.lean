import Verif.Model.Transaction
import Verif.Model.Seclang
/-!
Map iteration, one order for each execution of each `range` statement.  Model/Variables
and Model/Seclang take one order for a whole execution (a function of the contents of the
map); Go chooses anew each time a `range` starts.  The definitions here are those of
Model/Filter, Model/Variables, Model/Rule, Model/Transaction and Model/Seclang with a
choice of orders in place of one.
-/
namespace Verif

/-- An order for each execution of a `range`: these are numbered by paths, each call
giving its own numbers to the calls it makes. -/
abbrev Orders := List Nat → IterOrd

/-- The orders for a call. -/
def Orders.call (os : Orders) (i : Nat) : Orders := fun p => os (i :: p)

/-- The order of a `range` statement of a function itself. -/
def Orders.loop (os : Orders) (i : Nat) : IterOrd := os [i]

/-- modsecurity/variables/filter.go:58-65 `Fetch`: its own loop, and that of `FetchWithNames`. -/
def Filter.fetchAt (f : Filter) (os : Orders) (vs : GoMap) : List Bytes :=
  ((os.loop 1).run (f.fetchWithNames (os.loop 0) vs)).flatMap (fun e => e.2)

/-- modsecurity/variables/filter.go:67-74 `Names`. -/
def Filter.namesAt (f : Filter) (os : Orders) (vs : GoMap) : List Bytes :=
  ((os.loop 1).run (f.fetchWithNames (os.loop 0) vs)).map (fun e => e.1)

/-- modsecurity/variables/args_posts.go:23-39. -/
def fetchArgsPostAt (env : Env) (os : Orders) (f : Filter) (t : Tx) : Res (List Bytes × Tx) :=
  (requestBodyParse env t).bind fun (t, tp, parsed) =>
    match tp, parsed with
    | some .urlencoded, .values m => .ok (f.fetchAt os m, t)
    | some .multipart, .form (some m) => .ok (f.fetchAt os m, t)
    | _, _ => .ok ([], t)

/-- modsecurity/variables/args_post_names.go:23-39. -/
def fetchArgsPostNamesAt (env : Env) (os : Orders) (f : Filter) (t : Tx) : Res (List Bytes × Tx) :=
  (requestBodyParse env t).bind fun (t, tp, parsed) =>
    match tp, parsed with
    | some .urlencoded, .values m => .ok (f.namesAt os m, t)
    | some .multipart, .form (some m) => .ok (f.namesAt os m, t)
    | some .multipart, .form none => .panic
    | _, _ => .ok ([], t)

/-- modsecurity/variables/args_gets.go:18-23. -/
def fetchArgsGetAt (env : Env) (os : Orders) (f : Filter) (t : Tx) : List Bytes :=
  match t.url with
  | none => []
  | some u => f.fetchAt os (env.lib.parseQuery u.rawQuery).1

/-- modsecurity/variables/args_get_names.go:18-23. -/
def fetchArgsGetNamesAt (env : Env) (os : Orders) (f : Filter) (t : Tx) : List Bytes :=
  match t.url with
  | none => []
  | some u => f.namesAt os (env.lib.parseQuery u.rawQuery).1

/-- `Variable.Fetch`; the variables not listed range over no map. -/
def Var.fetchAt (env : Env) (os : Orders) : Var → Tx → Res (List Bytes × Tx)
  | .args g p, t =>
    (fetchArgsPostAt env (os.call 1) p t).bind fun (post, t') => .ok (fetchArgsGetAt env (os.call 0) g t ++ post, t')
  | .argsNames g p, t =>
    (fetchArgsPostNamesAt env (os.call 1) p t).bind fun (post, t') => .ok (fetchArgsGetNamesAt env (os.call 0) g t ++ post, t')
  | .argsGet f, t => .ok (fetchArgsGetAt env os f t, t)
  | .argsGetNames f, t => .ok (fetchArgsGetNamesAt env os f t, t)
  | .argsPost f, t => fetchArgsPostAt env os f t
  | .argsPostNames f, t => fetchArgsPostNamesAt env os f t
  | .requestCookies f, t => .ok ((match t.reqHeader with | none => [] | some h => f.fetchAt os (readCookie h)), t)
  | .requestCookiesNames f, t => .ok ((match t.reqHeader with | none => [] | some h => f.namesAt os (readCookie h)), t)
  | .requestHeaders f, t => .ok (f.fetchAt os (t.reqHeader.getD []), t)
  | .requestHeadersNames f, t => .ok ((match t.url with | none => [] | some _ => f.namesAt os (t.reqHeader.getD [])), t)
  | .responseHeaders f, t => .ok (f.fetchAt os (t.respHeader.getD []), t)
  | .responseHeadersNames f, t => .ok (f.namesAt os (t.respHeader.getD []), t)
  | .count v, t => (v.fetchAt env os t).bind fun (vs, t) => .ok ([itoa vs.length], t)
  | v, t => v.fetch env t

/-- modsecurity/sec_rule.go:60-74 `TransformVariable`, `FetchAllTransformedVariables`. -/
def fetchVarsAt (env : Env) (r : Rule) : Orders → List Var → Tx → Res (List Bytes × Tx)
  | _, [], t => .ok ([], t)
  | os, v :: vs, t =>
    ((v.fetchAt env (os.call 0) t).bind fun (vs, t) => .ok (vs.map (r.transformString env t), t)).bind fun (x, t) =>
      (fetchVarsAt env r (os.call 1) vs t).bind fun (y, t) => .ok (x ++ y, t)

/-- modsecurity/sec_rule.go:76-86 `Match`. -/
def Rule.matchesAt (env : Env) (os : Orders) (r : Rule) (t : Tx) : Res (Bool × Tx) :=
  (fetchVarsAt env r os r.vars t).bind fun (vals, t) =>
    (matchLoop r t vals).bind fun b => .ok (b, t)

/-- modsecurity/sec_rule.go:93-97. -/
def matchSubsAt (env : Env) : Orders → List Rule → Tx → Res (Bool × Tx)
  | _, [], t => .ok (true, t)
  | os, s :: ss, t =>
    (s.matchesAt env (os.call 0) t).bind fun (b, t) => if !b then .ok (false, t) else matchSubsAt env (os.call 1) ss t

/-- modsecurity/sec_rule.go:88-102 `Do`. -/
def Rule.runAt (env : Env) (os : Orders) (rs : RuleSet) (fuel : Nat) (r : Rule) (t : Tx) : Res Tx :=
  (r.matchesAt env (os.call 0) t).bind fun (b, t) =>
    if !b then .ok t
    else (matchSubsAt env (os.call 1) r.subRules t).bind fun (b, t) =>
      if !b then .ok t
      else (actionsExecute (Action.run rs fuel) r.actions t).bind fun t =>
        subActions rs fuel r.subRules t

/-- modsecurity/sec_rule.go:147-156 `Process`. -/
def RuleSet.processAt (env : Env) (os : Orders) (rs : RuleSet) (fuel : Nat) (t : Tx) (phase offset : Int) : Res Tx :=
  let p := rs.phases phase
  if (p.length : Int) > offset then
    if offset < 0 then .panic
    else match p[offset.toNat]? with
      | none => .panic
      | some r => r.runAt env os rs fuel t
  else .ok t

/-- modsecurity/transaction.go:168-175: the loop of `processPhase`. -/
def processLoopAt (env : Env) (rs : RuleSet) (phase : Int) : Nat → Orders → Int → Tx → Res (Tx × Trace)
  | 0, _, _, _ => .fuel
  | n + 1, os, next, t =>
    if t.phase = phase ∧ next ≠ statusEndOfRules then
      (rs.processAt env (os.call 0) n t phase next).bind fun t =>
        let t := t.touch
        let ev : Trace := if next < (rs.phases phase).length then [(phase, next)] else []
        if t.intervention.disruptive then .ok (t, ev)
        else
          let (t, next) := t.next (rs.phases t.phase).length
          (processLoopAt env rs phase n (os.call 1) next t).bind fun (t, tr) => .ok (t, ev ++ tr)
    else .ok (t, [])

/-- modsecurity/transaction.go:155-176 `ProcessPhase`, `processPhase`. -/
def processPhaseAt (env : Env) (os : Orders) (rs : RuleSet) (fuel : Nat) (phase : Int) (t : Tx) : Res (Tx × Trace) :=
  if t.phase ≥ phase then .ok (t, [])
  else
    let t := t.jumpToPhase phase
    if t.abort then .ok (t, [])
    else
      let (t, next) := t.next (rs.phases t.phase).length
      processLoopAt env rs phase fuel os next t

/-- One API call (modsecurity/transaction.go:95-263); the calls not listed evaluate no rule. -/
def Tx.stepAt (env : Env) (os : Orders) (rs : RuleSet) (fuel : Nat) (t : Tx) : Op → Res (Tx × Out × Trace)
  | .processConnection a b c d =>
    (processPhaseAt env os rs fuel phaseConnection { t with srcIp := a, srcPort := b, dstIp := c, dstPort := d }).bind fun (t, tr) => .ok (t, .unit, tr)
  | .processRequestHeader h =>
    (processPhaseAt env os rs fuel phaseRequestHeaders { t with reqHeader := orEmpty h }).bind fun (t, tr) => .ok (t, .unit, tr)
  | .processRequestBody => (processPhaseAt env os rs fuel phaseRequestBody t).bind fun (t, tr) => .ok (t, .unit, tr)
  | .processResponseHeaders code proto h =>
    (processPhaseAt env os rs fuel phaseResponseHeaders { t with respCode := code, respProto := proto, respHeader := orEmpty h }).bind
      fun (t, tr) => .ok (t, .unit, tr)
  | .processResponseBody => (processPhaseAt env os rs fuel phaseResponseBody t).bind fun (t, tr) => .ok (t, .unit, tr)
  | .processLogging => (processPhaseAt env os rs fuel phaseLogging t).bind fun (t, tr) => .ok (t, .unit, tr)
  | .processPhase p => (processPhaseAt env os rs fuel p t).bind fun (t, tr) => .ok (t, .unit, tr)
  | op => t.step env rs fuel op

/-- A sequence of calls. -/
def Tx.stepsAt (env : Env) (rs : RuleSet) (fuel : Nat) : Orders → Tx → List Op → Res (Tx × List Out × Trace)
  | _, t, [] => .ok (t, [], [])
  | os, t, op :: ops =>
    (t.stepAt env (os.call 0) rs fuel op).bind fun (t, o, tr) =>
      (Tx.stepsAt env rs fuel (os.call 1) t ops).bind fun (t, os, tr') => .ok (t, o :: os, tr ++ tr')

/-! ### Loading -/

/-- seclang/rule_set.go:52-71, with an order for each directive.  A rule ranges over two
maps (seclang/variable.go:90-95), which are never equal unless they are empty: the entries
of one are counts. -/
def addDirsAt (lib : Lib) : (Nat → VarOrd) → List PDir → DireSet → Option Nat → DireSet × Option LoadErr
  | _, [], set, _ => (set, none)
  | vos, dir :: dirs, set, parent =>
    match direFactory lib (vos 0) dir with
    | .error e => (set, some e)
    | .ok (.rule r chain) =>
      match parent with
      | some i => addDirsAt lib (fun i => vos (i + 1)) dirs (set.modify i (Dire.addSub r)) (if chain then parent else none)
      | none => addDirsAt lib (fun i => vos (i + 1)) dirs (set ++ [.rule r chain]) (if chain then some set.length else none)
    | .ok d => addDirsAt lib (fun i => vos (i + 1)) dirs (set ++ [d]) parent

/-- seclang/rule_set.go:45-73 `AddSecLangString`. -/
def DireSet.addSecLangStringAt (lib : Lib) (vos : Nat → VarOrd) (set : DireSet) (text : Bytes) : Res (DireSet × Option LoadErr) :=
  (parse lib.lowerHi text).bind fun
    | .error e => .ok (set, some (.parse e))
    | .ok dirs => .ok (addDirsAt lib vos dirs set none)

end Verif
