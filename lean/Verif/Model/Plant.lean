import Verif.Model.Site
import Verif.Model.Build
/-!
A host with any number of engines, directive sets, rule sets and transactions, each
kept in a list and named by its position there.  Directive sets are values the host
builds text by text and executes on any engine, any number of times.  Rules made in Go
are objects: rule sets refer to them.
-/
namespace Verif

/-- An engine (modsecurity/engine.go:3-9) with the limits and the rule set it points to. -/
structure Cell where
  enabled : Bool := false
  detectionOnly : Bool := false
  limits : Nat
  rules : Nat

/-- The engine value. -/
def Cell.engine (c : Cell) (l : Limits) (rs : RuleSet) : Engine :=
  { enabled := c.enabled, detectionOnly := c.detectionOnly, ruleSet := rs, limits := l }

/-- Everything the host has made. -/
structure Plant where
  engines : List Cell := []
  limits : List Limits := []
  rules : List Rack := []
  shop : Shop := {}
  sets : List DireSet := []
  /-- each transaction with its engine and rule set -/
  txs : List (Nat × Nat × Tx) := []

/-- What a call on a body returns. -/
inductive BodyOut where
  | wrote (n : Nat) (e : Option BufErr)
  | text (s : Bytes) (e : Option BufErr)
  | read (s : Bytes) (e : Option BufErr)
  | sought (p : Nat) (e : Option BufErr)
  | closed (e : Option BufErr)
deriving DecidableEq

/-- One call on a body (modsecurity/buffer.go:39-124). -/
def Buf.call (b : Buf) : BufOp → Res (Buf × BodyOut)
  | .write p io => (b.write p io).bind fun (b, n, e) => .ok (b, .wrote n e)
  | .string => .ok (b.string.1, .text b.string.2.1 b.string.2.2)
  | .bytes => .ok (b.string.1, .text b.string.2.1 b.string.2.2)
  | .read n => (b.read n).bind fun (b, s, e) => .ok (b, .read s e)
  | .writeTo => b.writeTo.bind fun (b, s, e) => .ok (b, .read s e)
  | .seek o w => (b.seek o w).bind fun (b, p, e) => .ok (b, .sought p e)
  | .close => b.close.bind fun (b, e) => .ok (b, .closed e)

/-- Assignments to the exported fields of a transaction (modsecurity/transaction.go:14-56). -/
inductive Edit where
  /-- `NetInfo` -/
  | net (srcIp srcPort dstIp dstPort : Bytes)
  /-- `Request`, but for the body -/
  | request (url : Option URL) (method proto : Bytes) (header : Option GoMap)
  /-- `Response`, but for the body -/
  | response (code : Int) (proto : Bytes) (header : Option GoMap)
  /-- `Abort` -/
  | abort (b : Bool)
  /-- `Data["status"]`; `none` deletes it -/
  | status (code : Option Int)
  /-- `VariableCache`, to an empty map -/
  | forget
  /-- `Engine` -/
  | engine (e : Nat)
  /-- `RuleSet` -/
  | rules (a : Nat)

/-- What can be seen of a transaction: its exported fields, `CurrentPhase`, and `Len` of the
bodies. -/
structure Look where
  engine : Nat
  rules : Nat
  abort : Bool
  srcIp : Bytes
  srcPort : Bytes
  dstIp : Bytes
  dstPort : Bytes
  url : Option URL
  method : Bytes
  reqProto : Bytes
  reqHeader : Option GoMap
  reqLen : Nat
  respCode : Int
  respProto : Bytes
  respHeader : Option GoMap
  respLen : Nat
  status : Option DataVal
  phase : Int

/-- What the host does.  The orders in which maps are visited are chosen anew each time. -/
inductive Act where
  /-- `NewEngine` -/
  | newEngine
  /-- `NewDireSet` -/
  | newSet
  /-- `DireSet.AddSecLangString` -/
  | add (i : Nat) (vo : VarOrd) (text : Bytes)
  /-- `DireSet.Execute` -/
  | execute (i e : Nat)
  /-- `Engine.Enable` -/
  | enable (e : Nat) (status : Int)
  /-- assignment to the fields of `Engine.Limits` -/
  | setLimits (e : Nat) (l : Limits)
  /-- `NewDefaultLimits` -/
  | newLimits
  /-- assignment to `Engine.Limits` -/
  | useLimits (e i : Nat)
  /-- the fields of `Engine` -/
  | inspect (e : Nat)
  /-- `NewSecRuleSet` -/
  | newRules
  /-- `SecRuleSet.AddRules` -/
  | addRules (a : Nat) (rs : List Nat)
  /-- `SecRuleSet.AddDefaultActions` -/
  | addDefaults (a : Nat) (acts : List HostAct)
  /-- `SecRuleSet.Phases = nil` -/
  | clearRules (a : Nat)
  /-- `SecRuleSet.DefaultActions = nil` -/
  | clearDefaults (a : Nat)
  /-- making and changing rules and variables -/
  | shop (x : ShopAct)
  /-- assignment to `Engine.RuleSet` -/
  | useRules (e a : Nat)
  /-- `Engine.NewTransaction`; whether the temporary directory is unusable -/
  | newTransaction (e : Nat) (dirFails : Bool)
  /-- `NewTransaction` with any rule set; `none` is nil -/
  | newTransactionWith (e a : Option Nat) (dirFails : Bool)
  /-- a call on transaction `i` -/
  | call (i : Nat) (ord : IterOrd) (op : Op)
  /-- a call on the request or response body of transaction `i` -/
  | body (i : Nat) (resp : Bool) (op : BufOp)
  /-- assignment to fields of transaction `i` -/
  | edit (i : Nat) (ed : Edit)
  /-- the fields of transaction `i` -/
  | look (i : Nat)

/-- What it gets back. -/
inductive ActOut where
  | done
  | made (i : Nat)
  | loaded (ok : Bool)
  | shop (o : ShopOut)
  | noTransaction
  | engine (enabled detectionOnly : Bool) (l : Limits)
  | returned (o : Out)
  | body (o : BodyOut)
  | look (l : Look)

/-- An engine and its limits. -/
def engineAt (engines : List Cell) (limits : List Limits) (e : Nat) : Option (Cell × Limits) :=
  match engines[e]? with
  | none => none
  | some c => limits[c.limits]?.map fun l => (c, l)

/-- modsecurity/transaction.go:58-86 `NewTransaction`. -/
def Plant.newTransaction (p : Plant) (e a : Nat) (l : Limits) (dirFails : Bool) : Plant × ActOut :=
  if dirFails then (p, .noTransaction)
  else ({ p with txs := p.txs ++ [(e, a, Verif.newTransaction l)] }, .made p.txs.length)

/-- The fields of a transaction after an assignment (the pointers apart). -/
def Tx.edit (t : Tx) : Edit → Tx
  | .net a b c d => { t with srcIp := a, srcPort := b, dstIp := c, dstPort := d }
  | .request u m p h => { t with url := u, method := m, reqProto := p, reqHeader := h }
  | .response c p h => { t with respCode := c, respProto := p, respHeader := h }
  | .abort b => { t with abort := b }
  | .status (some c) => t.setData b!"status" (.int c)
  | .status none => { t with data := t.data.filter fun e => e.1 != b!"status" }
  | .forget => { t with cache := [] }
  | .engine _ => t
  | .rules _ => t

/-- The fields. -/
def Tx.look (e a : Nat) (t : Tx) : Look where
  engine := e
  rules := a
  abort := t.abort
  srcIp := t.srcIp
  srcPort := t.srcPort
  dstIp := t.dstIp
  dstPort := t.dstPort
  url := t.url
  method := t.method
  reqProto := t.reqProto
  reqHeader := t.reqHeader
  reqLen := t.reqBody.len
  respCode := t.respCode
  respProto := t.respProto
  respHeader := t.respHeader
  respLen := t.respBody.len
  status := t.getData b!"status"
  phase := t.phase

/-- Executing a directive adds its rule (seclang/sec_rule.go:61-64), if it has one. -/
def Rack.execute (k : Rack) : Dire → Rack
  | .rule r _ => k.add (r.phase, .loaded r)
  | _ => k

/-- One step.  Naming something that was never made is a panic. -/
def Plant.act (lib : Lib) (n : Nat) (p : Plant) : Act → Res (Plant × ActOut)
  | .newEngine => .ok ({ p with
      engines := p.engines ++ [{ limits := p.limits.length, rules := p.rules.length }]
      limits := p.limits ++ [newDefaultLimits]
      rules := p.rules ++ [{}] }, .made p.engines.length)
  | .newSet => .ok ({ p with sets := p.sets ++ [[]] }, .made p.sets.length)
  | .add i vo text => match p.sets[i]? with
    | none => .panic
    | some set => (set.addSecLangString lib vo text).bind fun (set, e) => .ok ({ p with sets := p.sets.set i set }, .loaded e.isNone)
  | .execute i e => match p.sets[i]?, engineAt p.engines p.limits e with
    | some set, some (c, l) => match p.rules[c.rules]? with
      | none => .panic
      | some k =>
        let e' := set.execute (c.engine l {})
        .ok ({ p with
          engines := p.engines.set e { c with enabled := e'.enabled, detectionOnly := e'.detectionOnly }
          limits := p.limits.set c.limits e'.limits
          rules := p.rules.set c.rules (set.foldl Rack.execute k) }, .done)
    | _, _ => .panic
  | .enable e st => match p.engines[e]? with
    | none => .panic
    | some c =>
      let e' := (c.engine newDefaultLimits {}).enable st
      .ok ({ p with engines := p.engines.set e { c with enabled := e'.enabled, detectionOnly := e'.detectionOnly } }, .done)
  | .setLimits e l => match p.engines[e]? with
    | none => .panic
    | some c => .ok ({ p with limits := p.limits.set c.limits l }, .done)
  | .newLimits => .ok ({ p with limits := p.limits ++ [newDefaultLimits] }, .made p.limits.length)
  | .useLimits e i => match p.engines[e]?, p.limits[i]? with
    | some c, some _ => .ok ({ p with engines := p.engines.set e { c with limits := i } }, .done)
    | _, _ => .panic
  | .inspect e => match engineAt p.engines p.limits e with
    | none => .panic
    | some (c, l) => .ok (p, .engine c.enabled c.detectionOnly l)
  | .newRules => .ok ({ p with rules := p.rules ++ [{}] }, .made p.rules.length)
  | .addRules a hs => match p.rules[a]? with
    | none => .panic
    | some k =>
      if hs.any fun i => (p.shop.objs[i]?).isNone then .panic
      else .ok ({ p with rules := p.rules.set a ((hs.filterMap fun i => (p.shop.objs[i]?).map fun o => (o.phase, Stored.obj i)).foldl Rack.add k) }, .done)
  | .addDefaults a ds => match p.rules[a]? with
    | none => .panic
    | some k => .ok ({ p with rules := p.rules.set a { k with defaults := k.defaults ++ ds.map HostAct.make } }, .done)
  | .clearRules a => match p.rules[a]? with
    | none => .panic
    | some k => .ok ({ p with rules := p.rules.set a { k with entries := [] } }, .done)
  | .clearDefaults a => match p.rules[a]? with
    | none => .panic
    | some k => .ok ({ p with rules := p.rules.set a { k with defaults := [] } }, .done)
  | .shop x => (p.shop.act lib x).bind fun (s, o) => .ok ({ p with shop := s }, .shop o)
  | .useRules e a => match p.engines[e]?, p.rules[a]? with
    | some c, some _ => .ok ({ p with engines := p.engines.set e { c with rules := a } }, .done)
    | _, _ => .panic
  | .newTransaction e b => match engineAt p.engines p.limits e with
    | none => .panic
    | some (c, l) => .ok (p.newTransaction e c.rules l b)
  | .newTransactionWith none _ _ => .ok (p, .noTransaction)
  | .newTransactionWith (some e) a b => match engineAt p.engines p.limits e with
    | none => .panic
    | some (_, l) => match a with
      | none => .ok (p, .noTransaction)
      | some a => match p.rules[a]? with
        | none => .panic
        | some _ => .ok (p.newTransaction e a l b)
  | .call i ord op => match p.txs[i]? with
    | none => .panic
    | some (e, a, t) => match engineAt p.engines p.limits e, p.rules[a]? with
      | some (_, l), some k => (t.step { lib, ord, limits := l } (k.ruleSet p.shop) n op).bind fun (t, o, _) =>
          .ok ({ p with txs := p.txs.set i (e, a, t) }, .returned o)
      | _, _ => .panic
  | .body i resp op => match p.txs[i]? with
    | none => .panic
    | some (e, a, t) =>
      if resp then (t.respBody.call op).bind fun (b, o) => .ok ({ p with txs := p.txs.set i (e, a, { t with respBody := b }) }, .body o)
      else (t.reqBody.call op).bind fun (b, o) => .ok ({ p with txs := p.txs.set i (e, a, { t with reqBody := b }) }, .body o)
  | .edit i ed => match p.txs[i]? with
    | none => .panic
    | some (e, a, t) => match ed with
      | .engine e => match p.engines[e]? with
        | none => .panic
        | some _ => .ok ({ p with txs := p.txs.set i (e, a, t) }, .done)
      | .rules a => match p.rules[a]? with
        | none => .panic
        | some _ => .ok ({ p with txs := p.txs.set i (e, a, t) }, .done)
      | ed => .ok ({ p with txs := p.txs.set i (e, a, t.edit ed) }, .done)
  | .look i => match p.txs[i]? with
    | none => .panic
    | some (e, a, t) => .ok (p, .look (t.look e a))

/-- A run. -/
def Plant.acts (lib : Lib) (n : Nat) : Plant → List Act → Res (Plant × List ActOut)
  | p, [] => .ok (p, [])
  | p, a :: as =>
    (p.act lib n a).bind fun (p, o) =>
      (Plant.acts lib n p as).bind fun (p, os) => .ok (p, o :: os)

end Verif
