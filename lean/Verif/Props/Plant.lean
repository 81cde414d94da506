import Verif.Model.Plant
import Verif.Props.Site
import Verif.Props.Stock
import Verif.Props.Engine
/-!
C95: everything a host can do with texts and with rules built in Go from the stock parts.
Any number of engines, directive sets, rules, rule sets and transactions, configured and
changed while in use, against a reference in which a directive set is what is written in it,
a rule set a list of chains, and a transaction a machine of C94.
-/
namespace Verif
open Sample Spec

/-! ### The reference -/

namespace Spec

/-- A directive set: the chains written in it, with the orders in which variables are
asked for, and all directives. -/
structure Written where
  chains : List (List Link) := []
  dirs : List PDir := []

/-- A rule set: its chains and the default actions. -/
structure Kit where
  chains : List Chain := []
  defaults : List HostAct := []

/-- What a rule set refers to: the parts of a chain that was written, or the note of a
rule. -/
inductive Entry where
  | written (ps : List Part)
  | note (i : Nat)

/-- A rule set: what it refers to, each with the phase it had when added, and the default
actions. -/
structure Stand where
  entries : List (Int × Entry) := []
  defaults : List HostAct := []

/-- The parts now. -/
def Stock.entry (s : Stock) : Entry → Option (List Part)
  | .written ps => some ps
  | .note i => (s.notes[i]?).map s.parts

/-- The rule set as it is now. -/
def Stand.kit (d : Stand) (s : Stock) : Kit where
  chains := d.entries.filterMap fun e => (s.entry e.2).map fun ps => { phase := e.1, parts := ps }
  defaults := d.defaults

/-- More rules: those whose phase is not one of 1 to 6 are dropped. -/
def Stand.plus (d : Stand) (es : List (Int × Entry)) : Stand := { d with entries := d.entries ++ es.filter fun e => 1 ≤ e.1 ∧ e.1 ≤ 6 }

/-- Everything the host has made. -/
structure Park where
  engines : List Cell := []
  limits : List Limits := []
  rules : List Stand := []
  stock : Stock := {}
  sets : List Written := []
  txs : List (Nat × Nat × Mach Held) := []

open Classical in
/-- Reading a text: the directives in front of the first that is not valid, and whether
there is none such; nothing of a text that is no rule file. -/
noncomputable def reads (lib : Lib) (text : Bytes) : Ending (List PDir × Bool) :=
  if Hangs text then .hangs
  else if h : ∃ dirs, Program text dirs then .returns (h.choose.takeWhile fun d => decide (DirOk lib d), decide (∀ d ∈ h.choose, DirOk lib d))
  else .returns ([], false)

/-- The mode a directive sets: (enabled, detection only). -/
def modeOf : PDir → Option (Bool × Bool)
  | .ruleEng 1 => some (true, false)
  | .ruleEng 0 => some (false, false)
  | .ruleEng 2 => some (false, true)
  | _ => none

/-- What the last directive of some kind says, or what was said before. -/
def lastly {α : Type} (f : PDir → Option α) (dirs : List PDir) (d : α) : α := ((dirs.filterMap f).getLast?).getD d

/-- The engine after executing directives on it. -/
def configured (dirs : List PDir) (c : Cell) : Cell :=
  { c with
    enabled := (lastly modeOf dirs (c.enabled, c.detectionOnly)).1
    detectionOnly := (lastly modeOf dirs (c.enabled, c.detectionOnly)).2 }

/-- Its limits. -/
def limited (dirs : List PDir) (l : Limits) : Limits :=
  { l with
    requestBodyAccess := lastly (fun | .reqBody b => some b | _ => none) dirs l.requestBodyAccess
    responseBodyAccess := lastly (fun | .resBody b => some b | _ => none) dirs l.responseBodyAccess }

/-- The mode set by the host. -/
def modeSet (c : Cell) : Int → Cell
  | 0 => { c with enabled := true, detectionOnly := false }
  | 1 => { c with enabled := false, detectionOnly := false }
  | 2 => { c with enabled := false, detectionOnly := true }
  | _ => c

/-- The chains of a phase. -/
def ofPhase (ls : List Chain) (q : Int) : List Chain := ls.filter fun c => c.phase = q

/-- A rule set with more chains: those whose phase is not one of 1 to 6 are dropped. -/
def Kit.plus (k : Kit) (cs : List Chain) : Kit := { k with chains := k.chains ++ cs.filter fun c => 1 ≤ c.phase ∧ c.phase ≤ 6 }

/-- A chunk of the request body within the limit, when the limit of what is held in
memory is negative. -/
def Fatal (k : Held) : Op → Prop
  | .appendRequestBody p _ => k.mem < 0 ∧ (p.length : Int) ≤ k.most
  | _ => False

/-- What a call on a body tells: for the text of a body, the text or the error. -/
inductive Answer where
  | wrote (n : Nat) (e : Option BufErr)
  | text (s : Bytes)
  | noText (e : BufErr)
  | read (s : Bytes) (e : Option BufErr)
  | sought (p : Nat) (e : Option BufErr)
  | closed (e : Option BufErr)

/-- The place in a body of length `len` that is meant by an offset and a base, which is the
end or else the start. -/
def placeOf (len : Nat) (offset whence : Int) : Option Nat :=
  if whence = 2 ∧ 0 ≤ len + offset then some (len + offset).toNat
  else if (whence = 0 ∨ whence = 1) ∧ 0 ≤ offset then some offset.toNat
  else none

/-- A call on a body other than a write.  A read always starts at the beginning. -/
def Store.use (s : Store) : BufOp → Ending (Store × Answer)
  | .read n => match s with
    | .memory b => .returns (s, .read (b.take n) (if b = [] then some .eof else none))
    | .disk c _ => .returns (.disk c (min n c.length), .read (c.take n) (if c = [] ∧ n ≠ 0 then some .eof else none))
    | .shut => .returns (s, .read [] (some .io))
  | .writeTo => match s with
    | .memory b => .returns (s, .read b none)
    | .disk c _ => .returns (.disk c c.length, .read c none)
    | .shut => .returns (s, .read [] (some .io))
  | .seek o w => match s with
    | .memory b => .returns (s, match placeOf b.length o w with
      | some p => .sought p none
      | none => .sought 0 (some .seek))
    | .disk c _ => .returns (match placeOf c.length o w with
      | some p => (.disk c p, .sought p none)
      | none => (.disk c 0, .sought 0 (some .seek)))
    | .shut => .returns (s, .sought 0 (some .io))
  | .close => match s with
    | .memory _ => .panics
    | .disk _ _ => .returns (.shut, .closed none)
    | .shut => .returns (.shut, .closed (some .io))
  | _ => match s with
    | .memory b => .returns (s, .text b)
    | .disk c _ => .returns (.disk c 0, .noText .outOfMemLimit)
    | .shut => .returns (.shut, .noText .outOfMemLimit)

open Classical in
/-- A call on the request body. -/
noncomputable def useReq (k : Held) : BufOp → Ending (Held × Answer)
  | .write p io => if Fatal k (.appendRequestBody p io) then .panics else .returns (accept k p io, .wrote (answered k p io).1 (answered k p io).2)
  | op => (k.store.use op).bind fun x => .returns ({ k with store := x.1 }, x.2)

/-- A call on the response body, which is always in memory. -/
def useResp (k : Held) : BufOp → Ending (Held × Answer)
  | .write p _ => .returns (
      if (k.resp.length : Int) + p.length ≤ k.respMost then ({ k with resp := k.resp ++ p }, .wrote p.length none)
      else (k, .wrote 0 (some .outOfFileLimit)))
  | op => ((Store.memory k.resp).use op).bind fun x => .returns (k, x.2)

/-- The state of a transaction after an assignment to its fields. -/
def edited (m : Mach Held) : Edit → Mach Held
  | .net a b c d => { m with known.facts := { m.known.facts with srcIp := a, srcPort := b, dstIp := c, dstPort := d } }
  | .request u mt p h => { m with known.facts := { m.known.facts with url := u, method := mt, proto := p, headers := h } }
  | .response c p h => { m with known.facts := { m.known.facts with status := c, respProto := p, respHeaders := h } }
  | .abort b => { m with aborted := b }
  | .status c => { m with chosen := c }
  | .forget => { m with known := { m.known with form := .unread, parts := .unread } }
  | _ => m

/-- What can be seen of a transaction. -/
def looks (e a : Nat) (m : Mach Held) : Look where
  engine := e
  rules := a
  abort := m.aborted
  srcIp := m.known.facts.srcIp
  srcPort := m.known.facts.srcPort
  dstIp := m.known.facts.dstIp
  dstPort := m.known.facts.dstPort
  url := m.known.facts.url
  method := m.known.facts.method
  reqProto := m.known.facts.proto
  reqHeader := m.known.facts.headers
  reqLen := m.known.size
  respCode := m.known.facts.status
  respProto := m.known.facts.respProto
  respHeader := m.known.facts.respHeaders
  respLen := m.known.resp.length
  status := m.chosen.map DataVal.int
  phase := m.phase

/-- The phase nearest to a number. -/
def nearest (i : Int) : Int := if i < 0 then 0 else if 7 < i then 7 else i

/-- What a call returns; `is` is the verdict shown, if any.  What `Next` returns is left
open. -/
def replied (ls : List Chain) (m : Mach Held) (op : Op) (is : List Intervention) : Option Out :=
  match op with
  | .next => none
  | .appendRequestBody p io => some (.error (answered m.known p io).2)
  | .appendResponseBody p _ => some (.error (if (m.known.resp.length : Int) + p.length ≤ m.known.respMost then none else some .outOfFileLimit))
  | .jumpToPhase i => some (.num (nearest i))
  | .nextPhase => some (.num (nearest (m.phase + 1)))
  | .jumpTo i => some (.num (if ((ofPhase ls m.phase).length : Int) ≤ i then -2 else i))
  | _ => some (match is with
    | i :: _ => .intervention i
    | [] => .unit)

/-- What the host sees of a step. -/
inductive Notice where
  | done
  | made (i : Nat)
  | loaded (ok : Bool)
  | shop (o : ShopOut)
  | noTransaction
  | engine (enabled detectionOnly : Bool) (l : Limits)
  | returned (o : Option Out)
  | body (a : Answer)
  | look (l : Look)

/-- A new transaction. -/
def Park.create (p : Park) (e a : Nat) (l : Limits) (dirFails : Bool) : Park × Notice :=
  if dirFails then (p, .noTransaction)
  else ({ p with txs := p.txs ++ [(e, a, { known := {
    mem := l.requestBodyInMem, most := l.requestBody, respMost := l.responseBody } })] }, .made p.txs.length)

/-- Engine `e`, with the limits it points to. -/
def Park.engineNo (p : Park) (e : Nat) : Option (Cell × Limits) := do
  let c ← p.engines[e]?
  let l ← p.limits[c.limits]?
  return (c, l)

open Classical in
/-- One step; `links` are the chains in the text that is added, if one is. -/
noncomputable def Park.act (lib : Lib) (p : Park) (links : List (List Link)) : Act → Ending (Park × Notice)
  | .newEngine => .returns ({ p with
      engines := p.engines ++ [{ limits := p.limits.length, rules := p.rules.length }]
      limits := p.limits ++ [newDefaultLimits]
      rules := p.rules ++ [{}] }, .made p.engines.length)
  | .newSet => .returns ({ p with sets := p.sets ++ [{}] }, .made p.sets.length)
  | .add i _ text => match p.sets[i]? with
    | none => .panics
    | some w => (reads lib text).bind fun x =>
        .returns ({ p with sets := p.sets.set i ⟨w.chains ++ links, w.dirs ++ x.1⟩ }, .loaded x.2)
  | .execute i e => match p.sets[i]?, p.engineNo e with
    | some w, some (c, l) => match p.rules[c.rules]? with
      | none => .panics
      | some k => .returns ({ p with
          engines := p.engines.set e (configured w.dirs c)
          limits := p.limits.set c.limits (limited w.dirs l)
          rules := p.rules.set c.rules (k.plus (w.chains.map fun c => ((chainIn c).phase, .written (chainIn c).parts))) }, .done)
    | _, _ => .panics
  | .enable e st => match p.engines[e]? with
    | none => .panics
    | some c => .returns ({ p with engines := p.engines.set e (modeSet c st) }, .done)
  | .setLimits e l => match p.engines[e]? with
    | none => .panics
    | some c => .returns ({ p with limits := p.limits.set c.limits l }, .done)
  | .newLimits => .returns ({ p with limits := p.limits ++ [newDefaultLimits] }, .made p.limits.length)
  | .useLimits e i => match p.engines[e]?, p.limits[i]? with
    | some c, some _ => .returns ({ p with engines := p.engines.set e { c with limits := i } }, .done)
    | _, _ => .panics
  | .inspect e => match p.engineNo e with
    | none => .panics
    | some (c, l) => .returns (p, .engine c.enabled c.detectionOnly l)
  | .newRules => .returns ({ p with rules := p.rules ++ [{}] }, .made p.rules.length)
  | .addRules a hs => match p.rules[a]? with
    | none => .panics
    | some k => if ∀ i ∈ hs, i < p.stock.notes.length then
        .returns ({ p with rules := p.rules.set a (k.plus (hs.filterMap fun i => (p.stock.notes[i]?).map fun n => (n.phase, .note i))) }, .done)
      else .panics
  | .addDefaults a ds => match p.rules[a]? with
    | none => .panics
    | some k => .returns ({ p with rules := p.rules.set a { k with defaults := k.defaults ++ ds } }, .done)
  | .clearRules a => match p.rules[a]? with
    | none => .panics
    | some k => .returns ({ p with rules := p.rules.set a { defaults := k.defaults } }, .done)
  | .clearDefaults a => match p.rules[a]? with
    | none => .panics
    | some k => .returns ({ p with rules := p.rules.set a { entries := k.entries } }, .done)
  | .shop x => (p.stock.act lib x).bind fun (s, o) => .returns ({ p with stock := s }, .shop o)
  | .useRules e a => match p.engines[e]?, p.rules[a]? with
    | some c, some _ => .returns ({ p with engines := p.engines.set e { c with rules := a } }, .done)
    | _, _ => .panics
  | .newTransaction e b => match p.engineNo e with
    | none => .panics
    | some (c, l) => .returns (p.create e c.rules l b)
  | .newTransactionWith none _ _ => .returns (p, .noTransaction)
  | .newTransactionWith (some e) a b => match p.engineNo e with
    | none => .panics
    | some (_, l) => match a with
      | none => .returns (p, .noTransaction)
      | some a => match p.rules[a]? with
        | none => .panics
        | some _ => .returns (p.create e a l b)
  | .call i _ op => match p.txs[i]? with
    | none => .panics
    | some (e, a, m) => match p.engineNo e, p.rules[a]? with
      | some (_, l), some d =>
        let k := d.kit p.stock
        if Fatal m.known op then .panics
        else (callBy heldSight (evalChain lib { req := l.requestBodyAccess, resp := l.responseBodyAccess, inMem := l.requestBodyInMem } k.defaults)
          (ofPhase k.chains) m op).bind fun x => .returns ({ p with txs := p.txs.set i (e, a, x.1) }, .returned (replied k.chains m op x.2))
      | _, _ => .panics
  | .body i resp op => match p.txs[i]? with
    | none => .panics
    | some (e, a, m) => (if resp then useResp m.known op else useReq m.known op).bind fun x =>
        .returns ({ p with txs := p.txs.set i (e, a, { m with known := x.1 }) }, .body x.2)
  | .edit i ed => match p.txs[i]? with
    | none => .panics
    | some (e, a, m) => match ed with
      | .engine e => match p.engines[e]? with
        | none => .panics
        | some _ => .returns ({ p with txs := p.txs.set i (e, a, m) }, .done)
      | .rules a => match p.rules[a]? with
        | none => .panics
        | some _ => .returns ({ p with txs := p.txs.set i (e, a, m) }, .done)
      | ed => .returns ({ p with txs := p.txs.set i (e, a, edited m ed) }, .done)
  | .look i => match p.txs[i]? with
    | none => .panics
    | some (e, a, m) => .returns (p, .look (looks e a m))

/-- `links` are the chains in the text that is added, each rule with some order for its
variables. -/
def Suits (lib : Lib) (links : List (List Link)) : Act → Prop
  | .add _ _ text => ∀ dirs ok, reads lib text = .returns (dirs, ok) →
      links.map (fun c => c.map Link.rule) = chainsOf (rulesIn dirs) ∧ ∀ c ∈ links, ∀ l ∈ c, l.Fits
  | _ => True

/-- A run. -/
noncomputable def Park.acts (lib : Lib) : Park → List (Act × List (List Link)) → Ending (Park × List Notice)
  | p, [] => .returns (p, [])
  | p, x :: xs => (p.act lib x.2 x.1).bind fun y => (Park.acts lib y.1 xs).bind fun z => .returns (z.1, y.2 :: z.2)

/-- What a call on a body tells; a text returned along with an error does not count. -/
def answer : BodyOut → Answer
  | .wrote n e => .wrote n e
  | .text s none => .text s
  | .text _ (some e) => .noText e
  | .read s e => .read s e
  | .sought p e => .sought p e
  | .closed e => .closed e

/-- What is seen of what an act returns: everything but the number returned by `Next`. -/
def notice (a : Act) : ActOut → Notice
  | .done => .done
  | .made i => .made i
  | .loaded b => .loaded b
  | .shop o => .shop o
  | .noTransaction => .noTransaction
  | .engine b b' l => .engine b b' l
  | .returned o => .returned (match a with
    | .call _ _ .next => none
    | _ => some o)
  | .body o => .body (answer o)
  | .look l => .look l

/-- A computation with fuel comes out as `x` says: with any fuel it does, or the fuel does
not suffice; and if it is to return or panic, enough fuel exists. -/
def Lands {α β : Type} (f : Nat → Res β) (R : α → β → Prop) : Ending α → Prop
  | .returns a => ∃ b, R a b ∧ (∀ n, f n = .fuel ∨ f n = .ok b) ∧ ∃ N, ∀ n ≥ N, f n = .ok b
  | .panics => (∀ n, f n = .fuel ∨ f n = .panic) ∧ ∃ N, ∀ n ≥ N, f n = .panic
  | .hangs => ∀ n, f n = .fuel

end Spec

theorem Spec.Lands.ok {α β : Type} {R : α → β → Prop} {a : α} {b : β} (h : R a b) : Lands (fun _ => .ok b) R (.returns a) :=
  ⟨b, h, fun _ => .inr rfl, 0, fun _ _ => rfl⟩

theorem Spec.Lands.panic {α β : Type} {R : α → β → Prop} : Lands (fun _ => (.panic : Res β)) R (.panics : Ending α) :=
  ⟨fun _ => .inr rfl, 0, fun _ _ => rfl⟩

theorem Spec.Lands.bind {α β γ δ : Type} {f : Nat → Res β} {R : α → β → Prop} {x : Ending α} {g : β → Nat → Res δ} {S : γ → δ → Prop} {h : α → Ending γ}
    (hf : Lands f R x) (hg : ∀ a b, R a b → Lands (g b) S (h a)) : Lands (fun n => (f n).bind fun b => g b n) S (x.bind h) := by
  cases x with
  | hangs => exact fun n => by simp only [hf n]; rfl
  | panics =>
    obtain ⟨h1, N, h2⟩ := hf
    exact ⟨fun n => (h1 n).imp (fun e => by simp only [e]; rfl) (fun e => by simp only [e]; rfl), N, fun n hn => by simp only [h2 n hn]; rfl⟩
  | returns a =>
    obtain ⟨b, hr, h1, N, h2⟩ := hf
    have hg := hg a b hr
    have key : ∀ n, (f n = .ok b → ((f n).bind fun b => g b n) = g b n) := fun n e => by rw [e]; rfl
    have key' : ∀ n, (f n = .fuel → ((f n).bind fun b => g b n) = .fuel) := fun n e => by rw [e]; rfl
    show Lands _ S (h a)
    cases hx : h a with
    | hangs =>
      rw [hx] at hg
      intro n
      rcases h1 n with e | e
      · exact key' n e
      · exact (key n e).trans (hg n)
    | panics =>
      rw [hx] at hg
      obtain ⟨g1, M, g2⟩ := hg
      refine ⟨fun n => ?_, max N M, fun n hn => (key n (h2 n (by omega))).trans (g2 n (by omega))⟩
      rcases h1 n with e | e
      · exact .inl (key' n e)
      · exact (g1 n).imp (fun e' => (key n e).trans e') (fun e' => (key n e).trans e')
    | returns c =>
      rw [hx] at hg
      obtain ⟨d, hs, g1, M, g2⟩ := hg
      refine ⟨d, hs, fun n => ?_, max N M, fun n hn => (key n (h2 n (by omega))).trans (g2 n (by omega))⟩
      rcases h1 n with e | e
      · exact .inl (key' n e)
      · exact (g1 n).imp (fun e' => (key n e).trans e') (fun e' => (key n e).trans e')

theorem Spec.Lands.also {α β : Type} {f : Nat → Res β} {R R' : α → β → Prop} {x : Ending α} (h : Lands f R x)
    (hi : ∀ a b, R a b → (∃ n, f n = .ok b) → R' a b) : Lands f R' x := by
  cases x with
  | hangs => exact h
  | panics => exact h
  | returns a =>
    obtain ⟨b, h1, h2, N, h3⟩ := h
    exact ⟨b, hi a b h1 ⟨N, h3 N (Nat.le_refl _)⟩, h2, N, h3⟩

theorem Spec.Lands.imp {α β : Type} {f : Nat → Res β} {R R' : α → β → Prop} {x : Ending α} (h : Lands f R x) (hi : ∀ a b, R a b → R' a b) : Lands f R' x := by
  cases x with
  | hangs => exact h
  | panics => exact h
  | returns a =>
    obtain ⟨b, h1, h2⟩ := h
    exact ⟨b, hi a b h1, h2⟩

/-! ### Texts -/

theorem takeWhile_dirsBad {lib : Lib} {good : List PDir} {bad : PDir} {rest : List PDir} (h1 : ∀ d ∈ good, DirOk lib d) (h2 : ¬ DirOk lib bad)
    [DecidablePred (DirOk lib)] : (good ++ bad :: rest).takeWhile (fun d => decide (DirOk lib d)) = good := by
  induction good with
  | nil => simp [h2]
  | cons d good ih =>
    have : DirOk lib d := h1 d List.mem_cons_self
    simp only [List.cons_append, List.takeWhile_cons, this, decide_true, if_true]
    rw [ih fun d hd => h1 d (List.mem_cons_of_mem _ hd)]

theorem takeWhile_dirsOk {lib : Lib} {good : List PDir} (h1 : ∀ d ∈ good, DirOk lib d) [DecidablePred (DirOk lib)] :
    good.takeWhile (fun d => decide (DirOk lib d)) = good := by
  induction good with
  | nil => rfl
  | cons d good ih =>
    have : DirOk lib d := h1 d List.mem_cons_self
    simp only [List.takeWhile_cons, this, decide_true, if_true]
    rw [ih fun d hd => h1 d (List.mem_cons_of_mem _ hd)]

/-- The loaded directives are the written ones. -/
structure SetMeans (lib : Lib) (w : Written) (set : DireSet) : Prop where
  chains : Pairs (LinksMean lib) w.chains (rulesOf set)
  five : ∀ c ∈ w.chains, chainPhase (c.map Link.rule) ≤ 5
  modes : modes set = w.dirs.filterMap modeOf
  req : reqBodies set = w.dirs.filterMap fun | .reqBody b => some b | _ => none
  resp : resBodies set = w.dirs.filterMap fun | .resBody b => some b | _ => none

theorem SetMeans.append {lib : Lib} {w w' : Written} {set set' : DireSet} (h : SetMeans lib w set) (h' : SetMeans lib w' set') :
    SetMeans lib ⟨w.chains ++ w'.chains, w.dirs ++ w'.dirs⟩ (set ++ set') where
  chains := by
    rw [show rulesOf (set ++ set') = rulesOf set ++ rulesOf set' by simp only [rulesOf, List.filterMap_append]]
    exact h.chains.append h'.chains
  five := fun c hc => (List.mem_append.1 hc).elim (h.five c) (h'.five c)
  modes := by
    rw [show Spec.modes (set ++ set') = Spec.modes set ++ Spec.modes set' by simp only [Spec.modes, List.filterMap_append], h.modes, h'.modes, List.filterMap_append]
  req := by
    rw [show reqBodies (set ++ set') = reqBodies set ++ reqBodies set' by simp only [reqBodies, List.filterMap_append], h.req, h'.req, List.filterMap_append]
  resp := by
    rw [show resBodies (set ++ set') = resBodies set ++ resBodies set' by simp only [resBodies, List.filterMap_append], h.resp, h'.resp, List.filterMap_append]

theorem pairs_modes {lib : Lib} {dirs : List PDir} {ds : List Dire} (h : Pairs (DirMeans lib) dirs ds) : modes ds = dirs.filterMap modeOf := by
  simp only [modes]
  induction h with
  | nil => rfl
  | cons hd _ ih =>
    cases hd with
    | ruleEng =>
      rename_i v
      rw [List.filterMap_cons, List.filterMap_cons, ih]
      rcases (show v = 0 ∨ v = 1 ∨ v = 2 ∨ (v ≠ 0 ∧ v ≠ 1 ∧ v ≠ 2) by omega) with rfl | rfl | rfl | ⟨h0, h1, h2⟩
      · rfl
      · rfl
      · rfl
      · have e : modeOf (.ruleEng v) = none := by
          simp only [modeOf]
          split <;> first | rfl | (rename_i e; cases e; first | exact absurd rfl h0 | exact absurd rfl h1 | exact absurd rfl h2)
        rw [e]
        split
        · rfl
        · rename_i e; split at e <;> first | cases e | skip
          all_goals (rename_i e'; cases e'; first | exact absurd rfl h0 | exact absurd rfl h1 | exact absurd rfl h2)
    | rule _ => rw [List.filterMap_cons, List.filterMap_cons, ih]; rfl
    | reqBody => rw [List.filterMap_cons, List.filterMap_cons, ih]; rfl
    | resBody => rw [List.filterMap_cons, List.filterMap_cons, ih]; rfl

/-- What directives loaded one by one are. -/
theorem group_written {lib : Lib} {text : Bytes} {all dirs rest : List PDir} {ds : List Dire} (ht : Program text all) (he : all = dirs ++ rest)
    (h : Pairs (DirMeans lib) dirs ds) : ∃ links : List (List Link), (links.map (fun c => c.map Link.rule) = chainsOf (rulesIn dirs) ∧ ∀ c ∈ links, ∀ l ∈ c, l.Fits) ∧
      SetMeans lib ⟨links, dirs⟩ (group ds) := by
  obtain ⟨links, h1, h2, h3⟩ := chains_of (group_means _ (Nat.le_refl _) h)
  obtain ⟨k1, k2⟩ := pairs_switches h
  refine ⟨links, ⟨h1, h2⟩, h3, fun c hc => ?_, ?_, ?_, ?_⟩
  · have hm : c.map Link.rule ∈ chainsOf (rulesIn dirs) := by rw [← h1]; exact List.mem_map_of_mem hc
    cases hcm : c.map Link.rule with
    | nil => simp [chainPhase]
    | cons p ps =>
      rw [hcm] at hm
      have hp := mem_rulesIn.1 (mem_chainsOf hm List.mem_cons_self)
      have := C55_legal_phase ((C53_exact id _ _).2 ht) (r := p) (by rw [he]; exact List.mem_append_left _ hp)
      simp only [chainPhase, List.head?_cons, Option.map_some, Option.getD_some]
      omega
  · rw [← pairs_modes h]
    exact group_others (fun _ _ => rfl) _ ds (Nat.le_refl _)
  · refine Eq.trans ?_ k1
    exact group_others (fun _ _ => rfl) _ ds (Nat.le_refl _)
  · refine Eq.trans ?_ k2
    exact group_others (fun _ _ => rfl) _ ds (Nat.le_refl _)

/-- Adding a text. -/
theorem add_written (lib : Lib) (vo : VarOrd) (set : DireSet) (text : Bytes) :
    (reads lib text = .hangs ∧ set.addSecLangString lib vo text = .fuel) ∨
    ∃ dirs ok links set' e, reads lib text = .returns (dirs, ok) ∧ set.addSecLangString lib vo text = .ok (set ++ set', e) ∧ e.isNone = ok ∧
      (links.map (fun c => c.map Link.rule) = chainsOf (rulesIn dirs) ∧ ∀ c ∈ links, ∀ l ∈ c, l.Fits) ∧ SetMeans lib ⟨links, dirs⟩ set' := by
  classical
  by_cases hh : Hangs text
  · refine .inl ⟨if_pos hh, ?_⟩
    simp only [DireSet.addSecLangString, (C51_hangs_iff lib.lowerHi _).2 hh]; rfl
  · refine .inr ?_
    by_cases hp : ∃ dirs, Program text dirs
    · have er : reads lib text = .returns (hp.choose.takeWhile fun d => decide (DirOk lib d), decide (∀ d ∈ hp.choose, DirOk lib d)) := by
        rw [reads, if_neg hh, dif_pos hp]
      have ht := hp.choose_spec
      generalize hp.choose = dirs at er ht
      by_cases hok : ∀ d ∈ dirs, DirOk lib d
      · obtain ⟨ds, hds, hload⟩ := C57_chains (vo := vo) ht hok set
        obtain ⟨links, h1, h2⟩ := group_written ht (List.append_nil _).symm hds
        exact ⟨dirs, true, links, group ds, none, by rw [er, takeWhile_dirsOk hok, decide_eq_true hok], hload, rfl, h1, h2⟩
      · obtain ⟨good, bad, rest, ds, e, h0, h1, h2, h3, hload⟩ := C59_semantic_error (vo := vo) ht hok set
        obtain ⟨links, h4, h5⟩ := group_written ht h0 h3
        exact ⟨good, false, links, group ds, some e, by rw [er, decide_eq_false hok, h0, takeWhile_dirsBad h1 h2], hload, rfl, h4, h5⟩
    · have er : reads lib text = .returns ([], false) := by rw [reads, if_neg hh, dif_neg hp]
      cases hl : parse lib.lowerHi text with
      | ok r =>
        cases r with
        | ok dirs => exact absurd ⟨dirs, (C53_exact lib.lowerHi _ _).1 hl⟩ hp
        | error e =>
          refine ⟨[], false, [], [], some (.parse e), er, ?_, rfl, ⟨rfl, by simp⟩, .nil, by simp, rfl, rfl, rfl⟩
          simp only [DireSet.addSecLangString, hl, Res.bind_ok', List.append_nil]
      | panic => exact absurd hl (C52_no_panic _ _)
      | fuel => exact absurd ((C51_hangs_iff _ _).1 hl) hh

/-- There always are such orders. -/
theorem suits_some (lib : Lib) (a : Act) : ∃ links, Suits lib links a := by
  cases a
  case add i vo text =>
    rcases add_written lib vo [] text with ⟨h, _⟩ | ⟨dirs, ok, links, _, _, h, _, _, h1, _⟩
    · exact ⟨[], fun dirs ok e => by rw [h] at e; cases e⟩
    · exact ⟨links, fun dirs ok e => by rw [h] at e; cases e; exact h1⟩
  all_goals exact ⟨[], trivial⟩

/-! ### The simulation -/

/-- The transaction is in the state of the machine. -/
def LikeHeld (m : Mach Held) (t : Tx) : Prop :=
  ∀ (env : Env) (h : List Op), Agree (heldView env fun a c => a = m.known.mem ∧ c = m.known.most) h m t

/-- The rule set has the chains. -/
structure RulesMean (lib : Lib) (k : Kit) (rs : RuleSet) : Prop where
  carried : ∀ q, Pairs (PartsAre lib) (ofPhase k.chains q) (rs.phases q)
  defaults : rs.defaultActions = k.defaults.map HostAct.make
  fit : ∀ c ∈ k.chains, 1 ≤ c.phase ∧ c.phase ≤ 6

/-- The rule set refers to the same. -/
inductive EntryMeans (lib : Lib) : Int × Entry → Int × Stored → Prop where
  | written {q : Int} {ps : List Part} {r : Rule} (h : PartsAre lib ⟨q, ps⟩ r) : EntryMeans lib (q, .written ps) (q, .loaded r)
  | note (q : Int) (i : Nat) : EntryMeans lib (q, .note i) (q, .obj i)

/-- The rule set is the one described. -/
structure StandMeans (lib : Lib) (d : Stand) (k : Rack) : Prop where
  entries : Pairs (EntryMeans lib) d.entries k.entries
  defaults : k.defaults = d.defaults.map HostAct.make
  fit : ∀ e ∈ d.entries, 1 ≤ e.1 ∧ e.1 ≤ 6

/-- The plant is in the state of the park. -/
structure Keeps (lib : Lib) (p : Park) (w : Plant) : Prop where
  engines : w.engines = p.engines
  limits : w.limits = p.limits
  rules : Pairs (StandMeans lib) p.rules w.rules
  stock : StockMeans lib p.stock w.shop
  sets : Pairs (SetMeans lib) p.sets w.sets
  txs : Pairs (fun x y => x.1 = y.1 ∧ x.2.1 = y.2.1 ∧ LikeHeld x.2.2 y.2.2) p.txs w.txs

theorem RulesMean.empty (lib : Lib) : RulesMean lib {} {} := ⟨fun _ => .nil, rfl, by simp⟩

theorem RulesMean.by {lib : Lib} {k : Kit} {rs : RuleSet} (h : RulesMean lib k rs) : CarriedBy (PartsAre lib) (ofPhase k.chains) rs where
  rules := fun q _ => h.carried q
  six := fun q hq => by
    have := h.carried q
    have e : ofPhase k.chains q = [] := by
      rw [ofPhase, List.filter_eq_nil_iff]
      intro c hc
      have := h.fit c hc
      simp; omega
    rw [e] at this
    cases hr : rs.phases q with
    | nil => rfl
    | cons r l => rw [hr] at this; cases this

theorem parts_are {lib : Lib} {cs : List Chain} {rs : List Rule} (h : Pairs (ChainIs lib) cs rs) : Pairs (PartsAre lib) cs rs := by
  induction h with
  | nil => exact .nil
  | cons h _ ih => exact .cons h.parts ih

/-- More rules. -/
theorem RulesMean.plus {lib : Lib} {k : Kit} {rs rs' : RuleSet} (h : RulesMean lib k rs) {cs : List Chain} {rules : List Rule} (hc : Pairs (ChainIs lib) cs rules)
    (hd : rs'.defaultActions = rs.defaultActions)
    (hp : ∀ q, rs'.phases q = rs.phases q ++ if 1 ≤ q ∧ q ≤ 6 then rules.filter (fun r => r.phase = q) else []) : RulesMean lib (k.plus cs) rs' where
  carried := fun q => by
    rw [hp, Kit.plus, ofPhase, List.filter_append]
    refine (h.carried q).append ?_
    rw [List.filter_filter]
    split
    · rename_i hq
      refine parts_are (hc.filter fun c r hcr => ?_)
      · rw [hcr.phase]
        by_cases e : c.phase = q
        · simp only [e, decide_true, Bool.true_and]; exact decide_eq_true (by omega)
        · simp [e]
    · rename_i hq
      have : (cs.filter fun c => decide (c.phase = q) && decide (1 ≤ c.phase ∧ c.phase ≤ 6)) = [] := by
        rw [List.filter_eq_nil_iff]
        intro c _
        simp; omega
      rw [this]; exact .nil
  defaults := hd.trans h.defaults
  fit := fun c hcm => by
    rcases List.mem_append.1 hcm with hcm | hcm
    · exact h.fit c hcm
    · simpa using (List.mem_filter.1 hcm).2

theorem StandMeans.empty (lib : Lib) : StandMeans lib {} {} := ⟨.nil, rfl, by simp⟩

/-- What it is now. -/
theorem StandMeans.now {lib : Lib} {d : Stand} {k : Rack} (h : StandMeans lib d k) {s : Stock} {w : Shop} (hs : StockMeans lib s w) :
    RulesMean lib (d.kit s) (k.ruleSet w) where
  carried := fun q => by
    show Pairs _ ((d.entries.filterMap _).filter _) ((k.entries.filter fun e => e.1 = q).filterMap fun e => w.stored e.2)
    have := h.entries
    generalize d.entries = es at this
    generalize k.entries = fs at this
    induction this with
    | nil => exact .nil
    | @cons e f es fs hef _ ih =>
      cases hef with
      | @written q' ps r hr =>
        rw [List.filterMap_cons, List.filter_cons]
        simp only [Stock.entry, Option.map_some]
        by_cases hq : q' = q
        · subst hq
          rw [List.filter_cons, if_pos (by simp), if_pos (by simp), List.filterMap_cons]
          exact .cons hr ih
        · rw [List.filter_cons, if_neg (by simp [hq]), if_neg (by simp [hq])]
          exact ih
      | note q' i =>
        rw [List.filterMap_cons, List.filter_cons]
        simp only [Stock.entry]
        rcases hs.notes.get i with ⟨h1, h2⟩ | ⟨n, o, h1, h2, h3⟩
        · simp only [h1, Option.map_none]
          split
          · rw [List.filterMap_cons]
            simp only [Shop.stored, h2, Option.map_none]
            exact ih
          · exact ih
        · simp only [h1, Option.map_some]
          by_cases hq : q' = q
          · subst hq
            rw [List.filter_cons, if_pos (by simp), if_pos (by simp), List.filterMap_cons]
            simp only [Shop.stored, h2, Option.map_some]
            exact .cons (hs.rule h3 _) ih
          · rw [List.filter_cons, if_neg (by simp [hq]), if_neg (by simp [hq])]
            exact ih
  defaults := h.defaults
  fit := fun c hc => by
    obtain ⟨e, he, hc⟩ := List.mem_filterMap.1 hc
    cases hp : s.entry e.2 with
    | none => rw [hp] at hc; cases hc
    | some ps => rw [hp] at hc; cases hc; exact h.fit e he

theorem rack_adds (es : List (Int × Stored)) : ∀ k : Rack, es.foldl Rack.add k = { k with entries := k.entries ++ es.filter fun e => 1 ≤ e.1 ∧ e.1 ≤ 6 } := by
  induction es with
  | nil => intro k; simp
  | cons e es ih =>
    intro k
    have hb : phaseBegin = 0 := rfl
    have he : phaseEnd = 7 := rfl
    rw [List.foldl_cons, ih]
    by_cases h : 1 ≤ e.1 ∧ e.1 ≤ 6
    · rw [Rack.add, if_neg (by omega), List.filter_cons_of_pos (by simpa using h)]; simp
    · rw [Rack.add, if_pos (by omega), List.filter_cons_of_neg (by simpa using h)]

/-- More rules. -/
theorem StandMeans.plus {lib : Lib} {d : Stand} {k : Rack} (h : StandMeans lib d k) {es : List (Int × Entry)} {fs : List (Int × Stored)} (hp : Pairs (EntryMeans lib) es fs) :
    StandMeans lib (d.plus es) (fs.foldl Rack.add k) := by
  rw [rack_adds]
  refine ⟨h.entries.append (hp.filter fun e f hef => ?_), h.defaults, fun e he => ?_⟩
  · cases hef <;> rfl
  · rcases List.mem_append.1 he with he | he
    · exact h.fit e he
    · simpa using (List.mem_filter.1 he).2

theorem rack_execute (set : DireSet) : ∀ k : Rack, set.foldl Rack.execute k = ((rulesOf set).map fun r => (r.phase, Stored.loaded r)).foldl Rack.add k := by
  induction set with
  | nil => intro k; rfl
  | cons d set ih =>
    intro k
    rw [List.foldl_cons, ih, rulesOf_cons]
    cases d <;> rfl

/-- Executing a directive set on an engine does what `DireSet.execute` does to the rule set
as it is. -/
theorem rack_execute_now (set : DireSet) (k : Rack) (w : Shop) (e : Engine) (he : e.ruleSet = k.ruleSet w) :
    (set.execute e).ruleSet = (set.foldl Rack.execute k).ruleSet w := by
  have h3 := (C58_switches set e).2.2
  have hd : (set.foldl Rack.execute k).defaults = k.defaults := by rw [rack_execute, rack_adds]
  have hp : (set.execute e).ruleSet.phases = ((set.foldl Rack.execute k).ruleSet w).phases := by
    funext q
    rw [C58_rules, he, rack_execute, rack_adds]
    simp only [Rack.ruleSet, List.filter_append, List.filterMap_append, List.filter_filter]
    congr 1
    generalize rulesOf set = rs
    induction rs with
    | nil => split <;> rfl
    | cons r rs ih =>
      rw [List.map_cons]
      by_cases hr : r.phase = q
      · subst hr
        by_cases hq : 1 ≤ r.phase ∧ r.phase ≤ 6
        · rw [if_pos hq] at ih ⊢
          rw [List.filter_cons_of_pos (by simp), List.filter_cons_of_pos (by simpa using hq), List.filterMap_cons, ih]
          rfl
        · rw [if_neg hq] at ih ⊢
          rw [List.filter_cons_of_neg (by simpa using hq), ← ih]
      · rw [List.filter_cons_of_neg (by simp [hr]), List.filter_cons_of_neg (by simp [hr])]
        exact ih
  cases hx : (set.execute e).ruleSet with
  | mk ph df =>
    rw [hx] at hp h3
    rw [he] at h3
    simp only at hp h3
    rw [hp, h3]
    show _ = Rack.ruleSet _ w
    simp only [Rack.ruleSet, hd]

/-- Adding rules does what `AddRules` does to the rule set as it is. -/
theorem rack_addRules_now (hs : List Nat) (k : Rack) (w : Shop) :
    ((hs.filterMap fun i => (w.objs[i]?).map fun o => (o.phase, Stored.obj i)).foldl Rack.add k).ruleSet w =
      (k.ruleSet w).addRules (hs.filterMap fun i => (w.objs[i]?).map w.rule) := by
  induction hs generalizing k with
  | nil => rfl
  | cons i hs ih =>
    rw [List.filterMap_cons, List.filterMap_cons]
    cases ho : w.objs[i]? with
    | none => exact ih k
    | some o =>
      simp only [Option.map_some]
      rw [List.foldl_cons, ih, RuleSet.addRules, RuleSet.addRules, List.foldl_cons]
      congr 1
      rw [Rack.add, RuleSet.addRule]
      show Rack.ruleSet (if o.phase ≥ phaseEnd ∨ o.phase ≤ phaseBegin then _ else _) w = if o.phase ≥ phaseEnd ∨ o.phase ≤ phaseBegin then _ else _
      split
      · rfl
      · simp only [Rack.ruleSet, RuleSet.mk.injEq, and_true]
        funext q
        rw [List.filter_append, List.filterMap_append]
        by_cases hq : q = o.phase
        · subst hq
          rw [show (w.rule o).phase = o.phase from rfl, if_pos rfl, List.filter_cons, if_pos (by simp)]
          simp only [List.filter_nil, List.filterMap_cons, List.filterMap_nil, Shop.stored, ho, Option.map_some]
        · rw [show (w.rule o).phase = o.phase from rfl, if_neg hq, List.filter_cons, if_neg (by simp; omega)]
          exact List.append_nil _

/-- Executing a directive set. -/
theorem execute_means {lib : Lib} {w : Written} {set : DireSet} {d : Stand} {k : Rack} {c : Cell} {l : Limits} (hw : SetMeans lib w set)
    (hr : StandMeans lib d k) :
    StandMeans lib (d.plus (w.chains.map fun c => ((chainIn c).phase, .written (chainIn c).parts))) (set.foldl Rack.execute k) ∧
      ({ c with
        enabled := (set.execute (c.engine l {})).enabled
        detectionOnly := (set.execute (c.engine l {})).detectionOnly } : Cell) = configured w.dirs c ∧
      (set.execute (c.engine l {})).limits = limited w.dirs l := by
  obtain ⟨h1, h2, h3⟩ := C58_switches set (c.engine l {})
  refine ⟨?_, ?_, ?_⟩
  · rw [rack_execute]
    refine hr.plus ?_
    have := hw.chains
    generalize w.chains = cs at this
    generalize rulesOf set = rules at this
    induction this with
    | nil => exact .nil
    | cons hx _ ih =>
      have hc := chainIn_is hx
      refine .cons ?_ ih
      show EntryMeans lib (_, _) (Rule.phase _, _)
      rw [hc.phase]
      exact .written hc.parts
  · have e1 : (set.execute (c.engine l {})).enabled = (lastly modeOf w.dirs (c.enabled, c.detectionOnly)).1 := by
      rw [lastly, ← hw.modes]; exact congrArg Prod.fst h1
    have e2 : (set.execute (c.engine l {})).detectionOnly = (lastly modeOf w.dirs (c.enabled, c.detectionOnly)).2 := by
      rw [lastly, ← hw.modes]; exact congrArg Prod.snd h1
    rw [e1, e2]
    rfl
  · rw [h2, hw.req, hw.resp]
    rfl

/-- Rules made by the host. -/
theorem addObjs_mean {lib : Lib} {d : Stand} {k : Rack} {s : Stock} {w : Shop} (h : StandMeans lib d k) (hs : StockMeans lib s w) (l : List Nat) :
    StandMeans lib (d.plus (l.filterMap fun i => (s.notes[i]?).map fun n => (n.phase, .note i)))
      ((l.filterMap fun i => (w.objs[i]?).map fun o => (o.phase, Stored.obj i)).foldl Rack.add k) := by
  refine h.plus (pairs_filterMap (fun i => ?_) l)
  rcases hs.notes.get i with ⟨h1, h2⟩ | ⟨n, o, h1, h2, h3⟩
  · exact .inl ⟨by rw [h1]; rfl, by rw [h2]; rfl⟩
  · refine .inr ⟨_, _, by rw [h1]; rfl, by rw [h2]; rfl, ?_⟩
    show EntryMeans lib (_, _) (o.phase, _)
    rw [h3.phase]
    exact .note _ _

/-- Rules made by the host. -/
theorem addRules_means {lib : Lib} {k : Kit} {rs : RuleSet} (h : RulesMean lib k rs) (hs : List HostRule) :
    RulesMean lib (k.plus (hs.map (chainOf lib.rx))) (rs.addRules (hs.map (HostRule.make lib))) :=
  have ⟨h1, h2, h3⟩ := C35_registration rs (hs.map (HostRule.make lib))
  h.plus (pairs_maps (chainOf_is lib) hs) h3 fun q => by
    split
    · rename_i hq; exact h1 q hq.1 hq.2
    · rename_i hq; rw [h2 q (by omega), List.append_nil]

/-- Default actions. -/
theorem addDefaults_means {lib : Lib} {k : Kit} {rs : RuleSet} (h : RulesMean lib k rs) (ds : List HostAct) :
    RulesMean lib { k with defaults := k.defaults ++ ds } (rs.addDefaultActions (ds.map HostAct.make)) :=
  ⟨h.carried, by show rs.defaultActions ++ _ = _; rw [h.defaults, List.map_append], h.fit⟩

/-- The mode set by the host. -/
theorem enable_means (c : Cell) (st : Int) :
    ({ c with enabled := ((c.engine newDefaultLimits {}).enable st).enabled, detectionOnly := ((c.engine newDefaultLimits {}).enable st).detectionOnly } : Cell) = modeSet c st := by
  by_cases h0 : st = 0
  · subst h0; rfl
  by_cases h1 : st = 1
  · subst h1; rfl
  by_cases h2 : st = 2
  · subst h2; rfl
  have e : (c.engine newDefaultLimits {}).enable st = c.engine newDefaultLimits {} :=
    (if_neg (show ¬ st = statusOn from h0)).trans ((if_neg (show ¬ st = statusOff from h1)).trans (if_neg (show ¬ st = statusDect from h2)))
  rw [e]
  simp only [modeSet]
  rfl

/-- A new transaction. -/
theorem alike_new (l : Limits) :
    LikeHeld { known := { mem := l.requestBodyInMem, most := l.requestBody, respMost := l.responseBody } } (newTransaction l) := fun _ _ => {
  know := rfl, phase := rfl, verdict := rfl, chosen := rfl, aborted := rfl
  low := Int.le_refl 0
  high := by show (0 : Int) ≤ 7; omega
  fine := {
    req := ⟨⟨rfl, rfl⟩, rfl, (fun _ h => h), (fun _ => ⟨rfl, rfl⟩)⟩
    resp := ⟨rfl, rfl, rfl, rfl, rfl⟩
    form := fun r hr => by cases hr
    parts := fun r hr => by cases hr } }

theorem engineNo_at (p : Park) (e : Nat) : p.engineNo e = engineAt p.engines p.limits e := by
  rw [Park.engineNo, engineAt]
  cases p.engines[e]? with
  | none => rfl
  | some c =>
    show (p.limits[c.limits]?.bind fun l => some (c, l)) = p.limits[c.limits]?.map fun l => (c, l)
    cases p.limits[c.limits]? <;> rfl

theorem create_keeps {lib : Lib} {p : Park} {w : Plant} (act : Act) (hk : Keeps lib p w) (e a : Nat) (l : Limits) (b : Bool) :
    Keeps lib (p.create e a l b).1 (w.newTransaction e a l b).1 ∧ notice act (w.newTransaction e a l b).2 = (p.create e a l b).2 := by
  cases b with
  | true => exact ⟨hk, rfl⟩
  | false =>
    refine ⟨⟨hk.engines, hk.limits, hk.rules, hk.stock, hk.sets, hk.txs.append (.cons ⟨rfl, rfl, alike_new _⟩ .nil)⟩, ?_⟩
    show Notice.made w.txs.length = .made p.txs.length
    rw [hk.txs.length_eq]

/-- A call, whatever the view. -/
theorem step_lands {env : Env} {V : View env} {S : Sight V.K} {C : Type} {E : Nat → C → Mach V.K → Ending (Mach V.K × Nat)} {R : C → Rule → Prop}
    {h : List Op} {m : Mach V.K} {t : Tx} {rs : RuleSet} {chains : Int → List C} (hs : Sees V S) (he : Evaluates V E R rs) (hc : CarriedBy R chains rs) {op : Op}
    (hf : Follows V S.learn h op) (ha : Agree V h m t) :
    Lands (fun n => (t.step env rs n op).bind fun (t, o, _) => .ok (t, o)) (fun x y => Agree V (h ++ [op]) x.1 y.1 ∧ shown [y.2] = x.2) (callBy S E chains m op) := by
  have k := step_by hs he hc hf ha
  cases hx : callBy S E chains m op with
  | hangs => rw [hx] at k; exact fun n => by simp only [k n]; rfl
  | panics =>
    rw [hx] at k
    obtain ⟨k1, N, k2⟩ := k
    exact ⟨fun n => (k1 n).imp (fun e => by simp only [e]; rfl) (fun e => by simp only [e]; rfl), N, fun n hn => by simp only [k2 n hn]; rfl⟩
  | returns x =>
    rw [hx] at k
    obtain ⟨t', o, g1, g2, g3, N, g4⟩ := k
    refine ⟨(t', o), ⟨g1, g2⟩, fun n => ?_, N, fun n hn => ?_⟩
    · rcases g3 n with e | ⟨tr, e⟩
      · exact .inl (by simp only [e]; rfl)
      · exact .inr (by simp only [e]; rfl)
    · obtain ⟨tr, e⟩ := g4 n hn
      simp only [e]; rfl

/-- A call. -/
theorem alike_call {lib : Lib} {ord : IterOrd} {lim : Limits} {rs : RuleSet} {k : Kit} {m : Mach Held} {t : Tx} (op : Op)
    (hc : RulesMean lib k rs) (h : LikeHeld m t) (hf : ¬ Fatal m.known op) :
    Lands (fun n => (t.step { lib, ord, limits := lim } rs n op).bind fun (t, o, _) => .ok (t, o))
      (fun x y => LikeHeld x.1 y.1 ∧ shown [y.2] = x.2)
      (callBy heldSight (evalChain lib { req := lim.requestBodyAccess, resp := lim.responseBodyAccess, inMem := lim.requestBodyInMem } k.defaults) (ofPhase k.chains) m op) := by
  obtain ⟨env, henv⟩ : ∃ env : Env, env = { lib, ord, limits := lim } := ⟨_, rfl⟩
  have ha := h env []
  have hE := chains_evaluate (env := env) (G := fun a c => a = m.known.mem ∧ c = m.known.most) (rs := rs) hc.defaults
  have hcar : CarriedBy (PartsAre env.lib) (ofPhase k.chains) rs := by rw [henv]; exact hc.by
  have hfo : Follows (heldView env fun a c => a = m.known.mem ∧ c = m.known.most) heldSight.learn [] op := by
    refine held_follows _ _ fun a c hac => ?_
    obtain ⟨rfl, rfl⟩ := hac
    by_cases h0 : 0 ≤ m.known.mem
    · exact .inl h0
    · refine .inr fun p io e => ?_
      subst e
      exact Int.not_le.1 fun hle => hf ⟨by omega, hle⟩
  have hl := step_lands (held_sees _ _) hE hcar hfo ha
  subst henv
  exact Spec.Lands.imp hl fun x y hxy => ⟨fun env' h' => (show _ from by
    obtain ⟨g1, g2⟩ := hxy
    have hfine : HeldFine (fun a c => a = m.known.mem ∧ c = m.known.most) y.1 := g1.fine
    have hkn : y.1.held = x.1.known := g1.know
    refine ⟨g1.know, ?_, g1.phase, g1.verdict, g1.chosen, g1.aborted, g1.low, g1.high⟩
    exact ⟨⟨⟨by rw [← hkn]; rfl, by rw [← hkn]; rfl⟩, hfine.req.readed, hfine.req.inMem, hfine.req.none⟩, hfine.resp, hfine.form, hfine.parts⟩),
    hxy.2⟩

/-- A chunk when the limit is negative. -/
theorem alike_fatal {env : Env} {rs : RuleSet} {m : Mach Held} {t : Tx} {op : Op} (h : LikeHeld m t) (hf : Fatal m.known op) (n : Nat) :
    t.step env rs n op = .panic := by
  cases op
  case appendRequestBody p io =>
    obtain ⟨h1, h2⟩ := hf
    have hfine : HeldFine (fun a c => a = m.known.mem ∧ c = m.known.most) t := (h env []).fine
    obtain ⟨l1, l2⟩ := hfine.req.limits
    have hneg : t.reqBody.memLimit < 0 := by rw [l1]; exact h1
    obtain ⟨n1, n2⟩ := hfine.req.none hneg
    have hw : t.reqBody.write p io = .panic := by
      simp only [Buf.write, hfine.req.readed, Bool.false_eq_true, if_false, n1, n2]
      rw [if_neg (by omega), if_pos (by omega), if_pos (by omega)]
    simp only [Tx.step, hw]; rfl
  all_goals exact hf.elim

/-- Where the machine and the transaction agree. -/
theorem LikeHeld.parts {m : Mach Held} {t : Tx} (h : LikeHeld m t) :
    t.held = m.known ∧ HeldFine (fun a c => a = m.known.mem ∧ c = m.known.most) t ∧ t.phase = m.phase ∧ t.intervention = m.verdict ∧
      t.getData b!"status" = m.chosen.map DataVal.int ∧ t.abort = m.aborted ∧ 0 ≤ t.phase ∧ t.phase ≤ 7 :=
  have a := h { lib := Sample.lib, ord := Sample.ord, limits := newDefaultLimits } []
  ⟨a.know, a.fine, a.phase, a.verdict, a.chosen, a.aborted, a.low, a.high⟩

/-- A transaction in which only what is known has changed. -/
theorem LikeHeld.learns {m : Mach Held} {t u : Tx} {k : Held} (h : LikeHeld m t) (hk : u.held = k) (hm : k.mem = m.known.mem ∧ k.most = m.known.most)
    (hf : HeldFine (fun a c => a = m.known.mem ∧ c = m.known.most) u) (h1 : u.phase = t.phase) (h2 : u.intervention = t.intervention)
    (h3 : u.getData b!"status" = t.getData b!"status") (h4 : u.abort = t.abort) : LikeHeld { m with known := k } u := fun env hs => by
  have a := h env hs
  refine ⟨hk, ?_, h1.trans a.phase, h2.trans a.verdict, h3.trans a.chosen, h4.trans a.aborted, by rw [h1]; exact a.low, by rw [h1]; exact a.high⟩
  show HeldFine (fun a c => a = k.mem ∧ c = k.most) u
  rw [hm.1, hm.2]
  exact hf

/-- A call returns what the reference says. -/
theorem alike_reply {lib : Lib} {env : Env} {rs : RuleSet} {k : Kit} {m : Mach Held} {t u : Tx} {op : Op} {o : Out} {tr : Trace} {n : Nat}
    (hc : RulesMean lib k rs) (h : LikeHeld m t) (hf : ¬ Fatal m.known op) (hs : t.step env rs n op = .ok (u, o, tr)) (hn : op ≠ .next) :
    replied k.chains m op (shown [o]) = some o := by
  obtain ⟨hk, hfine, hph, -, -, -, hlo, -⟩ := h.parts
  have phases : ∀ {x : Res (Tx × Trace)}, (x.bind fun (t, tr) => .ok (t, Out.unit, tr)) = .ok (u, o, tr) → o = .unit := by
    intro x hx
    obtain ⟨a, _, e⟩ := Res.bind_eq_ok.1 hx
    cases e; rfl
  cases op
  case next => exact absurd rfl hn
  case appendRequestBody p io =>
    have hl : 0 ≤ t.reqBody.memLimit ∨ t.reqBody.fileLimit < p.length := by
      obtain ⟨l1, l2⟩ := hfine.req.limits
      rw [l1, l2]
      by_cases h0 : 0 ≤ m.known.mem
      · exact .inl h0
      · exact .inr (Int.not_le.1 fun hle => hf ⟨by omega, hle⟩)
    obtain ⟨b, w1, -⟩ := held_write hfine.req hl io
    simp only [Tx.step, w1, hk] at hs
    cases hs; rfl
  case appendResponseBody p io =>
    obtain ⟨b, w1, -⟩ := held_write_resp hfine.resp p io
    simp only [Tx.step, w1, hk] at hs
    cases hs
    simp only [replied]
    split <;> rfl
  case jumpToPhase i =>
    cases hs
    simp only [replied, nearest, Tx.jumpToPhase, phaseBegin, phaseEnd, Option.some.injEq, Out.num.injEq]
    grind
  case nextPhase =>
    cases hs
    simp only [replied, nearest, Tx.nextPhase, Tx.jumpToPhase, phaseBegin, phaseEnd, Option.some.injEq, Out.num.injEq, hph]
    split
    · rfl
    · split <;> split <;> omega
  case jumpTo i =>
    cases hs
    have e : (rs.phases t.phase).length = (ofPhase k.chains m.phase).length := by
      rw [← hph, (hc.carried _).length_eq]
    simp only [replied, Tx.jumpTo, e, Option.some.injEq, Out.num.injEq]
    split <;> rfl
  case result => cases hs; rfl
  case intervention => cases hs; rfl
  case processRequestURL => cases hs; rfl
  case resetIntervention => cases hs; rfl
  case abortWithStatus => cases hs; rfl
  case abortWithError => cases hs; rfl
  case logf => cases hs; rfl
  all_goals (rw [phases hs]; rfl)

theorem placeOf_target (len : Nat) (o w : Int) : seekTarget o w 0 len = placeOf len o w := by
  simp only [seekTarget, placeOf]
  by_cases h0 : w = 0
  · subst h0
    by_cases h : o < 0
    · simp [h, Int.not_le.2 h]
    · simp [h, Int.not_lt.1 h]
  by_cases h1 : w = 1
  · subst h1
    by_cases h : o < 0
    · simp [h, Int.not_le.2 h]
    · simp [h, Int.not_lt.1 h]
  by_cases h2 : w = 2
  · subst h2
    by_cases h : (len : Int) + o < 0
    · simp [h, Int.not_le.2 h]
    · simp [h, Int.not_lt.1 h]
  simp [h0, h1, h2]

/-- A call on a body other than a write. -/
theorem call_use {b : Buf} (hr : b.readed = false) {op : BufOp} (hop : ∀ p io, op ≠ .write p io) :
    match b.store.use op with
    | .returns x => ∃ b' o, b.call op = .ok (b', o) ∧ b.SameBody b' ∧ b'.store = x.1 ∧ answer o = x.2
    | .panics => b.call op = .panic
    | .hangs => False := by
  have hi := b.initRead_same
  cases hb : b.fileBuf with
  | none =>
    have hs : b.store = .memory b.memBuf := by simp only [Buf.store, hb]
    have hi : b.initRead = { b with memReader := some (b.memBuf, 0) } := by simp only [Buf.initRead, hr, hb, Bool.not_false, if_true, Option.map_none]
    rw [hs]
    have same : ∀ r, b.SameBody { b with memReader := r } := fun r => ⟨rfl, rfl, rfl, rfl, rfl, rfl⟩
    have st : ∀ r, ({ b with memReader := r } : Buf).store = .memory b.memBuf := fun r => by simp only [Buf.store, hb]
    cases op with
    | write p io => exact absurd rfl (hop p io)
    | string => exact ⟨_, _, by simp only [Buf.call, Buf.string, hi, hb]; rfl, same _, st _, rfl⟩
    | bytes => exact ⟨_, _, by simp only [Buf.call, Buf.string, hi, hb]; rfl, same _, st _, rfl⟩
    | read n =>
      refine ⟨{ b with memReader := some (memRead (b.memBuf, 0) n).1 }, .read (memRead (b.memBuf, 0) n).2.1 (memRead (b.memBuf, 0) n).2.2,
        by simp only [Buf.call, Buf.read, hi, hb]; rfl, same _, st _, ?_⟩
      cases b.memBuf <;> simp [memRead, answer]
    | writeTo => exact ⟨_, _, by simp only [Buf.call, Buf.writeTo, hi, hb]; rfl, same _, st _, rfl⟩
    | seek o w =>
      simp only [Store.use]
      cases hp : placeOf b.memBuf.length o w with
      | none => exact ⟨{ b with memReader := some (b.memBuf, 0) }, .sought 0 (some .seek), by simp only [Buf.call, Buf.seek, hi, hb, placeOf_target, hp]; rfl, same _, st _, rfl⟩
      | some p => exact ⟨{ b with memReader := some (b.memBuf, p) }, .sought p none, by simp only [Buf.call, Buf.seek, hi, hb, placeOf_target, hp]; rfl, same _, st _, rfl⟩
    | close => simp only [Store.use, Buf.call, Buf.close, hb]; rfl
  | some f =>
    obtain ⟨c, n, cl⟩ := f
    have same : ∀ r p q, b.SameBody { b with memReader := r, fileBuf := some { content := c, pos := p, closed := q } } := fun r p q =>
      ⟨rfl, rfl, rfl, rfl, rfl, by rw [hb]; rfl⟩
    cases cl with
    | true =>
      have hs : b.store = .shut := by simp only [Buf.store, hb, if_true]
      have hi : b.initRead = { b with memReader := some (b.memBuf, 0), fileBuf := some { content := c, pos := n, closed := true } } := by
        simp only [Buf.initRead, hr, hb, Bool.not_false, if_true, Option.map_some]
      have st : ∀ r p, ({ b with memReader := r, fileBuf := some { content := c, pos := p, closed := true } } : Buf).store = .shut := fun r p => by
        simp only [Buf.store, if_true]
      rw [hs]
      cases op with
      | write p io => exact absurd rfl (hop p io)
      | string => exact ⟨_, _, by simp only [Buf.call, Buf.string, hi]; rfl, same _ _ _, st _ _, rfl⟩
      | bytes => exact ⟨_, _, by simp only [Buf.call, Buf.string, hi]; rfl, same _ _ _, st _ _, rfl⟩
      | read k => exact ⟨_, _, by simp only [Buf.call, Buf.read, hi, File.read, if_true]; rfl, same _ _ _, st _ _, rfl⟩
      | writeTo => exact ⟨_, _, by simp only [Buf.call, Buf.writeTo, hi, if_true]; rfl, same _ _ _, st _ _, rfl⟩
      | seek o w => exact ⟨_, _, by simp only [Buf.call, Buf.seek, hi, if_true]; rfl, same _ _ _, st _ _, rfl⟩
      | close => exact ⟨_, _, by simp only [Buf.call, Buf.close, hb, if_true]; rfl, same _ _ _, st _ _, rfl⟩
    | false =>
      have hs : b.store = .disk c n := by simp only [Buf.store, hb, Bool.false_eq_true, if_false]
      have hi : b.initRead = { b with memReader := some (b.memBuf, 0), fileBuf := some { content := c, pos := 0, closed := false } } := by
        simp only [Buf.initRead, hr, hb, Bool.not_false, if_true, Option.map_some, Bool.false_eq_true, if_false]
      have st : ∀ r p, ({ b with memReader := r, fileBuf := some { content := c, pos := p, closed := false } } : Buf).store = .disk c p := fun r p => by
        simp only [Buf.store, Bool.false_eq_true, if_false]
      rw [hs]
      cases op with
      | write p io => exact absurd rfl (hop p io)
      | string => exact ⟨_, _, by simp only [Buf.call, Buf.string, hi]; rfl, same _ _ _, st _ _, rfl⟩
      | bytes => exact ⟨_, _, by simp only [Buf.call, Buf.string, hi]; rfl, same _ _ _, st _ _, rfl⟩
      | read k =>
        refine ⟨_, _, by simp only [Buf.call, Buf.read, hi, File.read, Bool.false_eq_true, if_false, List.drop_zero]; rfl, same _ _ _, (st _ _).trans ?_, ?_⟩
        · simp only [Nat.zero_add, List.length_take]
        · show Answer.read _ _ = Answer.read _ _
          congr 1
          have : ((c.take k).length = 0 ∧ 0 < k) ↔ (c = [] ∧ k ≠ 0) := by
            rw [List.length_take]
            constructor
            · rintro ⟨h1, h2⟩
              exact ⟨List.eq_nil_of_length_eq_zero (by omega), by omega⟩
            · rintro ⟨rfl, h2⟩
              exact ⟨by simp, by omega⟩
          simp only [this]
      | writeTo =>
        refine ⟨_, _, by simp only [Buf.call, Buf.writeTo, hi, Bool.false_eq_true, if_false, List.drop_zero]; rfl, same _ _ _, (st _ _).trans ?_, rfl⟩
        simp only [Nat.zero_max]
      | seek o w =>
        simp only [Store.use, Buf.call, Buf.seek, hi, Bool.false_eq_true, if_false, placeOf_target]
        cases placeOf c.length o w with
        | none => exact ⟨_, _, rfl, same _ _ _, st _ _, rfl⟩
        | some p => exact ⟨_, _, rfl, same _ _ _, st _ _, rfl⟩
      | close =>
        refine ⟨_, _, by simp only [Buf.call, Buf.close, hb, Bool.false_eq_true, if_false]; rfl, same _ _ _, ?_, rfl⟩
        simp only [Buf.store, if_true]

/-- A call on the request body. -/
theorem alike_req {m : Mach Held} {t : Tx} (h : LikeHeld m t) (op : BufOp) :
    match useReq m.known op with
    | .returns x => ∃ b o, t.reqBody.call op = .ok (b, o) ∧ LikeHeld { m with known := x.1 } { t with reqBody := b } ∧ answer o = x.2
    | .panics => t.reqBody.call op = .panic
    | .hangs => False := by
  obtain ⟨hk, hfine, -⟩ := h.parts
  obtain ⟨l1, l2⟩ := hfine.req.limits
  have hst : m.known.store = t.reqBody.store := by rw [← hk]; rfl
  have other : (∀ p io, op ≠ .write p io) → match (m.known.store.use op).bind fun x => .returns ({ m.known with store := x.1 }, x.2) with
      | .returns x => ∃ b o, t.reqBody.call op = .ok (b, o) ∧ LikeHeld { m with known := x.1 } { t with reqBody := b } ∧ answer o = x.2
      | .panics => t.reqBody.call op = .panic
      | .hangs => False := by
    intro hop
    have k := call_use hfine.req.readed hop
    rw [hst]
    cases hu : t.reqBody.store.use op with
    | hangs => rw [hu] at k; exact k
    | panics => rw [hu] at k; exact k
    | returns x =>
      rw [hu] at k
      obtain ⟨b, o, k1, k2, k3, k4⟩ := k
      refine ⟨b, o, k1, ?_, k4⟩
      have hnone : b.fileBuf = none ↔ t.reqBody.fileBuf = none := by
        have := k2.file
        cases h1 : b.fileBuf <;> cases h2 : t.reqBody.fileBuf <;> rw [h1, h2] at this <;> simp at this ⊢
      refine h.learns ?_ ⟨rfl, rfl⟩ ⟨⟨?_, k2.readed.trans hfine.req.readed, fun e1 e2 => ?_, fun hn => ?_⟩, hfine.resp, hfine.form, hfine.parts⟩ rfl rfl rfl rfl
      · show ({ t with reqBody := b } : Tx).held = _
        rw [← hk, ← k3]
        simp only [Tx.held, k2.length, k2.memLimit, k2.fileLimit]
        rfl
      · simp only [k2.memLimit, k2.fileLimit]; exact ⟨l1, l2⟩
      · have e2 : 0 ≤ b.memLimit := e2
        show (b.length : Int) ≤ b.memLimit
        rw [k2.memLimit] at e2 ⊢
        rw [k2.length]
        exact hfine.req.inMem (hnone.1 e1) e2
      · have hn : b.memLimit < 0 := hn
        rw [k2.memLimit] at hn
        obtain ⟨n1, n2⟩ := hfine.req.none hn
        exact ⟨hnone.2 n1, k2.length.trans n2⟩
  cases op with
  | write p io =>
    rw [useReq]
    by_cases hf : Fatal m.known (.appendRequestBody p io)
    · rw [if_pos hf]
      have hs := alike_fatal (env := { lib := Sample.lib, ord := Sample.ord, limits := newDefaultLimits }) (rs := {}) h hf 0
      simp only [Tx.step] at hs
      show t.reqBody.call (.write p io) = .panic
      simp only [Buf.call]
      cases hw : t.reqBody.write p io with
      | ok x => rw [hw] at hs; cases hs
      | panic => rfl
      | fuel => rw [hw] at hs; cases hs
    · rw [if_neg hf]
      have hl : 0 ≤ t.reqBody.memLimit ∨ t.reqBody.fileLimit < p.length := by
        rw [l1, l2]
        by_cases h0 : 0 ≤ m.known.mem
        · exact .inl h0
        · exact .inr (Int.not_le.1 fun hle => hf ⟨by omega, hle⟩)
      obtain ⟨b, w1, w2, w3⟩ := held_write hfine.req hl io
      refine ⟨b, .wrote (answered m.known p io).1 (answered m.known p io).2, by simp only [Buf.call, w1, hk]; rfl, ?_, rfl⟩
      refine h.learns (w3.trans (by rw [hk])) ?_ ⟨w2, hfine.resp, hfine.form, hfine.parts⟩ rfl rfl rfl rfl
      simp only [accept]
      repeat' split
      all_goals exact ⟨rfl, rfl⟩
  | string => exact other (by simp)
  | bytes => exact other (by simp)
  | read n => exact other (by simp)
  | writeTo => exact other (by simp)
  | seek o w => exact other (by simp)
  | close => exact other (by simp)

/-- A call on the response body. -/
theorem alike_resp {m : Mach Held} {t : Tx} (h : LikeHeld m t) (op : BufOp) :
    match useResp m.known op with
    | .returns x => ∃ b o, t.respBody.call op = .ok (b, o) ∧ LikeHeld { m with known := x.1 } { t with respBody := b } ∧ answer o = x.2
    | .panics => t.respBody.call op = .panic
    | .hangs => False := by
  obtain ⟨hk, hfine, -⟩ := h.parts
  have hst : Store.memory m.known.resp = t.respBody.store := by
    rw [← hk]
    simp only [Buf.store, hfine.resp.file]; rfl
  have other : (∀ p io, op ≠ .write p io) → match ((Store.memory m.known.resp).use op).bind fun x => .returns (m.known, x.2) with
      | .returns x => ∃ b o, t.respBody.call op = .ok (b, o) ∧ LikeHeld { m with known := x.1 } { t with respBody := b } ∧ answer o = x.2
      | .panics => t.respBody.call op = .panic
      | .hangs => False := by
    intro hop
    have k := call_use hfine.resp.readed hop
    rw [hst]
    cases hu : t.respBody.store.use op with
    | hangs => rw [hu] at k; exact k
    | panics => rw [hu] at k; exact k
    | returns x =>
      rw [hu] at k
      obtain ⟨b, o, k1, k2, k3, k4⟩ := k
      refine ⟨b, o, k1, ?_, k4⟩
      have hnone : b.fileBuf = none := by
        have := k2.file
        rw [hfine.resp.file] at this
        cases h1 : b.fileBuf with
        | none => rfl
        | some f => rw [h1] at this; cases this
      refine h.learns ?_ ⟨rfl, rfl⟩ ⟨hfine.req, ⟨k2.readed.trans hfine.resp.readed, hnone, ?_, ?_, rfl⟩, hfine.form, hfine.parts⟩ rfl rfl rfl rfl
      · show ({ t with respBody := b } : Tx).held = _
        rw [← hk]
        simp only [Tx.held, k2.fileLimit, k2.memBuf]
        rfl
      · show b.length = b.memBuf.length
        rw [k2.length, k2.memBuf]; exact hfine.resp.length
      · show b.memLimit = b.fileLimit
        rw [k2.memLimit, k2.fileLimit]; exact hfine.resp.memLimit
  cases op with
  | write p io =>
    obtain ⟨b, w1, w2, w3⟩ := held_write_resp hfine.resp p io
    rw [hk] at w1 w3
    simp only [take] at w3
    simp only [useResp]
    have key : ∀ {k' : Held} {x : Nat × Option BufErr}, t.respBody.write p io = .ok (b, x) → ({ t with respBody := b } : Tx).held = k' →
        k'.mem = m.known.mem ∧ k'.most = m.known.most → ∃ b' o, t.respBody.call (.write p io) = .ok (b', o) ∧
          LikeHeld { m with known := k' } { t with respBody := b' } ∧ answer o = .wrote x.1 x.2 := by
      intro k' x e1 e2 e3
      exact ⟨b, .wrote x.1 x.2, by simp only [Buf.call, e1]; rfl, h.learns e2 e3 ⟨hfine.req, w2, hfine.form, hfine.parts⟩ rfl rfl rfl rfl, rfl⟩
    by_cases hfit : (m.known.resp.length : Int) + p.length ≤ m.known.respMost
    · rw [if_pos hfit] at w1 w3 ⊢
      exact key w1 w3 ⟨rfl, rfl⟩
    · rw [if_neg hfit] at w1 w3 ⊢
      exact key w1 w3 ⟨rfl, rfl⟩
  | string => exact other (by simp)
  | bytes => exact other (by simp)
  | read n => exact other (by simp)
  | writeTo => exact other (by simp)
  | seek o w => exact other (by simp)
  | close => exact other (by simp)

/-- An assignment. -/
theorem alike_edit {m : Mach Held} {t : Tx} (h : LikeHeld m t) (ed : Edit) : LikeHeld (edited m ed) (t.edit ed) := by
  obtain ⟨hk, hfine, hph, hv, hch, hab, -⟩ := h.parts
  cases ed with
  | net a b c d => exact h.learns (by rw [← hk]; rfl) ⟨rfl, rfl⟩ ⟨hfine.req, hfine.resp, hfine.form, hfine.parts⟩ rfl rfl rfl rfl
  | request a b c d => exact h.learns (by rw [← hk]; rfl) ⟨rfl, rfl⟩ ⟨hfine.req, hfine.resp, hfine.form, hfine.parts⟩ rfl rfl rfl rfl
  | response a b c => exact h.learns (by rw [← hk]; rfl) ⟨rfl, rfl⟩ ⟨hfine.req, hfine.resp, hfine.form, hfine.parts⟩ rfl rfl rfl rfl
  | abort b =>
    exact fun env hs => have a := h env hs; ⟨a.know, ⟨hfine.req, hfine.resp, hfine.form, hfine.parts⟩, a.phase, a.verdict, a.chosen, rfl, a.low, a.high⟩
  | status c =>
    cases c with
    | some c =>
      exact fun env hs => have a := h env hs
        ⟨a.know, ⟨hfine.req, hfine.resp, hfine.form, hfine.parts⟩, a.phase, a.verdict, getData_setData t _ _, a.aborted, a.low, a.high⟩
    | none =>
      refine fun env hs => have a := h env hs
        ⟨a.know, ⟨hfine.req, hfine.resp, hfine.form, hfine.parts⟩, a.phase, a.verdict, ?_, a.aborted, a.low, a.high⟩
      show (t.data.filter fun e => e.1 != b!"status").lookup b!"status" = none
      generalize b!"status" = k
      induction t.data with
      | nil => rfl
      | cons x xs ih =>
        rw [List.filter_cons]
        split
        · rename_i hx
          have : (k == x.1) = false := by
            simp only [bne_iff_ne, ne_eq] at hx
            simp only [beq_eq_false_iff_ne, ne_eq]
            exact fun e => hx e.symm
          rw [List.lookup_cons, this]
          exact ih
        · exact ih
  | forget =>
    refine h.learns (by rw [← hk]; rfl) ⟨rfl, rfl⟩ ⟨hfine.req, hfine.resp, ?_, ?_⟩ rfl rfl rfl rfl
    · intro r hr; cases hr
    · intro r hr; cases hr
  | engine e => exact h
  | rules a => exact h

/-- What can be seen. -/
theorem alike_look {m : Mach Held} {t : Tx} (h : LikeHeld m t) (e a : Nat) : t.look e a = looks e a m := by
  obtain ⟨hk, hfine, hph, hv, hch, hab, -⟩ := h.parts
  simp only [Tx.look, looks, ← hk, hph, hch, hab, Buf.len, hfine.resp.length]
  rfl

/-- One step of the host. -/
theorem plant_act {lib : Lib} {p : Park} {w : Plant} (hk : Keeps lib p w) (a : Act) : ∃ links, Suits lib links a ∧
    Lands (fun n => w.act lib n a) (fun x y => Keeps lib x.1 y.1 ∧ notice a y.2 = x.2) (p.act lib links a) := by
  cases a with
  | newEngine =>
    refine ⟨[], trivial, .ok ⟨⟨?_, ?_, hk.rules.append (.cons (.empty lib) .nil), hk.stock, hk.sets, hk.txs⟩, ?_⟩⟩
    · show w.engines ++ [{ limits := w.limits.length, rules := w.rules.length }] = p.engines ++ [{ limits := p.limits.length, rules := p.rules.length }]
      rw [hk.engines, hk.limits, hk.rules.length_eq]
    · show w.limits ++ [newDefaultLimits] = p.limits ++ [newDefaultLimits]
      rw [hk.limits]
    · show Notice.made w.engines.length = .made p.engines.length
      rw [hk.engines]
  | newSet =>
    refine ⟨[], trivial, .ok ⟨⟨hk.engines, hk.limits, hk.rules, hk.stock, hk.sets.append (.cons ⟨.nil, (by simp), rfl, rfl, rfl⟩ .nil), hk.txs⟩, ?_⟩⟩
    show Notice.made w.sets.length = .made p.sets.length
    rw [hk.sets.length_eq]
  | add i vo text =>
    rcases hk.sets.get i with ⟨h1, h2⟩ | ⟨x, set, h1, h2, h3⟩
    · obtain ⟨links, hs⟩ := suits_some lib (.add i vo text)
      refine ⟨links, hs, ?_⟩
      simp only [Park.act, Plant.act, h1, h2]
      exact .panic
    · simp only [Park.act, Plant.act, h1, h2]
      rcases add_written lib vo set text with ⟨k1, k2⟩ | ⟨dirs, ok, links, set', e, k1, k2, k3, k4, k5⟩
      · refine ⟨[], (fun dirs ok e => by rw [k1] at e; cases e), ?_⟩
        rw [k1, k2]
        exact fun _ => rfl
      · refine ⟨links, (fun dirs ok e => by rw [k1] at e; cases e; exact k4), ?_⟩
        rw [k1, k2]
        refine .ok ⟨⟨hk.engines, hk.limits, hk.rules, hk.stock, hk.sets.set i (h3.append k5), hk.txs⟩, ?_⟩
        show Notice.loaded e.isNone = .loaded ok
        rw [k3]
  | execute i e =>
    refine ⟨[], trivial, ?_⟩
    simp only [Park.act, Plant.act, hk.engines, hk.limits, engineNo_at]
    rcases hk.sets.get i with ⟨h1, h2⟩ | ⟨x, set, h1, h2, h3⟩
    · simp only [h1, h2]; exact .panic
    · simp only [h1, h2]
      cases he : engineAt p.engines p.limits e with
      | none => exact .panic
      | some x =>
        obtain ⟨c, l⟩ := x
        simp only
        rcases hk.rules.get c.rules with ⟨k1, k2⟩ | ⟨ls, rs, k1, k2, k3⟩
        · simp only [k1, k2]; exact .panic
        · simp only [k1, k2]
          obtain ⟨g1, g2, g3⟩ := execute_means (c := c) (l := l) h3 k3
          refine .ok ⟨⟨?_, ?_, hk.rules.set _ g1, hk.stock, hk.sets, hk.txs⟩, rfl⟩
          · show p.engines.set e _ = p.engines.set e _
            rw [← g2]
          · show p.limits.set c.limits _ = p.limits.set c.limits _
            rw [← g3]
  | enable e st =>
    refine ⟨[], trivial, ?_⟩
    simp only [Park.act, Plant.act, hk.engines, hk.limits]
    cases he : p.engines[e]? with
    | none => exact .panic
    | some c =>
      simp only
      refine .ok ⟨⟨?_, rfl, hk.rules, hk.stock, hk.sets, hk.txs⟩, rfl⟩
      show p.engines.set e _ = p.engines.set e _
      rw [← enable_means]
  | setLimits e l =>
    refine ⟨[], trivial, ?_⟩
    simp only [Park.act, Plant.act, hk.engines, hk.limits]
    cases he : p.engines[e]? with
    | none => exact .panic
    | some c => exact .ok ⟨⟨rfl, rfl, hk.rules, hk.stock, hk.sets, hk.txs⟩, rfl⟩
  | newLimits =>
    refine ⟨[], trivial, .ok ⟨⟨hk.engines, ?_, hk.rules, hk.stock, hk.sets, hk.txs⟩, ?_⟩⟩
    · show w.limits ++ [newDefaultLimits] = p.limits ++ [newDefaultLimits]
      rw [hk.limits]
    · show Notice.made w.limits.length = .made p.limits.length
      rw [hk.limits]
  | useLimits e i =>
    refine ⟨[], trivial, ?_⟩
    simp only [Park.act, Plant.act, hk.engines, hk.limits]
    cases he : p.engines[e]? with
    | none => exact .panic
    | some c =>
      cases hl : p.limits[i]? with
      | none => exact .panic
      | some l => exact .ok ⟨⟨rfl, rfl, hk.rules, hk.stock, hk.sets, hk.txs⟩, rfl⟩
  | inspect e =>
    refine ⟨[], trivial, ?_⟩
    simp only [Park.act, Plant.act, hk.engines, hk.limits, engineNo_at]
    cases he : engineAt p.engines p.limits e with
    | none => exact .panic
    | some x => exact .ok ⟨hk, rfl⟩
  | newRules =>
    refine ⟨[], trivial, .ok ⟨⟨hk.engines, hk.limits, hk.rules.append (.cons (.empty lib) .nil), hk.stock, hk.sets, hk.txs⟩, ?_⟩⟩
    show Notice.made w.rules.length = .made p.rules.length
    rw [hk.rules.length_eq]
  | addRules a hs =>
    refine ⟨[], trivial, ?_⟩
    simp only [Park.act, Plant.act]
    rcases hk.rules.get a with ⟨k1, k2⟩ | ⟨k, rs, k1, k2, k3⟩
    · simp only [k1, k2]; exact .panic
    · simp only [k1, k2]
      by_cases hv : ∀ i ∈ hs, i < p.stock.notes.length
      · rw [if_pos hv, if_neg (fun e => (any_isNone _ _).1 e (by rw [← hk.stock.notes.length_eq]; exact hv))]
        exact .ok ⟨⟨hk.engines, hk.limits, hk.rules.set a (addObjs_mean k3 hk.stock hs), hk.stock, hk.sets, hk.txs⟩, rfl⟩
      · rw [if_neg hv, if_pos ((any_isNone _ _).2 (by rw [← hk.stock.notes.length_eq]; exact hv))]
        exact .panic
  | addDefaults a ds =>
    refine ⟨[], trivial, ?_⟩
    simp only [Park.act, Plant.act]
    rcases hk.rules.get a with ⟨k1, k2⟩ | ⟨k, rs, k1, k2, k3⟩
    · simp only [k1, k2]; exact .panic
    · simp only [k1, k2]
      exact .ok ⟨⟨hk.engines, hk.limits, hk.rules.set a ⟨k3.entries, by rw [k3.defaults, List.map_append], k3.fit⟩, hk.stock, hk.sets, hk.txs⟩, rfl⟩
  | clearRules a =>
    refine ⟨[], trivial, ?_⟩
    simp only [Park.act, Plant.act]
    rcases hk.rules.get a with ⟨k1, k2⟩ | ⟨k, rs, k1, k2, k3⟩
    · simp only [k1, k2]; exact .panic
    · simp only [k1, k2]
      exact .ok ⟨⟨hk.engines, hk.limits, hk.rules.set a ⟨.nil, k3.defaults, by simp⟩, hk.stock, hk.sets, hk.txs⟩, rfl⟩
  | clearDefaults a =>
    refine ⟨[], trivial, ?_⟩
    simp only [Park.act, Plant.act]
    rcases hk.rules.get a with ⟨k1, k2⟩ | ⟨k, rs, k1, k2, k3⟩
    · simp only [k1, k2]; exact .panic
    · simp only [k1, k2]
      exact .ok ⟨⟨hk.engines, hk.limits, hk.rules.set a ⟨k3.entries, rfl, k3.fit⟩, hk.stock, hk.sets, hk.txs⟩, rfl⟩
  | shop x =>
    refine ⟨[], trivial, ?_⟩
    simp only [Park.act, Plant.act]
    have k := shop_act hk.stock x
    cases hx : p.stock.act lib x with
    | hangs => rw [hx] at k; exact k.elim
    | panics => rw [hx] at k; simp only [show w.shop.act lib x = .panic from k]; exact .panic
    | returns x' =>
      rw [hx] at k
      obtain ⟨w', k1, k2⟩ := k
      simp only [k1]
      exact .ok ⟨⟨hk.engines, hk.limits, hk.rules, k2, hk.sets, hk.txs⟩, rfl⟩
  | useRules e a =>
    refine ⟨[], trivial, ?_⟩
    simp only [Park.act, Plant.act, hk.engines, hk.limits]
    cases he : p.engines[e]? with
    | none => exact .panic
    | some c =>
      rcases hk.rules.get a with ⟨k1, k2⟩ | ⟨ls, rs, k1, k2, k3⟩
      · simp only [k1, k2]; exact .panic
      · simp only [k1, k2]; exact .ok ⟨⟨rfl, rfl, hk.rules, hk.stock, hk.sets, hk.txs⟩, rfl⟩
  | newTransaction e b =>
    refine ⟨[], trivial, ?_⟩
    simp only [Park.act, Plant.act, hk.engines, hk.limits, engineNo_at]
    cases he : engineAt p.engines p.limits e with
    | none => exact .panic
    | some x => exact .ok (create_keeps _ hk e x.1.rules x.2 b)
  | newTransactionWith e a b =>
    refine ⟨[], trivial, ?_⟩
    cases e with
    | none => exact .ok ⟨hk, rfl⟩
    | some e =>
      simp only [Park.act, Plant.act, hk.engines, hk.limits, engineNo_at]
      cases he : engineAt p.engines p.limits e with
      | none => exact .panic
      | some x =>
        obtain ⟨c, l⟩ := x
        cases a with
        | none => exact .ok ⟨hk, rfl⟩
        | some a =>
          simp only
          rcases hk.rules.get a with ⟨k1, k2⟩ | ⟨ls, rs, k1, k2, k3⟩
          · simp only [k1, k2]; exact .panic
          · simp only [k1, k2]; exact .ok (create_keeps _ hk e a l b)
  | call i ord op =>
    refine ⟨[], trivial, ?_⟩
    simp only [Park.act, Plant.act, hk.engines, hk.limits, engineNo_at]
    rcases hk.txs.get i with ⟨h1, h2⟩ | ⟨⟨e, a, m⟩, ⟨e', a', t⟩, h1, h2, h3, h4, h5⟩
    · simp only [h1, h2]; exact .panic
    · simp only at h3 h4 h5
      subst h3 h4
      simp only [h1, h2]
      cases he : engineAt p.engines p.limits e with
      | none => exact .panic
      | some x =>
        obtain ⟨c, l⟩ := x
        rcases hk.rules.get a with ⟨k1, k2⟩ | ⟨d, k, k1, k2, k3⟩
        · simp only [k1, k2]; exact .panic
        · simp only [k1, k2]
          have k3 := k3.now hk.stock
          generalize d.kit p.stock = ls at k3 ⊢
          generalize k.ruleSet w.shop = rs at k3 ⊢
          by_cases hf : Fatal m.known op
          · rw [if_pos hf]
            simp only [alike_fatal h5 hf]
            exact .panic
          · rw [if_neg hf]
            have hal := (alike_call (ord := ord) (lim := l) op k3 h5 hf).also
              (R' := fun x y => LikeHeld x.1 y.1 ∧ notice (.call i ord op) (.returned y.2) = .returned (replied ls.chains m op x.2))
              (fun x y hxy hn => ⟨hxy.1, by
                obtain ⟨n, hn⟩ := hn
                obtain ⟨⟨u, o, tr⟩, hs, hy⟩ := Res.bind_eq_ok.1 hn
                cases hy
                by_cases hne : op = .next
                · subst hne; rfl
                · rw [← hxy.2, alike_reply k3 h5 hf hs hne]
                  cases op <;> first | rfl | exact absurd rfl hne⟩)
            have := hal.bind
              (g := fun y _ => .ok (({ w with engines := p.engines, limits := p.limits, txs := w.txs.set i (e, a, y.1) } : Plant), ActOut.returned y.2))
              (S := fun x y => Keeps lib x.1 y.1 ∧ notice (.call i ord op) y.2 = x.2)
              (h := fun x => .returns (({ p with txs := p.txs.set i (e, a, x.1) } : Park), Notice.returned (replied ls.chains m op x.2)))
              (fun x y hxy => .ok ⟨⟨rfl, rfl, hk.rules, hk.stock, hk.sets, hk.txs.set i ⟨rfl, rfl, hxy.1⟩⟩, hxy.2⟩)
            refine Eq.mp ?_ this
            congr
            funext n
            cases t.step { lib, ord, limits := l } rs n op <;> rfl
  | body i resp op =>
    refine ⟨[], trivial, ?_⟩
    simp only [Park.act, Plant.act]
    rcases hk.txs.get i with ⟨h1, h2⟩ | ⟨⟨e, a, m⟩, ⟨e', a', t⟩, h1, h2, h3, h4, h5⟩
    · simp only [h1, h2]; exact .panic
    · simp only at h3 h4 h5
      subst h3 h4
      simp only [h1, h2]
      cases resp with
      | true =>
        simp only [if_true]
        have k := alike_resp h5 op
        cases hu : useResp m.known op with
        | hangs => rw [hu] at k; exact k.elim
        | panics => rw [hu] at k; simp only [show t.respBody.call op = .panic from k]; exact .panic
        | returns x =>
          rw [hu] at k
          obtain ⟨b, o, g1, g2, g3⟩ := k
          simp only [g1]
          exact .ok ⟨⟨hk.engines, hk.limits, hk.rules, hk.stock, hk.sets, hk.txs.set i ⟨rfl, rfl, g2⟩⟩, by rw [← g3]; rfl⟩
      | false =>
        simp only [Bool.false_eq_true, if_false]
        have k := alike_req h5 op
        cases hu : useReq m.known op with
        | hangs => rw [hu] at k; exact k.elim
        | panics => rw [hu] at k; simp only [show t.reqBody.call op = .panic from k]; exact .panic
        | returns x =>
          rw [hu] at k
          obtain ⟨b, o, g1, g2, g3⟩ := k
          simp only [g1]
          exact .ok ⟨⟨hk.engines, hk.limits, hk.rules, hk.stock, hk.sets, hk.txs.set i ⟨rfl, rfl, g2⟩⟩, by rw [← g3]; rfl⟩
  | edit i ed =>
    refine ⟨[], trivial, ?_⟩
    simp only [Park.act, Plant.act, hk.engines, hk.limits]
    rcases hk.txs.get i with ⟨h1, h2⟩ | ⟨⟨e, a, m⟩, ⟨e', a', t⟩, h1, h2, h3, h4, h5⟩
    · simp only [h1, h2]; exact .panic
    · simp only at h3 h4 h5
      subst h3 h4
      simp only [h1, h2]
      have key : ∀ ed, Keeps lib { p with txs := p.txs.set i (e, a, edited m ed) } { w with engines := p.engines, limits := p.limits, txs := w.txs.set i (e, a, t.edit ed) } :=
        fun ed => ⟨rfl, rfl, hk.rules, hk.stock, hk.sets, hk.txs.set i ⟨rfl, rfl, alike_edit h5 ed⟩⟩
      cases ed with
      | engine e1 =>
        cases he : p.engines[e1]? with
        | none => simp only [he]; exact .panic
        | some c => simp only [he]; exact .ok ⟨⟨rfl, rfl, hk.rules, hk.stock, hk.sets, hk.txs.set i ⟨rfl, rfl, h5⟩⟩, rfl⟩
      | rules a1 =>
        rcases hk.rules.get a1 with ⟨k1, k2⟩ | ⟨ls, rs, k1, k2, k3⟩
        · simp only [k1, k2]; exact .panic
        · simp only [k1, k2]; exact .ok ⟨⟨rfl, rfl, hk.rules, hk.stock, hk.sets, hk.txs.set i ⟨rfl, rfl, h5⟩⟩, rfl⟩
      | net a b c d => exact .ok ⟨key _, rfl⟩
      | request a b c d => exact .ok ⟨key _, rfl⟩
      | response a b c => exact .ok ⟨key _, rfl⟩
      | abort b => exact .ok ⟨key _, rfl⟩
      | status c => exact .ok ⟨key _, rfl⟩
      | forget => exact .ok ⟨key _, rfl⟩
  | look i =>
    refine ⟨[], trivial, ?_⟩
    simp only [Park.act, Plant.act]
    rcases hk.txs.get i with ⟨h1, h2⟩ | ⟨⟨e, a, m⟩, ⟨e', a', t⟩, h1, h2, h3, h4, h5⟩
    · simp only [h1, h2]; exact .panic
    · simp only at h3 h4 h5
      subst h3 h4
      simp only [h1, h2]
      exact .ok ⟨hk, by rw [notice, alike_look h5]⟩

/-- A run of the host. -/
theorem plant_acts {lib : Lib} : ∀ {as : List Act} {p : Park} {w : Plant}, Keeps lib p w →
    ∃ xs : List (Act × List (List Link)), xs.map Prod.fst = as ∧ (∀ x ∈ xs, Suits lib x.2 x.1) ∧
      Lands (fun n => w.acts lib n as) (fun x y => Keeps lib x.1 y.1 ∧ List.zipWith notice as y.2 = x.2) (p.acts lib xs) := by
  intro as
  induction as with
  | nil => intro p w hk; exact ⟨[], rfl, by simp, .ok ⟨hk, rfl⟩⟩
  | cons a as ih =>
    intro p w hk
    obtain ⟨links, hs, hl⟩ := plant_act hk a
    cases hx : p.act lib links a with
    | returns x =>
      have hl' := hl
      rw [hx] at hl'
      obtain ⟨y, ⟨hy, hyn⟩, j2, M, j3⟩ := hl'
      obtain ⟨xs, e1, e2, e3⟩ := ih hy
      refine ⟨(a, links) :: xs, by rw [List.map_cons, e1], List.forall_mem_cons.2 ⟨hs, e2⟩, ?_⟩
      have hl : Lands (fun n => w.act lib n a) (fun x' y' => x' = x ∧ y' = y) (p.act lib links a) := by
        rw [hx] at hl ⊢
        exact ⟨y, ⟨rfl, rfl⟩, j2, M, j3⟩
      refine (hl.bind (g := fun y n => (Plant.acts lib n y.1 as).bind fun (q, os) => .ok (q, y.2 :: os))
        (S := fun x y => Keeps lib x.1 y.1 ∧ List.zipWith notice (a :: as) y.2 = x.2)
        (h := fun y => (Park.acts lib y.1 xs).bind fun z => .returns (z.1, y.2 :: z.2)) ?_)
      rintro _ _ ⟨rfl, rfl⟩
      refine (e3.bind (g := fun z _ => .ok (z.1, _ :: z.2)) (S := fun x y => Keeps lib x.1 y.1 ∧ List.zipWith notice (a :: as) y.2 = x.2)
        (h := fun z => .returns (z.1, _ :: z.2)) ?_)
      rintro u v ⟨h1, h2⟩
      exact .ok ⟨h1, by rw [List.zipWith_cons_cons, hyn, h2]⟩
    | panics =>
      rw [hx] at hl
      obtain ⟨xs, e1, e2⟩ : ∃ xs : List (Act × List (List Link)), xs.map Prod.fst = as ∧ ∀ x ∈ xs, Suits lib x.2 x.1 := by
        refine ⟨as.map fun a => (a, (suits_some lib a).choose), ?_, fun x hx => ?_⟩
        · rw [List.map_map]; exact List.map_id' _
        · obtain ⟨b, _, rfl⟩ := List.mem_map.1 hx
          exact (suits_some lib b).choose_spec
      refine ⟨(a, links) :: xs, by rw [List.map_cons, e1], List.forall_mem_cons.2 ⟨hs, e2⟩, ?_⟩
      rw [Park.acts, hx]
      obtain ⟨k1, N, k2⟩ := hl
      exact ⟨fun n => (k1 n).imp (fun e => by simp only [Plant.acts, e]; rfl) (fun e => by simp only [Plant.acts, e]; rfl), N,
        fun n hn => by simp only [Plant.acts, k2 n hn]; rfl⟩
    | hangs =>
      rw [hx] at hl
      obtain ⟨xs, e1, e2⟩ : ∃ xs : List (Act × List (List Link)), xs.map Prod.fst = as ∧ ∀ x ∈ xs, Suits lib x.2 x.1 := by
        refine ⟨as.map fun a => (a, (suits_some lib a).choose), ?_, fun x hx => ?_⟩
        · rw [List.map_map]; exact List.map_id' _
        · obtain ⟨b, _, rfl⟩ := List.mem_map.1 hx
          exact (suits_some lib b).choose_spec
      refine ⟨(a, links) :: xs, by rw [List.map_cons, e1], List.forall_mem_cons.2 ⟨hs, e2⟩, ?_⟩
      rw [Park.acts, hx]
      exact fun n => by simp only [Plant.acts, hl n]; rfl

/-- C95.  Whatever a host does with engines, directive sets built from texts, rule sets, rules
made from the stock parts and changed at any time, and transactions, in any order and whatever the limits, the texts, the bodies, the faults of
the disk and the orders in which maps are visited: everything it sees is what the
reference shows, for some order in which each rule asks for its variables.  It panics
and does not return exactly when the reference does. -/
theorem C95_host (lib : Lib) (as : List Act) : ∃ xs : List (Act × List (List Link)), xs.map Prod.fst = as ∧ (∀ x ∈ xs, Suits lib x.2 x.1) ∧
    Lands (fun n => Plant.acts lib n {} as) (fun x y => List.zipWith notice as y.2 = x.2) (Park.acts lib {} xs) := by
  obtain ⟨xs, h1, h2, h3⟩ := plant_acts (lib := lib) (as := as) (p := {}) (w := {}) ⟨rfl, rfl, .nil, ⟨.nil, rfl, .nil⟩, .nil, .nil⟩
  refine ⟨xs, h1, h2, ?_⟩
  exact h3.imp fun _ _ h => h.2

/-- The default limits but for a negative one. -/
def tightLimits : Limits := { newDefaultLimits with requestBodyInMem := -1 }

/-- A negative limit for what is held in memory: the first chunk panics, whatever it is. -/
example (p : Bytes) (h : p.length ≤ 134217728) : ∃ N, ∀ n ≥ N, Plant.acts lib n {} [.newEngine, .setLimits 0 tightLimits,
    .newTransaction 0 false, .call 0 Sample.ord (.appendRequestBody p {})] = .panic := by
  obtain ⟨xs, h1, _, h3⟩ := C95_host lib [.newEngine, .setLimits 0 tightLimits, .newTransaction 0 false, .call 0 Sample.ord (.appendRequestBody p {})]
  obtain ⟨l1, l2, l3, l4, rfl⟩ : ∃ l1 l2 l3 l4, xs = [(Act.newEngine, l1), (.setLimits 0 tightLimits, l2), (.newTransaction 0 false, l3),
      (.call 0 Sample.ord (.appendRequestBody p {}), l4)] := by
    obtain ⟨x1, xs1, rfl, e1, h1⟩ := List.map_eq_cons_iff.1 h1
    obtain ⟨x2, xs2, rfl, e2, h1⟩ := List.map_eq_cons_iff.1 h1
    obtain ⟨x3, xs3, rfl, e3, h1⟩ := List.map_eq_cons_iff.1 h1
    obtain ⟨x4, xs4, rfl, e4, h1⟩ := List.map_eq_cons_iff.1 h1
    rw [List.map_eq_nil_iff] at h1
    subst h1
    exact ⟨x1.2, x2.2, x3.2, x4.2, by rw [← e1, ← e2, ← e3, ← e4]⟩
  have e : Park.acts lib {} [(Act.newEngine, l1), (.setLimits 0 tightLimits, l2), (.newTransaction 0 false, l3),
      (.call 0 Sample.ord (.appendRequestBody p {}), l4)] = .panics := by
    have hf : ∀ k : Held, k.mem = -1 → k.most = 134217728 → Fatal k (.appendRequestBody p {}) := fun k e1 e2 => ⟨by omega, by omega⟩
    simp only [Park.acts, Park.act, Ending.bind, Park.create, List.length_nil, List.nil_append, List.getElem?_cons_zero, List.set_cons_zero, Bool.false_eq_true, if_false, engineNo_at, engineAt, Option.map_some]
    rw [if_pos (hf _ rfl rfl)]
  rw [e] at h3
  exact h3.2

/-- A text with a feature that is not implemented. -/
def halfText : Bytes := b!"SecRuleEngine On\nSecRule XML \"@rx a\" \"id:1,phase:2\"\nSecRuleEngine Off"

/-- Refused, yet what is in front of the rule is in force once the set is executed; what
is behind is not. -/
example : ∃ N, ∀ n ≥ N, ∃ q os, Plant.acts lib n {} [.newEngine, .newSet, .add 0 varOrd halfText, .execute 0 0, .inspect 0] = .ok (q, os) ∧
    List.zipWith notice [.newEngine, .newSet, .add 0 varOrd halfText, .execute 0 0, .inspect 0] os =
      [.made 0, .made 0, .loaded false, .done, .engine true false newDefaultLimits] := by
  obtain ⟨xs, h1, h2, h3⟩ := C95_host lib [.newEngine, .newSet, .add 0 varOrd halfText, .execute 0 0, .inspect 0]
  obtain ⟨l1, l2, l3, l4, l5, rfl⟩ : ∃ l1 l2 l3 l4 l5, xs = [(Act.newEngine, l1), (.newSet, l2), (.add 0 varOrd halfText, l3), (.execute 0 0, l4), (.inspect 0, l5)] := by
    obtain ⟨x1, xs1, rfl, e1, h1⟩ := List.map_eq_cons_iff.1 h1
    obtain ⟨x2, xs2, rfl, e2, h1⟩ := List.map_eq_cons_iff.1 h1
    obtain ⟨x3, xs3, rfl, e3, h1⟩ := List.map_eq_cons_iff.1 h1
    obtain ⟨x4, xs4, rfl, e4, h1⟩ := List.map_eq_cons_iff.1 h1
    obtain ⟨x5, xs5, rfl, e5, h1⟩ := List.map_eq_cons_iff.1 h1
    rw [List.map_eq_nil_iff] at h1
    subst h1
    exact ⟨x1.2, x2.2, x3.2, x4.2, x5.2, by rw [← e1, ← e2, ← e3, ← e4, ← e5]⟩
  have hr : reads lib halfText = .returns ([.ruleEng 1], false) := by
    classical
    have hp : Program halfText [.ruleEng 1, .rule ⟨[⟨.xml, [], false, false⟩], ⟨.rx, false, b!"a"⟩, { id := 1, phase := 2 }⟩, .ruleEng 0] :=
      (C53_exact id _ _).1 (by decide +kernel)
    have hu : ∃ dirs, Program halfText dirs := ⟨_, hp⟩
    have hc : hu.choose = _ := Except.ok.inj (Res.ok.inj (((C53_exact id _ _).2 hu.choose_spec).symm.trans ((C53_exact id _ _).2 hp)))
    have hb : ¬ DirOk lib (.rule ⟨[⟨.xml, [], false, false⟩], ⟨.rx, false, b!"a"⟩, { id := 1, phase := 2 }⟩) :=
      fun h => (h.vars _ List.mem_cons_self).1 rfl
    rw [reads, if_neg (program_noHang hp), dif_pos hu, hc]
    rw [decide_eq_false fun h => hb (h _ (List.mem_cons_of_mem _ List.mem_cons_self))]
    rw [show [PDir.ruleEng 1, .rule ⟨[⟨.xml, [], false, false⟩], ⟨.rx, false, b!"a"⟩, { id := 1, phase := 2 }⟩, .ruleEng 0] =
      [PDir.ruleEng 1] ++ .rule ⟨[⟨.xml, [], false, false⟩], ⟨.rx, false, b!"a"⟩, { id := 1, phase := 2 }⟩ :: [.ruleEng 0] from rfl,
      takeWhile_dirsBad (by intro d hd; rw [List.mem_singleton.1 hd]; trivial) hb]
  obtain ⟨q, hq⟩ : ∃ q, Park.acts lib {} [(Act.newEngine, l1), (.newSet, l2), (.add 0 varOrd halfText, l3), (.execute 0 0, l4), (.inspect 0, l5)] =
      .returns (q, [.made 0, .made 0, .loaded false, .done, .engine true false newDefaultLimits]) := by
    simp only [Park.acts, Park.act, Ending.bind, List.nil_append, List.getElem?_cons_zero, List.set_cons_zero, hr]
    exact ⟨_, rfl⟩
  rw [hq] at h3
  obtain ⟨⟨q', os⟩, h4, _, N, h5⟩ := h3
  exact ⟨N, fun n hn => ⟨q', os, h5 n hn, h4⟩⟩

theorem zip_parts {α β : Type} : ∀ {xs : List (α × β)} {as : List α}, xs.map Prod.fst = as → xs = as.zip (xs.map Prod.snd)
  | [], _, h => by subst h; rfl
  | x :: xs, _, h => by subst h; rw [List.map_cons, List.map_cons, List.zip_cons_cons, ← zip_parts rfl]

theorem acts_step {lib : Lib} {p q : Park} {a : Act} {l : List (List Link)} {as : List (Act × List (List Link))} {o : Notice} {P : List Notice → Prop}
    (h : p.act lib l a = .returns (q, o)) (h' : ∃ r os, q.acts lib as = .returns (r, os) ∧ P (o :: os)) :
    ∃ r os, p.acts lib ((a, l) :: as) = .returns (r, os) ∧ P os := by
  obtain ⟨r, os, e, hp⟩ := h'
  exact ⟨r, _, by simp only [Park.acts, h, Ending.bind, e], hp⟩

theorem body_write {lib : Lib} {p : Park} {l : List (List Link)} {i e a : Nat} {m : Mach Held} {b : Bytes} {io : IOFault} (h : p.txs[i]? = some (e, a, m))
    (h0 : ¬ Fatal m.known (.appendRequestBody b io)) : p.act lib l (.body i false (.write b io)) =
      .returns ({ p with txs := p.txs.set i (e, a, { m with known := accept m.known b io }) }, .body (.wrote (answered m.known b io).1 (answered m.known b io).2)) := by
  simp only [Park.act, h, Bool.false_eq_true, if_false, useReq]
  rw [if_neg h0]
  rfl

/-- Two bytes of a request body are held in memory, the rest on disk. -/
def smallLimits : Limits := { newDefaultLimits with requestBodyInMem := 2 }

/-- The host program of the next example. -/
def gapActs : List Act := [.newEngine, .setLimits 0 smallLimits, .newTransaction 0 false, .body 0 false (.write b!"abc" {}), .body 0 false (.seek 7 0),
  .body 0 false (.write b!"z" {}), .body 0 false (.read 9), .body 0 false .close, .body 0 false (.read 9), .edit 0 (.status (some 401)), .look 0]

/-- A body on disk (which repeats what would have fitted in memory): moved past its end, a write leaves a gap of zeros; once it is closed,
nothing can be read.  A field that was assigned shows. -/
example : ∃ N, ∀ n ≥ N, ∃ q os, Plant.acts lib n {} gapActs = .ok (q, os) ∧ ∃ lk : Look, lk.status = some (.int 401) ∧
    List.zipWith notice gapActs os =
      [.made 0, .done, .made 0, .body (.wrote 3 none), .body (.sought 7 none), .body (.wrote 1 none), .body (.read (b!"ababc" ++ [0, 0] ++ b!"z") none),
       .body (.closed none), .body (.read [] (some .io)), .done, .look lk] := by
  obtain ⟨xs, h1, h2, h3⟩ := C95_host lib gapActs
  have hf : ∀ k : Held, k.mem = 2 → ∀ p, ¬ Fatal k (.appendRequestBody p {}) := fun k e p hk => by have := hk.1; omega
  obtain ⟨q, ns, hq, hns⟩ : ∃ q ns, Park.acts lib {} xs = .returns (q, ns) ∧ ∃ lk : Look, lk.status = some (.int 401) ∧
      ns = [.made 0, .done, .made 0, .body (.wrote 3 none), .body (.sought 7 none), .body (.wrote 1 none),
        .body (.read (b!"ababc" ++ [0, 0] ++ b!"z") none), .body (.closed none), .body (.read [] (some .io)), .done, .look lk] := by
    rw [zip_parts h1]
    rcases hl : xs.map Prod.snd with _ | ⟨l1, _ | ⟨l2, _ | ⟨l3, _ | ⟨l4, _ | ⟨l5, _ | ⟨l6, _ | ⟨l7, _ | ⟨l8, _ | ⟨l9, _ | ⟨l10, _ | ⟨l11, ls⟩⟩⟩⟩⟩⟩⟩⟩⟩⟩⟩
    case cons.cons.cons.cons.cons.cons.cons.cons.cons.cons.cons =>
      refine acts_step rfl ?_
      refine acts_step rfl ?_
      refine acts_step rfl ?_
      refine acts_step (body_write rfl (hf _ rfl _)) ?_
      refine acts_step rfl ?_
      refine acts_step (body_write rfl (hf _ rfl _)) ?_
      refine acts_step rfl ?_
      refine acts_step rfl ?_
      refine acts_step rfl ?_
      refine acts_step rfl ?_
      refine acts_step rfl ?_
      exact ⟨_, _, rfl, _, rfl, rfl⟩
    all_goals
      have e := congrArg List.length hl
      have e1 := congrArg List.length h1
      rw [List.length_map] at e e1
      rw [e] at e1
      cases e1
  rw [hq] at h3
  obtain ⟨⟨q', os⟩, h4, _, N, h5⟩ := h3
  exact ⟨N, fun n hn => ⟨q', os, h5 n hn, hns.imp fun lk hl => ⟨hl.1, h4.trans hl.2⟩⟩⟩

/-- The host program of the next example. -/
def sharedActs : List Act := [.newEngine, .newEngine, .useLimits 1 0, .setLimits 0 smallLimits, .inspect 1, .newLimits, .useLimits 0 2, .inspect 0, .inspect 1]

/-- Two engines with the same limits: what is assigned through one is seen through the
other, until one is given limits of its own. -/
example : ∃ N, ∀ n ≥ N, ∃ q os, Plant.acts lib n {} sharedActs = .ok (q, os) ∧ List.zipWith notice sharedActs os =
    [.made 0, .made 1, .done, .done, .engine false false smallLimits, .made 2, .done, .engine false false newDefaultLimits, .engine false false smallLimits] := by
  obtain ⟨xs, h1, _, h3⟩ := C95_host lib sharedActs
  obtain ⟨q, ns, hq, hns⟩ : ∃ q ns, Park.acts lib {} xs = .returns (q, ns) ∧ ns =
      [.made 0, .made 1, .done, .done, .engine false false smallLimits, .made 2, .done, .engine false false newDefaultLimits, .engine false false smallLimits] := by
    rw [zip_parts h1]
    rcases hl : xs.map Prod.snd with _ | ⟨l1, _ | ⟨l2, _ | ⟨l3, _ | ⟨l4, _ | ⟨l5, _ | ⟨l6, _ | ⟨l7, _ | ⟨l8, _ | ⟨l9, ls⟩⟩⟩⟩⟩⟩⟩⟩⟩
    case cons.cons.cons.cons.cons.cons.cons.cons.cons => exact ⟨_, _, rfl, rfl⟩
    all_goals
      have e := congrArg List.length hl
      have e1 := congrArg List.length h1
      rw [List.length_map] at e e1
      rw [e] at e1
      cases e1
  rw [hq] at h3
  obtain ⟨⟨q', os⟩, h4, _, N, h5⟩ := h3
  exact ⟨N, fun n hn => ⟨q', os, h5 n hn, h4.trans hns⟩⟩

/-- Closing a body that is in memory panics. -/
example : ∃ N, ∀ n ≥ N, Plant.acts lib n {} [.newEngine, .newTransaction 0 false, .body 0 false .close] = .panic := by
  obtain ⟨xs, h1, _, h3⟩ := C95_host lib [.newEngine, .newTransaction 0 false, .body 0 false .close]
  obtain ⟨l1, l2, l3, rfl⟩ : ∃ l1 l2 l3, xs = [(Act.newEngine, l1), (.newTransaction 0 false, l2), (.body 0 false .close, l3)] := by
    obtain ⟨x1, xs1, rfl, e1, h1⟩ := List.map_eq_cons_iff.1 h1
    obtain ⟨x2, xs2, rfl, e2, h1⟩ := List.map_eq_cons_iff.1 h1
    obtain ⟨x3, xs3, rfl, e3, h1⟩ := List.map_eq_cons_iff.1 h1
    rw [List.map_eq_nil_iff] at h1
    subst h1
    exact ⟨x1.2, x2.2, x3.2, by rw [← e1, ← e2, ← e3]⟩
  have e : Park.acts lib {} [(Act.newEngine, l1), (.newTransaction 0 false, l2), (.body 0 false .close, l3)] = .panics := rfl
  rw [e] at h3
  exact h3.2

end Verif
