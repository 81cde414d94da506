import Verif.Props.Walk
import Verif.Props.LoopBody
/-!
C94: the reference machine for rule texts that read bodies, whatever the size and the
type of the bodies, the phase in which they are read, and the faults of the disk.
-/
namespace Verif
open Sample Spec

/-! ### The machine -/

namespace Spec

/-- The arguments in the request body: not asked for so far, refused because the body
was too large, not understood, or read. -/
inductive Form where
  | unread | refused | broken
  | read (m : GoMap)

/-- Where the request body is held: in memory, or in a file that will be written next at
some place, unless it is closed. -/
inductive Store where
  | memory (b : Bytes)
  | disk (content : Bytes) (place : Nat)
  | shut

/-- The bytes of the body, if it can be read. -/
def Store.content : Store → Option Bytes
  | .memory b => some b
  | .disk c _ => some c
  | .shut => none

/-- The file is read up to some place. -/
def Store.readTo (n : Nat) : Store → Store
  | .memory b => .memory b
  | .disk c _ => .disk c (min n c.length)
  | .shut => .shut

/-- The file after a form was read, the last `Read` having been for `n` bytes; 0 if there was
none. -/
def Store.formTo (n : Nat) (s : Store) : Store := if n = 0 then s else s.readTo n

/-- What is known of a transaction: what the host has told; how much of the request body
may be held in memory, how much may be accepted at all, and how much of the response
body; how much of the request body was accepted, and where it is; the response body
accepted; the arguments in the request body, read as a form and read as parts. -/
structure Held where
  facts : Facts := {}
  mem : Int := 131072
  most : Int := 134217728
  respMost : Int := 524228
  size : Nat := 0
  store : Store := .memory []
  resp : Bytes := []
  form : Form := .unread
  parts : Form := .unread

/-- The bytes that reach the disk. -/
def reaching (p : Bytes) : Option Nat → Bytes
  | none => p
  | some j => p.take j

/-- A file in which some bytes are written at some place; if that is behind the end, the
gap is zeros. -/
def overwrite (c : Bytes) (place : Nat) (p : Bytes) : Bytes :=
  if p = [] then c else (c ++ List.replicate (place - c.length) 0).take place ++ p ++ c.drop (place + p.length)

/-- A chunk of the request body: refused beyond the limit; kept in memory as long as it
fits.  The chunk that does not fit goes to disk behind what was in memory and as much of
itself as would have fitted; later chunks are written wherever the file was left.
Nothing reaches a file that is closed. -/
def accept (k : Held) (p : Bytes) (io : IOFault) : Held :=
  if k.most < k.size + p.length then k
  else match k.store with
    | .memory b =>
      if (k.size : Int) + p.length ≤ k.mem then { k with size := k.size + p.length, store := .memory (b ++ p) }
      else
        let b := b ++ p.take (k.mem - k.size).toNat
        if io.tempFail then { k with store := .memory b }
        else match io.copyFail with
          | some j => { k with store := .disk (b.take j) (b.take j).length }
          | none => { k with
              size := k.size + (reaching p io.writeFail).length
              store := .disk (b ++ reaching p io.writeFail) (b ++ reaching p io.writeFail).length }
    | .disk c n => { k with
        size := k.size + (reaching p io.writeFail).length
        store := .disk (overwrite c n (reaching p io.writeFail)) (n + (reaching p io.writeFail).length) }
    | .shut => k

/-- What the host is told of a chunk of the request body: how much of it was written, and
the error. -/
def answered (k : Held) (p : Bytes) (io : IOFault) : Nat × Option BufErr :=
  if k.most < k.size + p.length then (0, some .outOfFileLimit)
  else match k.store with
    | .memory _ =>
      if (k.size : Int) + p.length ≤ k.mem then (p.length, none)
      else if io.tempFail ∨ io.copyFail ≠ none then (0, some .io)
      else ((reaching p io.writeFail).length, io.writeFail.map fun _ => .io)
    | .disk _ _ => ((reaching p io.writeFail).length, io.writeFail.map fun _ => .io)
    | .shut => (0, some .io)

/-- What is known after one more call. -/
def take (k : Held) : Op → Held
  | .appendRequestBody p io => accept k p io
  | .appendResponseBody p _ => if (k.resp.length : Int) + p.length ≤ k.respMost then { k with resp := k.resp ++ p } else k
  | op => { k with facts := told k.facts op }

/-- What the engine allows: whether bodies may be read, and how much of a multipart body
may be held in memory. -/
structure Switches where
  req : Bool
  resp : Bool
  inMem : Int := 131072

/-- The request has a body that may be read. -/
def HasBody (access : Bool) (k : Held) : Prop :=
  access = true ∧ (k.facts.method = b!"POST" ∨ k.facts.method = b!"PUT" ∨ k.facts.method = b!"PATCH") ∧ k.size ≠ 0

/-- The request has a body that is declared to be of some type. -/
def HasType (lib : Lib) (access : Bool) (k : Held) (type : Bytes) : Prop := HasBody access k ∧ type <+: declared lib { facts := k.facts }

/-- The boundary declared. -/
def boundary (lib : Lib) (f : Facts) : Bytes :=
  (lib.mediaType (match firstValue f.headers b!"Content-Type" with
    | some (c :: l) => c :: l
    | _ => b!"application/octet-stream")).2

/-- The request has a body that REQUEST_BODY shows. -/
def HasShown (lib : Lib) (access : Bool) (k : Held) : Prop :=
  HasBody access k ∧ ∃ c l, firstValue k.facts.headers b!"Content-Type" = some (c :: l) ∧
    (lib.mediaType (c :: l)).1 = b!"application/x-www-form-urlencoded"

/-- Asking for the arguments of a form: what is shown, what is known afterwards, and the
refusals.  The body is parsed once; the arguments of a malformed one are shown only when
asked for again. -/
def askUrlencoded (lib : Lib) (k : Held) : GoMap × Held × List Bytes :=
  match k.form, k.store with
  | .read m, _ => (m, k, [])
  | .unread, .memory b => (if (lib.parseQuery b).2 = none then (lib.parseQuery b).1 else [], { k with form := .read (lib.parseQuery b).1 }, [])
  | .unread, s => ([], { k with form := .refused, store := s.readTo 0 }, [b!"out of memory limit"])
  | _, _ => ([], k, [])

/-- Asking for the values of a multipart body, which may be known not to be understood
(`none`). -/
def askMultipart (lib : Lib) (inMem : Int) (k : Held) : Ending (Option GoMap × Held × List Bytes) :=
  match k.parts with
  | .read m => .returns (some m, k, [])
  | .refused => .returns (some [], k, [])
  | .broken => .returns (none, k, [])
  | .unread => match lib.readForm k.store.content (boundary lib k.facts) inMem with
    | (.ok m, n) => .returns (some m, { k with parts := .read m, store := k.store.formTo n }, [])
    | (.tooLarge, n) => .returns (some [], { k with parts := .refused, store := k.store.formTo n }, [b!"multipart: message too large"])
    | (.err _, n) => .returns (some [], { k with parts := .broken, store := k.store.formTo n }, [])
    | (.hang, _) => .hangs

open Classical in
/-- Asking for the arguments in the request body. -/
noncomputable def askForm (lib : Lib) (sw : Switches) (k : Held) : Ending (Option GoMap × Held × List Bytes) :=
  if HasType lib sw.req k b!"application/x-www-form-urlencoded" then .returns (some (askUrlencoded lib k).1, (askUrlencoded lib k).2)
  else if HasType lib sw.req k b!"multipart/" then askMultipart lib sw.inMem k
  else .returns (some [], k, [])

/-- Which lists of values (for given names) a variable may show. -/
abbrev Shows := (Bytes → Prop) → List Bytes → Prop

open Classical in
/-- Asking for a variable: what it may show, what is known afterwards, and the refusals.
The names of a body known not to be understood are fatal. -/
noncomputable def ask (lib : Lib) (sw : Switches) (k : Held) (tk : VarTok) : Ending (Shows × Held × List Bytes) :=
  match tk with
  | .requestBody =>
    .returns (if HasShown lib sw.req k then match k.store with
        | .memory b => (fun _ vals => vals = [b], k, [])
        | s => (fun _ vals => vals = [], { k with store := s.readTo 0 }, [b!"out of memory limit"])
      else (fun _ vals => vals = [], k, []))
  | .responseBody => .returns (fun _ vals => vals = if sw.resp = true ∧ k.resp ≠ [] then [k.resp] else [], k, [])
  | .argsPost => (askForm lib sw k).bind fun a => .returns (fun P vals => ValuesIn P (a.1.getD []) vals, a.2)
  | .args => (askForm lib sw k).bind fun a => .returns (fun P vals => ValuesIn P (getArgs lib { facts := k.facts } ++ a.1.getD []) vals, a.2)
  | .argsPostNames => (askForm lib sw k).bind fun a => match a.1 with
    | some m => .returns (fun P vals => NamesIn P m vals, a.2)
    | none => .panics
  | .argsNames => (askForm lib sw k).bind fun a => match a.1 with
    | some m => .returns (fun P vals => ∃ a b, NamesIn P (getArgs lib { facts := k.facts }) a ∧ NamesIn P m b ∧ vals.Perm (a ++ b), a.2)
    | none => .panics
  | tk => .returns (fun P vals => Lists lib k.facts P vals tk, k, [])

/-- Asking for variables one after the other; `vs` are the variables of the rule. -/
noncomputable def askAll (lib : Lib) (sw : Switches) (vs : List PVar) : List (VarTok × Bool) → Held → Ending ((Bytes → Prop) × Held × List Bytes)
  | [], k => .returns (fun _ => False, k, [])
  | v :: rest, k => (ask lib sw k v.1).bind fun a => (askAll lib sw vs rest a.2.1).bind fun b =>
    .returns (fun y => (∃ vals, a.1 (Picked lib.rx (selectors vs v.1 v.2)) vals ∧ if v.2 then y = itoa vals.length else y ∈ vals) ∨ b.1 y,
      b.2.1, a.2.2 ++ b.2.2)

/-- A rule and the order in which its variables are asked for. -/
structure Link where
  rule : PRule
  order : List (VarTok × Bool)

/-- Every variable of the rule is asked for once. -/
def Link.Fits (l : Link) : Prop := l.order.Nodup ∧ ∀ k, k ∈ l.order ↔ ∃ v ∈ l.rule.vars, (v.tk, v.count) = k

/-- What is known, told and accepted; conditions are dealt with separately. -/
def heldSight : Sight Held where
  learn := take
  facts := Held.facts
  holds := fun _ _ => False

/-- Refuse bodies for the reasons given. -/
def refuse : List Bytes → Mach Held → Mach Held
  | [], m => m
  | e :: es, m => refuse es (say heldSight (b!"abort process with error " ++ e)
      { m with aborted := true, verdict := { m.verdict with status := 413, disruptive := true } })

/-- Evaluate the condition of a rule: the machine afterwards, and whether it holds. -/
noncomputable def test (lib : Lib) (sw : Switches) (l : Link) (m : Mach Held) : Ending (Mach Held × Prop) :=
  (askAll lib sw l.rule.vars l.order m.known).bind fun a => .returns (refuse a.2.2 { m with known := a.2.1 },
    a.2.2 = [] ∧ ∃ y, a.1 y ∧
      (Accepts lib l.rule.op (pipe lib (newTransaction newDefaultLimits) (l.rule.acts.trans.map transOf) y) ↔ l.rule.op.not = false))

open Classical in
/-- Evaluate the conditions of the rules of a chain, up to the first that does not hold. -/
noncomputable def meets (lib : Lib) (sw : Switches) : List Link → Mach Held → Ending (Mach Held × Prop)
  | [], m => .returns (m, True)
  | l :: ls, m => (test lib sw l m).bind fun a => if a.2 then meets lib sw ls a.1 else .returns (a.1, False)

open Classical in
/-- Evaluate chain number `j`. -/
noncomputable def evalLinks (lib : Lib) (sw : Switches) (j : Nat) (c : List Link) (m : Mach Held) : Ending (Mach Held × Nat) :=
  (meets lib sw c { m with rule := j }).bind fun a =>
    .returns (if a.2 then fireAt heldSight (a.1, j + 1) (c.map Link.rule) else (a.1, j + 1))

/-- `links` are the chains of each phase, with orders in which variables are asked for. -/
def Ordered (chains : List (List PRule)) (links : Int → List (List Link)) : Prop :=
  ∀ q : Int, 1 ≤ q → (links q).map (fun c => c.map Link.rule) = chains.filter (fun c => chainPhase c = q) ∧ ∀ c ∈ links q, ∀ l ∈ c, l.Fits

end Spec

/-! ### The view -/

/-- What is known of the arguments, according to the cache. -/
def formIn : Option Parsed → Form
  | some (.values m) => .read m
  | some (.form (some m)) => .read m
  | some (.form none) => .broken
  | some .nil => .refused
  | none => .unread

/-- Where a body is. -/
def Buf.store (b : Buf) : Store :=
  match b.fileBuf with
  | none => .memory b.memBuf
  | some f => if f.closed then .shut else .disk f.content f.pos

/-- What a transaction has on record. -/
def Tx.held (t : Tx) : Held where
  facts := t.facts
  mem := t.reqBody.memLimit
  most := t.reqBody.fileLimit
  respMost := t.respBody.fileLimit
  size := t.reqBody.length
  store := t.reqBody.store
  resp := t.respBody.memBuf
  form := formIn (t.cache.lookup .urlencoded)
  parts := formIn (t.cache.lookup .multipart)

/-- A request body within its limits, which are some of `G`. -/
structure Buf.Sound (b : Buf) (G : Int → Int → Prop) : Prop where
  limits : G b.memLimit b.fileLimit
  readed : b.readed = false
  inMem : b.fileBuf = none → 0 ≤ b.memLimit → (b.length : Int) ≤ b.memLimit
  none : b.memLimit < 0 → b.fileBuf = none ∧ b.length = 0

/-- The state of a transaction after some calls. -/
structure HeldFine (G : Int → Int → Prop) (t : Tx) : Prop where
  req : t.reqBody.Sound G
  resp : t.respBody.InMem t.respBody.fileLimit t.respBody.fileLimit
  form : ∀ r, t.cache.lookup .urlencoded = some r → r = .nil ∨ ∃ m, r = .values m
  parts : ∀ r, t.cache.lookup .multipart = some r → r = .nil ∨ ∃ f, r = .form f

def heldView (env : Env) (G : Int → Int → Prop) : View env where
  K := Held
  know := Tx.held
  facts := Held.facts
  fine := fun _ => HeldFine G
  lists := fun _ _ _ _ => False
  covers := fun _ _ => False
  know_core := fun {t u} h => by
    have : u.core.held = t.core.held := by rw [h]
    exact this
  facts_know := fun _ => rfl
  fine_core := fun {hs t u} h hf => by
    have e1 : u.core.reqBody = t.core.reqBody := by rw [h]
    have e2 : u.core.respBody = t.core.respBody := by rw [h]
    have e3 : u.core.cache = t.core.cache := by rw [h]
    have e1 : u.reqBody = t.reqBody := e1
    have e2 : u.respBody = t.respBody := e2
    have e3 : u.cache = t.cache := e3
    obtain ⟨h1, h2, h3, h4⟩ := hf
    exact ⟨e1 ▸ h1, e2 ▸ h2, by rw [e3]; exact h3, by rw [e3]; exact h4⟩
  perm := fun h => h.elim
  fetch := fun h => h.elim

theorem held_sees (env : Env) (G : Int → Int → Prop) : Sees (heldView env G) heldSight where
  facts := rfl
  holds := fun _ _ => ⟨fun h => h.elim, fun ⟨_, _, _, ⟨_, h, _⟩, _⟩ => h.elim⟩

/-! ### Calls -/

/-- The body read up to some place. -/
theorem Buf.Sound.afterForm {b : Buf} {G : Int → Int → Prop} (h : b.Sound G) (n : Nat) : (b.afterForm n).Sound G ∧ (b.afterForm n).store = b.store.formTo n := by
  by_cases hn : n = 0
  · simpa only [Buf.afterForm, Store.formTo, hn, if_true, and_true] using h
  simp only [Buf.afterForm, Store.formTo, hn, if_false, Buf.read, Buf.initRead, h.readed, Bool.not_false, if_true]
  cases hb : b.fileBuf with
  | none => exact ⟨⟨h.limits, rfl, (fun _ => h.inMem hb), (fun hn => ⟨rfl, (h.none hn).2⟩)⟩, by simp [Buf.store, hb, Store.readTo]⟩
  | some f =>
    refine ⟨⟨h.limits, rfl, (fun e => by cases e), (fun hn => by have := (h.none hn).1; rw [hb] at this; cases this)⟩, ?_⟩
    cases hc : f.closed <;> simp [Buf.store, hb, Store.readTo, hc, File.read]

/-- The body asked for as a string. -/
theorem Buf.Sound.read {b : Buf} {G : Int → Int → Prop} (h : b.Sound G) : b.string.1.Sound G ∧ b.string.1.store = b.store.readTo 0 := by
  simp only [Buf.string, Buf.initRead, h.readed, Bool.not_false, if_true]
  cases hb : b.fileBuf with
  | none => exact ⟨⟨h.limits, rfl, (fun _ => h.inMem hb), (fun hn => ⟨rfl, (h.none hn).2⟩)⟩, by simp [Buf.store, hb, Store.readTo]⟩
  | some f =>
    refine ⟨⟨h.limits, rfl, (fun e => by cases e), (fun hn => by have := (h.none hn).1; rw [hb] at this; cases this)⟩, ?_⟩
    cases hc : f.closed <;> simp [Buf.store, hb, Store.readTo, hc]

theorem writeAt_overwrite (c : Bytes) (n : Nat) (p : Bytes) : writeAt c n p = overwrite c n p := by
  simp only [writeAt, overwrite, List.take_append, List.take_replicate, Nat.min_self]

/-- Writing to an open file. -/
theorem File.write_open {f : File} (h1 : f.closed = false) (p : Bytes) (fail : Option Nat) :
    f.write p fail = ({ content := overwrite f.content f.pos (reaching p fail), pos := f.pos + (reaching p fail).length, closed := false },
      (reaching p fail).length, fail.map fun _ => .io) := by
  obtain ⟨c, n, cl⟩ := f
  have h1 : cl = false := h1
  subst h1
  cases fail with
  | none => simp only [File.write, Bool.false_eq_true, if_false, writeAt_overwrite, reaching, Option.map_none]
  | some j => simp only [File.write, Bool.false_eq_true, if_false, writeAt_overwrite, reaching, Option.map_some]

theorem overwrite_end (c p : Bytes) : overwrite c c.length p = c ++ p := by
  simp only [overwrite]
  split
  · rename_i e; subst e; simp
  · simp

/-- Writing a chunk of the request body. -/
theorem held_write {G : Int → Int → Prop} {t : Tx} (h : t.reqBody.Sound G) {p : Bytes} (hp : 0 ≤ t.reqBody.memLimit ∨ t.reqBody.fileLimit < p.length) (io : IOFault) :
    ∃ b', t.reqBody.write p io = .ok (b', answered t.held p io) ∧ b'.Sound G ∧
    ({ t with reqBody := b' } : Tx).held = accept t.held p io := by
  have hh : ∀ b' : Buf, b'.memLimit = t.reqBody.memLimit → b'.fileLimit = t.reqBody.fileLimit →
      ({ t with reqBody := b' } : Tx).held = { t.held with mem := t.reqBody.memLimit, most := t.reqBody.fileLimit, size := b'.length, store := b'.store } := by
    intro b' e1 e2
    simp only [Tx.held, e1, e2]
    rfl
  generalize hb : t.reqBody = b at h hp
  have s1 : t.held.most = b.fileLimit := by rw [← hb]; rfl
  have s2 : t.held.size = b.length := by rw [← hb]; rfl
  have s3 : t.held.mem = b.memLimit := by rw [← hb]; rfl
  have s4 : t.held.store = b.store := by rw [← hb]; rfl
  rw [hb] at hh
  simp only [Buf.write, h.readed, Bool.false_eq_true, if_false, accept, answered, s1, s2, s3, s4]
  by_cases h1 : (b.length : Int) + p.length > b.fileLimit
  · rw [if_pos h1, if_pos h1, if_pos h1]
    exact ⟨b, rfl, h, by rw [← hb]⟩
  · rw [if_neg h1, if_neg h1, if_neg h1]
    cases hf : b.fileBuf with
    | none =>
      have hst : b.store = .memory b.memBuf := by simp only [Buf.store, hf]
      rw [hst]
      have i0 : 0 ≤ b.memLimit := by
        rcases hp with hp | hp
        · exact hp
        · omega
      have i := h.inMem hf i0
      by_cases h2 : (b.length : Int) + p.length ≤ b.memLimit
      · simp only
        rw [if_neg (by omega), if_pos h2, if_pos h2]
        exact ⟨_, rfl, ⟨h.limits, rfl, (fun _ _ => by simp only [Int.natCast_add]; omega), (fun hn => absurd i0 (Int.not_le.2 hn))⟩, hh _ (by rfl) (by rfl)⟩
      · simp only
        rw [if_pos (by omega), if_neg h2, if_neg h2, if_neg (by omega)]
        cases ht : io.tempFail with
        | true =>
          rw [if_pos rfl, if_pos rfl, if_pos (.inl rfl)]
          refine ⟨_, rfl, ⟨h.limits, rfl, (fun _ _ => i), (fun hn => absurd i0 (Int.not_le.2 hn))⟩, ?_⟩
          refine (hh _ (by rfl) (by rfl)).trans ?_
          simp only [Buf.store]
        | false =>
          simp only [Bool.false_eq_true, if_false]
          rw [File.write_open (f := { content := [], pos := 0 }) rfl (b.memBuf ++ p.take (b.memLimit - b.length).toNat) io.copyFail]
          have h0 : ∀ q : Bytes, overwrite [] 0 q = q := overwrite_end []
          simp only [h0, Nat.zero_add]
          cases hc : io.copyFail with
          | some j =>
            rw [if_pos (.inr (by simp))]
            refine ⟨_, rfl, ⟨h.limits, rfl, (fun e => by cases e), (fun hn => absurd i0 (Int.not_le.2 hn))⟩, ?_⟩
            refine (hh _ (by rfl) (by rfl)).trans ?_
            simp only [Buf.store, reaching, Bool.false_eq_true, if_false]
          | none =>
            rw [if_neg (by simp)]
            have hw' := File.write_open (f := {
                content := b.memBuf ++ p.take (b.memLimit - b.length).toNat
                pos := (b.memBuf ++ p.take (b.memLimit - b.length).toNat).length }) rfl p io.writeFail
            simp only [reaching, Option.map_none] at hw' ⊢
            rw [hw']
            refine ⟨_, rfl, ⟨h.limits, rfl, (fun e => by cases e), (fun hn => absurd i0 (Int.not_le.2 hn))⟩, ?_⟩
            refine (hh _ (by rfl) (by rfl)).trans ?_
            simp only [Buf.store, overwrite_end, Bool.false_eq_true, if_false]
            rw [List.length_append (bs := (match io.writeFail with | none => p | some j => List.take j p))]
    | some f =>
      have hnone : b.memLimit < 0 → False := fun hn => by have := (h.none hn).1; rw [hf] at this; cases this
      cases hc : f.closed with
      | true =>
        have hst : b.store = .shut := by simp only [Buf.store, hf, hc, if_true]
        have hw : f.write p io.writeFail = (f, 0, some .io) := by simp only [File.write, hc, if_true]
        rw [hst]
        simp only [hw, Nat.add_zero]
        refine ⟨_, rfl, ⟨h.limits, rfl, (fun e => by cases e), (fun hn => (hnone hn).elim)⟩, (hh _ (by rfl) (by rfl)).trans ?_⟩
        have e : t.held = { t.held with mem := b.memLimit, most := b.fileLimit, size := b.length, store := b.store } := by
          rw [← s1, ← s2, ← s3, ← s4]
        refine Eq.trans ?_ e.symm
        simp only [Buf.store, hf]
      | false =>
        have hst : b.store = .disk f.content f.pos := by simp only [Buf.store, hf, hc, Bool.false_eq_true, if_false]
        rw [hst]
        simp only [File.write_open hc p io.writeFail]
        exact ⟨_, rfl, ⟨h.limits, rfl, (fun e => by cases e), (fun hn => (hnone hn).elim)⟩, hh _ (by rfl) (by rfl)⟩

/-- Writing a chunk of the response body. -/
theorem held_write_resp {t : Tx} (h : t.respBody.InMem t.respBody.fileLimit t.respBody.fileLimit) (p : Bytes) (io : IOFault) :
    ∃ b', t.respBody.write p io = .ok (b', if (t.held.resp.length : Int) + p.length ≤ t.held.respMost then (p.length, none) else (0, some .outOfFileLimit)) ∧
      b'.InMem b'.fileLimit b'.fileLimit ∧ ({ t with respBody := b' } : Tx).held = take t.held (.appendResponseBody p io) := by
  have h1 := h.length
  have h2 := h.memLimit
  simp only [take]
  show ∃ b', _ = Res.ok (b', if (t.respBody.memBuf.length : Int) + p.length ≤ t.respBody.fileLimit then _ else _) ∧ _ ∧ _ =
    if (t.respBody.memBuf.length : Int) + p.length ≤ t.respBody.fileLimit then _ else _
  by_cases hfit : (t.respBody.memBuf.length : Int) + p.length ≤ t.respBody.fileLimit
  · rw [if_pos hfit, if_pos hfit]
    have hw : t.respBody.write p io = .ok ({ t.respBody with memBuf := t.respBody.memBuf ++ p, length := t.respBody.length + p.length }, p.length, none) := by
      simp only [Buf.write, h.readed, h.file]
      rw [if_neg (by simp), if_neg (by omega), if_neg (by omega)]
    exact ⟨_, hw, ⟨h.readed, h.file, by simp [h1], h2, rfl⟩, rfl⟩
  · rw [if_neg hfit, if_neg hfit]
    have hw : t.respBody.write p io = .ok (t.respBody, 0, some .outOfFileLimit) := by
      simp only [Buf.write, h.readed]
      rw [if_neg (by simp), if_pos (by omega)]
    exact ⟨_, hw, h, rfl⟩

theorem take_told {op : Op} (h1 : ∀ p io, op ≠ .appendRequestBody p io) (h2 : ∀ p io, op ≠ .appendResponseBody p io) (k : Held) :
    take k op = { k with facts := told k.facts op } := by
  cases op
  case appendRequestBody => exact absurd rfl (h1 _ _)
  case appendResponseBody => exact absurd rfl (h2 _ _)
  all_goals rfl

theorem held_follows (env : Env) {G : Int → Int → Prop} (pre : List Op) {op : Op}
    (hG : ∀ a c, G a c → 0 ≤ a ∨ ∀ p io, op = .appendRequestBody p io → c < p.length) : Follows (heldView env G) take pre op := by
  constructor
  · intro h1 h2 t hf
    have hf : HeldFine G t := hf
    obtain ⟨b1, b2, b3⟩ := hear_bodies t op
    refine ⟨⟨by rw [b1]; exact hf.req, by rw [b2]; exact hf.resp, by rw [b3]; exact hf.form, by rw [b3]; exact hf.parts⟩, ?_⟩
    show (t.hear op).held = take t.held op
    rw [take_told h1 h2]
    simp only [Tx.held, b1, b2, b3, hear_facts t op]
  · intro p io eop t hf
    have hf : HeldFine G t := hf
    subst eop
    obtain ⟨b', w1, w2, w3⟩ := held_write hf.req (p := p) ((hG _ _ hf.req.limits).imp id fun h => h p io rfl) io
    exact ⟨b', _, _, w1, ⟨w2, hf.resp, hf.form, hf.parts⟩, w3⟩
  · intro p io eop t hf
    have hf : HeldFine G t := hf
    subst eop
    obtain ⟨b', w1, w2, w3⟩ := held_write_resp hf.resp p io
    exact ⟨b', _, _, w1, ⟨hf.req, w2, hf.form, hf.parts⟩, w3⟩

/-! ### Variables -/

/-- The cursor is untouched. -/
structure SameCursor (t u : Tx) : Prop where
  cur : u.currentRule = t.currentRule
  next : u.nextRule = t.nextRule

theorem SameCursor.refl (t : Tx) : SameCursor t t := ⟨rfl, rfl⟩

theorem SameCursor.trans {t u v : Tx} (h : SameCursor t u) (h' : SameCursor u v) : SameCursor t v := ⟨h'.cur.trans h.cur, h'.next.trans h.next⟩

theorem refuse_nil_or (es : List Bytes) (m : Mach Held) : (es = [] ∧ refuse es m = m) ∨ ((refuse es m).aborted = true ∧ (refuse es m).verdict.disruptive = true) := by
  induction es generalizing m with
  | nil => exact .inl ⟨rfl, rfl⟩
  | cons e es ih =>
    refine .inr ?_
    rw [refuse]
    rcases ih (say heldSight (b!"abort process with error " ++ e)
      { m with aborted := true, verdict := { m.verdict with status := 413, disruptive := true } }) with ⟨_, e⟩ | h
    · rw [e]; exact ⟨rfl, rfl⟩
    · exact h

theorem refuse_keeps (es : List Bytes) (m : Mach Held) : (refuse es m).known = m.known ∧ (refuse es m).rule = m.rule := by
  induction es generalizing m with
  | nil => exact ⟨rfl, rfl⟩
  | cons e es ih => rw [refuse]; exact ih _

theorem refuse_known (es : List Bytes) (m : Mach Held) {k : Held} (hk : k.facts = m.known.facts) :
    refuse es { m with known := k } = { refuse es m with known := k } := by
  induction es generalizing m with
  | nil => rfl
  | cons e es ih =>
    rw [refuse, refuse, ← ih _ (by exact hk)]
    simp only [say, heldSight, hk]

theorem refuse_append (a b : List Bytes) (m : Mach Held) : refuse b (refuse a m) = refuse (a ++ b) m := by
  induction a generalizing m with
  | nil => rfl
  | cons e a ih => exact ih _

theorem bind_returns {α β : Type} {x : Ending α} {f : α → Ending β} {b : β} (h : x.bind f = .returns b) :
    ∃ a, x = .returns a ∧ f a = .returns b := by
  cases x with
  | returns a => exact ⟨a, rfl, h⟩
  | panics => cases h
  | hangs => cases h

theorem askUrlencoded_facts (lib : Lib) (k : Held) : (askUrlencoded lib k).2.1.facts = k.facts := by
  rw [askUrlencoded]
  split <;> rfl

theorem askUrlencoded_memory {lib : Lib} {k : Held} {b : Bytes} (h1 : k.form = .unread) (h2 : k.store = .memory b) :
    askUrlencoded lib k = (if (lib.parseQuery b).2 = none then (lib.parseQuery b).1 else [], { k with form := .read (lib.parseQuery b).1 }, []) := by
  obtain ⟨a1, a2, a3, a4, a5, a6, a7, a8, a9⟩ := k
  have h1 : a8 = .unread := h1
  have h2 : a6 = .memory b := h2
  subst h1 h2
  rfl

theorem askUrlencoded_spilled {lib : Lib} {k : Held} {s : Store} (h1 : k.form = .unread) (h2 : ∀ b, k.store ≠ .memory b) (h3 : k.store = s) :
    askUrlencoded lib k = ([], { k with form := .refused, store := s.readTo 0 }, [b!"out of memory limit"]) := by
  obtain ⟨a1, a2, a3, a4, a5, a6, a7, a8, a9⟩ := k
  have h1 : a8 = .unread := h1
  have h3 : a6 = s := h3
  subst h1 h3
  cases a6 with
  | memory b => exact absurd rfl (h2 b)
  | disk c n => rfl
  | shut => rfl

theorem askMultipart_facts {lib : Lib} {n : Int} {k : Held} {a} (h : askMultipart lib n k = .returns a) : a.2.1.facts = k.facts := by
  rw [askMultipart] at h
  split at h
  · cases h; rfl
  · cases h; rfl
  · cases h; rfl
  · split at h <;> cases h <;> rfl

theorem askForm_facts {lib : Lib} {sw : Switches} {k : Held} {a} (h : askForm lib sw k = .returns a) : a.2.1.facts = k.facts := by
  rw [askForm] at h
  split at h
  · cases h; exact askUrlencoded_facts lib k
  · split at h
    · exact askMultipart_facts h
    · cases h; rfl

theorem ask_plain {lib : Lib} {sw : Switches} {k : Held} {tk : VarTok} (hb : readsBody tk = false) :
    ask lib sw k tk = .returns (fun P vals => Lists lib k.facts P vals tk, k, []) := by
  cases tk <;> first | (cases hb; done) | rfl

theorem ask_facts {lib : Lib} {sw : Switches} {k : Held} {tk : VarTok} {a} (h : ask lib sw k tk = .returns a) : a.2.1.facts = k.facts := by
  by_cases hrb : readsBody tk = false
  · rw [ask_plain hrb] at h; cases h; rfl
  · cases tk <;> first | (exact absurd rfl hrb) | skip
    case requestBody =>
      simp only [ask] at h
      cases h
      split
      · split <;> rfl
      · rfl
    case responseBody => cases h; rfl
    case argsPost => obtain ⟨b, h1, h2⟩ := bind_returns (x := askForm lib sw k) h; cases h2; exact askForm_facts h1
    case args => obtain ⟨b, h1, h2⟩ := bind_returns (x := askForm lib sw k) h; cases h2; exact askForm_facts h1
    case argsPostNames =>
      obtain ⟨⟨b, c⟩, h1, h2⟩ := bind_returns (x := askForm lib sw k) h
      cases b <;> cases h2
      exact askForm_facts h1
    case argsNames =>
      obtain ⟨⟨b, c⟩, h1, h2⟩ := bind_returns (x := askForm lib sw k) h
      cases b <;> cases h2
      exact askForm_facts h1

theorem askAll_facts {lib : Lib} {sw : Switches} {vs : List PVar} {o : List (VarTok × Bool)} : ∀ {k : Held} {a}, askAll lib sw vs o k = .returns a →
    a.2.1.facts = k.facts := by
  induction o with
  | nil => intro k a h; cases h; rfl
  | cons v o ih =>
    intro k a h
    obtain ⟨b, h1, h2⟩ := bind_returns (x := ask lib sw k v.1) h
    obtain ⟨c, h3, h4⟩ := bind_returns h2
    cases h4
    exact (ih h3).trans (ask_facts h1)

theorem body_readable {l : Limits} {t : Tx} : HasBody l.requestBodyAccess t.held ↔ BodyReadable l t := .rfl

theorem held_declared (lib : Lib) (t : Tx) : declared lib { facts := t.held.facts } = mediaType lib t := declared_media lib t

theorem held_shown {lib : Lib} {l : Limits} {t : Tx} : HasShown lib l.requestBodyAccess t.held ↔ BodyReadable l t ∧ Urlencoded lib t := by
  simp only [HasShown, body_readable, Urlencoded, ← declared_media, headerGet_first, declared]
  refine and_congr_right fun _ => ?_
  show (∃ c l, firstValue t.reqHeader _ = _ ∧ _) ↔ (firstValue t.reqHeader _).getD [] ≠ [] ∧
    (match firstValue t.reqHeader _ with | some (c :: l) => _ | _ => _) = _
  cases firstValue t.reqHeader b!"Content-Type" with
  | none => simp
  | some v =>
    cases v with
    | nil => simp
    | cons x xs =>
      constructor
      · rintro ⟨c, l, h1, h2⟩; cases h1; exact ⟨by simp, h2⟩
      · exact fun h => ⟨_, _, rfl, h.2⟩

theorem spilled_request_body (env : Env) (t : Tx) (h : BodyReadable env.limits t) (hu : Urlencoded env.lib t) (hm : t.reqBody.fileBuf ≠ none) :
    Var.requestBody.fetch env t = .ok ([], t.readReq.abortWithError 413 errOutOfMemLimit) := by
  obtain ⟨h1, h2, h3⟩ := h
  obtain ⟨h4, h5⟩ := hu
  have h3' : (t.reqBody.len == 0) = false := by simpa using h3
  simp only [Spec.mediaType, if_neg h4] at h5
  have e : t.reqBody.string = (t.reqBody.string.1, t.reqBody.string.2) := rfl
  rw [string_spilled hm] at e
  have key : fetchRequestBody env t = ([], t.readReq.abortWithError 413 errOutOfMemLimit) := by
    simp only [fetchRequestBody, (hasBodyMethod_iff _).2 h2, h1, h3', h4, h5]
    rw [e]
    simp only [Tx.readReq, Bool.not_true, Bool.or_self, Bool.false_eq_true, if_false, ne_eq, not_true_eq_false]
  simp only [Var.fetch, key]

theorem held_boundary (env : Env) (t : Tx) : boundary env.lib t.held.facts = boundaryOf env t := by
  simp only [boundary, boundaryOf, headerGet_first]
  show (env.lib.mediaType (match firstValue t.reqHeader _ with | some (c :: l) => _ | _ => _)).2 = _
  cases firstValue t.reqHeader b!"Content-Type" with
  | none => rfl
  | some v => cases v <;> simp

theorem held_content (t : Tx) : t.held.store.content = t.reqBody.content := by
  show t.reqBody.store.content = _
  rw [Buf.store, Buf.content]
  cases t.reqBody.fileBuf with
  | none => rfl
  | some f => cases hc : f.closed <;> simp [hc, Store.content]

/-- What the engine allows. -/
def Limits.switches (l : Limits) : Switches where
  req := l.requestBodyAccess
  resp := l.responseBodyAccess
  inMem := l.requestBodyInMem

section
variable {env : Env} {G : Int → Int → Prop} {h : List Op} {m : Mach Held} {t : Tx}

/-- Aborting because a body is too large. -/
theorem held_refuse (ha : Agree (heldView env G) h m t) (e : Bytes) : Agree (heldView env G) h (refuse [e] m) (t.abortWithError 413 e) := by
  have hv := ha.verdict
  have hmid : Agree (heldView env G) h { m with aborted := true, verdict := { m.verdict with status := 413, disruptive := true } }
      (({ t with abort := true } : Tx).setIntervention { ({ t with abort := true } : Tx).intervention with status := 413, disruptive := true }) := by
    refine ha.congr rfl rfl ha.phase ?_ ha.chosen rfl ha.low ha.high
    simp only [Tx.setIntervention, Tx.intervention, Option.getD_some]
    rw [← hv]
    rfl
  exact hmid.say (held_sees env G) _

/-- The transaction after moving in the request body. -/
theorem held_moved (ha : Agree (heldView env G) h m t) {b : Buf} {s : Store} (hb : b.Sound G) (hs : b.store = s) (hsame : t.reqBody.SameBody b) :
    Agree (heldView env G) h { m with known := { m.known with store := s } } { t with reqBody := b } := by
  have hf : HeldFine G t := ha.fine
  have hk : t.held = m.known := ha.know
  refine ⟨?_, ⟨hb, hf.resp, hf.form, hf.parts⟩, ha.phase, ha.verdict, ha.chosen, ha.aborted, ha.low, ha.high⟩
  show ({ t with reqBody := b } : Tx).held = _
  simp only [← hk, Tx.held, hs, hsame.length, hsame.memLimit, hsame.fileLimit]
  rfl

/-- The transaction after reading the request body. -/
theorem held_read (ha : Agree (heldView env G) h m t) :
    Agree (heldView env G) h { m with known := { m.known with store := m.known.store.readTo 0 } } t.readReq := by
  have hf : HeldFine G t := ha.fine
  have hk : t.held = m.known := ha.know
  have hst : m.known.store = t.reqBody.store := by rw [← hk]; rfl
  rw [hst]
  exact held_moved ha hf.req.read.1 hf.req.read.2 t.reqBody.initRead_same

/-- The transaction after caching the arguments of a form. -/
theorem held_cache (ha : Agree (heldView env G) h m t) {v : Parsed} {e : Option Err} (hv : v = .nil ∨ ∃ g, v = .values g) :
    Agree (heldView env G) h { m with known := { m.known with form := formIn (some v) } } { t.setCache .urlencoded v with reqBodyError := e } := by
  have hf : HeldFine G t := ha.fine
  have hc := setCache_same t .urlencoded v
  have hc' := setCache_other t (k := .urlencoded) (k' := .multipart) v (by decide)
  have hk : t.held = m.known := ha.know
  refine ⟨?_, ⟨hf.req, hf.resp, fun r hr => ?_, fun r hr => ?_⟩, ha.phase, ha.verdict, ha.chosen, ha.aborted, ha.low, ha.high⟩
  · show ({ t.setCache .urlencoded v with reqBodyError := e } : Tx).held = _
    rw [← hk]
    show ({ t.held with
      form := formIn ((t.setCache .urlencoded v).cache.lookup .urlencoded)
      parts := formIn ((t.setCache .urlencoded v).cache.lookup .multipart) } : Held) = _
    rw [hc, hc']
    rfl
  · have hr : (t.setCache .urlencoded v).cache.lookup .urlencoded = some r := hr
    rw [hc] at hr
    cases hr
    exact hv
  · have hr : (t.setCache .urlencoded v).cache.lookup .multipart = some r := hr
    rw [hc'] at hr
    exact hf.parts r hr

/-- The transaction after caching the values of a multipart body. -/
theorem held_cache_parts (ha : Agree (heldView env G) h m t) {v : Parsed} {e : Option Err} (hv : v = .nil ∨ ∃ f, v = .form f) :
    Agree (heldView env G) h { m with known := { m.known with parts := formIn (some v) } } { t.setCache .multipart v with reqBodyError := e } := by
  have hf : HeldFine G t := ha.fine
  have hc := setCache_same t .multipart v
  have hc' := setCache_other t (k := .multipart) (k' := .urlencoded) v (by decide)
  have hk : t.held = m.known := ha.know
  refine ⟨?_, ⟨hf.req, hf.resp, fun r hr => ?_, fun r hr => ?_⟩, ha.phase, ha.verdict, ha.chosen, ha.aborted, ha.low, ha.high⟩
  · show ({ t.setCache .multipart v with reqBodyError := e } : Tx).held = _
    rw [← hk]
    show ({ t.held with
      form := formIn ((t.setCache .multipart v).cache.lookup .urlencoded)
      parts := formIn ((t.setCache .multipart v).cache.lookup .multipart) } : Held) = _
    rw [hc, hc']
    rfl
  · have hr : (t.setCache .multipart v).cache.lookup .urlencoded = some r := hr
    rw [hc'] at hr
    exact hf.form r hr
  · have hr : (t.setCache .multipart v).cache.lookup .multipart = some r := hr
    rw [hc] at hr
    cases hr
    exact hv

/-- What reading the arguments returns, for what is shown of them. -/
inductive Told : Option GoMap → Option BodyType × Parsed → Prop where
  | form (g : GoMap) : Told (some g) (some .urlencoded, .values g)
  | parts (g : GoMap) : Told (some g) (some .multipart, .form (some g))
  | nothing : Told (some []) (none, .nil)
  | broken : Told none (some .multipart, .form none)

/-- Asking for the arguments of a form. -/
theorem held_urlencoded (ha : Agree (heldView env G) h m t) {bd : Bytes} (hu : b!"application/x-www-form-urlencoded" <+: mediaType env.lib t) :
    ∃ u x, Agree (heldView env G) h (refuse (askUrlencoded env.lib m.known).2.2 { m with known := (askUrlencoded env.lib m.known).2.1 }) u ∧
      SameCursor t u ∧ requestBodyLoop env (mediaType env.lib t) bd [.urlencoded, .multipart] t = .ok (u, x) ∧
      Told (some (askUrlencoded env.lib m.known).1) x := by
  have hf : HeldFine G t := ha.fine
  have hk : t.held = m.known := ha.know
  have hfm : m.known.form = formIn (t.cache.lookup .urlencoded) := by rw [← hk]; rfl
  have hst : m.known.store = t.reqBody.store := by rw [← hk]; rfl
  have hrd := held_read ha
  rw [hst] at hrd
  cases hc : t.cache.lookup .urlencoded with
  | some r =>
    rw [hc] at hfm
    rw [loop_cached hu hc]
    rcases hf.form r hc with rfl | ⟨g, rfl⟩
    · have e : askUrlencoded env.lib m.known = ([], m.known, []) := by
        rw [askUrlencoded, show m.known.form = .refused from hfm]
      rw [e]
      exact ⟨t, _, ha, .refl t, rfl, .nothing⟩
    · have e : askUrlencoded env.lib m.known = (g, m.known, []) := by
        rw [askUrlencoded, show m.known.form = .read g from hfm]
      rw [e]
      exact ⟨t, _, ha, .refl t, by simp, .form g⟩
  | none =>
    rw [hc] at hfm
    cases hb : t.reqBody.fileBuf with
    | some f =>
      have e : askUrlencoded env.lib m.known =
          ([], { m.known with form := .refused, store := t.reqBody.store.readTo 0 }, [b!"out of memory limit"]) :=
        askUrlencoded_spilled hfm (by rw [hst]; exact fun b e => by simp only [Buf.store, hb] at e; split at e <;> cases e) hst
      rw [e, loop_url_spilled hu hc (by rw [hb]; simp)]
      exact ⟨_, _, held_refuse (held_cache (e := some errOutOfMemLimit) hrd (.inl rfl)) _, ⟨rfl, rfl⟩, rfl, .nothing⟩
    | none =>
      have hs : t.reqBody.store = .memory t.reqBody.memBuf := by simp only [Buf.store, hb]
      have hrd : Agree (heldView env G) h m t.readReq := by
        rw [hs, Store.readTo, ← hs, ← hst] at hrd
        exact hrd
      have e : askUrlencoded env.lib m.known = (if (env.lib.parseQuery t.reqBody.memBuf).2 = none then (env.lib.parseQuery t.reqBody.memBuf).1 else [],
          { m.known with form := .read (env.lib.parseQuery t.reqBody.memBuf).1 }, []) := askUrlencoded_memory hfm (hst.trans hs)
      rw [e]
      cases hq : (env.lib.parseQuery t.reqBody.memBuf).2 with
      | none =>
        rw [loop_url_ok hu hc hb hq]
        exact ⟨_, _, held_cache (e := t.reqBodyError) hrd (.inr ⟨(env.lib.parseQuery t.reqBody.memBuf).1, rfl⟩), ⟨rfl, rfl⟩, rfl,
          by rw [if_pos rfl]; exact .form _⟩
      | some er =>
        rw [loop_url_err hu hc hb hq]
        exact ⟨_, _, held_cache (e := some er) hrd (.inr ⟨(env.lib.parseQuery t.reqBody.memBuf).1, rfl⟩), ⟨rfl, rfl⟩, rfl,
          by rw [if_neg (by simp)]; exact .nothing⟩

/-- Asking for the values of a multipart body. -/
theorem held_multipart (ha : Agree (heldView env G) h m t) (hu : b!"multipart/" <+: mediaType env.lib t) :
    match askMultipart env.lib env.limits.requestBodyInMem m.known with
    | .returns a => ∃ u x, Agree (heldView env G) h (refuse a.2.2 { m with known := a.2.1 }) u ∧ SameCursor t u ∧
        requestBodyLoop env (mediaType env.lib t) (boundaryOf env t) [.urlencoded, .multipart] t = .ok (u, x) ∧ Told a.1 x
    | .panics => False
    | .hangs => requestBodyLoop env (mediaType env.lib t) (boundaryOf env t) [.urlencoded, .multipart] t = .fuel := by
  have hf : HeldFine G t := ha.fine
  have hk : t.held = m.known := ha.know
  have hfm : m.known.parts = formIn (t.cache.lookup .multipart) := by rw [← hk]; rfl
  have hst : m.known.store = t.reqBody.store := by rw [← hk]; rfl
  have hco : m.known.store.content = t.reqBody.content := by rw [← hk]; exact held_content t
  have hbd : boundary env.lib m.known.facts = boundaryOf env t := by rw [← hk]; exact held_boundary env t
  have hrd : ∀ n, Agree (heldView env G) h { m with known := { m.known with store := m.known.store.formTo n } } { t with reqBody := t.reqBody.afterForm n } := by
    intro n
    rw [hst]
    exact held_moved ha (hf.req.afterForm n).1 (hf.req.afterForm n).2 (t.reqBody.afterForm_same n)
  rw [loop_multi hu]
  cases hc : t.cache.lookup .multipart with
  | some r =>
    rw [hc] at hfm
    rcases hf.parts r hc with rfl | ⟨g, rfl⟩
    · have e : askMultipart env.lib env.limits.requestBodyInMem m.known = .returns (some [], m.known, []) := by
        rw [askMultipart, show m.known.parts = .refused from hfm]
      rw [e]
      exact ⟨t, _, ha, .refl t, rfl, .nothing⟩
    · cases g with
      | none =>
        have e : askMultipart env.lib env.limits.requestBodyInMem m.known = .returns (none, m.known, []) := by
          rw [askMultipart, show m.known.parts = .broken from hfm]
        rw [e]
        exact ⟨t, _, ha, .refl t, by simp, .broken⟩
      | some g =>
        have e : askMultipart env.lib env.limits.requestBodyInMem m.known = .returns (some g, m.known, []) := by
          rw [askMultipart, show m.known.parts = .read g from hfm]
        rw [e]
        exact ⟨t, _, ha, .refl t, by simp, .parts g⟩
  | none =>
    rw [hc] at hfm
    rw [askMultipart, show m.known.parts = .unread from hfm, hco, hbd]
    rcases hr : env.lib.readForm t.reqBody.content (boundaryOf env t) env.limits.requestBodyInMem with ⟨res, n⟩
    cases res with
    | ok g =>
      exact ⟨_, _, held_cache_parts (e := t.reqBodyError) (hrd n) (.inr ⟨some g, rfl⟩), ⟨rfl, rfl⟩, rfl, .parts g⟩
    | tooLarge =>
      exact ⟨_, _, held_refuse (held_cache_parts (e := some errMessageTooLarge) (hrd n) (.inl rfl)) _, ⟨rfl, rfl⟩, rfl, .nothing⟩
    | err e =>
      exact ⟨_, _, held_cache_parts (e := some e) (hrd n) (.inr ⟨none, rfl⟩), ⟨rfl, rfl⟩, rfl, .nothing⟩
    | hang => rfl

/-- Asking for the arguments in the request body. -/
theorem held_form (ha : Agree (heldView env G) h m t) :
    match askForm env.lib env.limits.switches m.known with
    | .returns a => ∃ u x, Agree (heldView env G) h (refuse a.2.2 { m with known := a.2.1 }) u ∧ SameCursor t u ∧
        requestBodyParse env t = .ok (u, x) ∧ Told a.1 x
    | .panics => False
    | .hangs => requestBodyParse env t = .fuel := by
  have hf : HeldFine G t := ha.fine
  have hk : t.held = m.known := ha.know
  have htype : ∀ type, HasType env.lib env.limits.switches.req m.known type ↔ BodyReadable env.limits t ∧ type <+: mediaType env.lib t := by
    intro type
    rw [← hk, HasType, held_declared]
    exact and_congr_left fun _ => body_readable
  rw [askForm]
  by_cases h1 : HasType env.lib env.limits.switches.req m.known b!"application/x-www-form-urlencoded"
  · rw [if_pos h1]
    obtain ⟨hr, hu⟩ := (htype _).1 h1
    rw [requestBodyParse_open hr]
    exact held_urlencoded ha hu
  · rw [if_neg h1]
    by_cases h2 : HasType env.lib env.limits.switches.req m.known b!"multipart/"
    · rw [if_pos h2]
      obtain ⟨hr, hu⟩ := (htype _).1 h2
      rw [requestBodyParse_open hr]
      exact held_multipart ha hu
    · rw [if_neg h2]
      refine ⟨t, _, ha, .refl t, ?_, .nothing⟩
      by_cases hr : BodyReadable env.limits t
      · rw [requestBodyParse_open hr]
        exact loop_other (fun hu => h1 ((htype _).2 ⟨hr, hu⟩)) (fun hu => h2 ((htype _).2 ⟨hr, hu⟩))
      · exact requestBodyParse_closed hr

theorem held_args (ha : Agree (heldView env G) h m t) (f : Filter) :
    match askForm env.lib env.limits.switches m.known with
    | .returns a => ∃ u, Agree (heldView env G) h (refuse a.2.2 { m with known := a.2.1 }) u ∧ SameCursor t u ∧
        fetchArgsPost env f t = .ok (f.fetch env.ord (a.1.getD []), u) ∧
        fetchArgsPostNames env f t = match a.1 with
          | some g => .ok (f.names env.ord g, u)
          | none => .panic
    | .panics => False
    | .hangs => fetchArgsPost env f t = .fuel ∧ fetchArgsPostNames env f t = .fuel := by
  have hh := held_form ha
  cases hq : askForm env.lib env.limits.switches m.known with
  | panics => rw [hq] at hh; exact hh
  | hangs =>
    rw [hq] at hh
    simp only [fetchArgsPost, fetchArgsPostNames, hh]
    exact ⟨rfl, rfl⟩
  | returns a =>
    rw [hq] at hh
    obtain ⟨u, x, h1, h2, h3, h4⟩ := hh
    refine ⟨u, h1, h2, ?_⟩
    simp only [fetchArgsPost, fetchArgsPostNames, h3, Res.bind_ok']
    obtain ⟨a1, a2⟩ := a
    have h4 : Told a1 x := h4
    cases h4 with
    | form g => exact ⟨rfl, rfl⟩
    | parts g => exact ⟨rfl, rfl⟩
    | nothing => exact ⟨by rw [Option.getD_some, (fetch_nil f env.ord).1], by simp only [(fetch_nil f env.ord).2]⟩
    | broken => exact ⟨by rw [Option.getD_none, (fetch_nil f env.ord).1], rfl⟩

theorem ask_perm {lib : Lib} {sw : Switches} {k : Held} {tk : VarTok} {a} {P : Bytes → Prop} {vals vals' : List Bytes} (ha : ask lib sw k tk = .returns a)
    (h : a.1 P vals) (h' : a.1 P vals') : vals.Perm vals' := by
  by_cases hrb : readsBody tk = false
  · rw [ask_plain hrb] at ha
    cases ha
    exact Lists.perm (show Lists lib k.facts P vals tk from h) (show Lists lib k.facts P vals' tk from h')
  · cases tk <;> first | (exact absurd rfl hrb) | skip
    case requestBody =>
      have same : ∃ l, ∀ vals, a.1 P vals → vals = l := by
        simp only [ask] at ha
        cases ha
        split
        · split
          · exact ⟨_, fun _ h => h⟩
          · exact ⟨_, fun _ h => h⟩
        · exact ⟨_, fun _ h => h⟩
      obtain ⟨l, hl⟩ := same
      rw [hl _ h, hl _ h']
    case responseBody => cases ha; exact .of_eq ((show vals = _ from h).trans (show vals' = _ from h').symm)
    case argsPost => obtain ⟨b, h1, h2⟩ := bind_returns (x := askForm lib sw k) ha; cases h2; exact Spec.ValuesIn.perm h h'
    case args => obtain ⟨b, h1, h2⟩ := bind_returns (x := askForm lib sw k) ha; cases h2; exact Spec.ValuesIn.perm h h'
    case argsPostNames =>
      obtain ⟨⟨b, c⟩, h1, h2⟩ := bind_returns (x := askForm lib sw k) ha
      cases b <;> cases h2
      exact Spec.NamesIn.perm h h'
    case argsNames =>
      obtain ⟨⟨b, c⟩, h1, h2⟩ := bind_returns (x := askForm lib sw k) ha
      cases b <;> cases h2
      obtain ⟨a, b, h1, h2, h3⟩ := h
      obtain ⟨a', b', g1, g2, g3⟩ := h'
      exact h3.trans (((Spec.NamesIn.perm h1 g1).append (Spec.NamesIn.perm h2 g2)).trans g3.symm)

/-- Asking for a variable. -/
theorem held_fetch (ha : Agree (heldView env G) h m t) {tk : VarTok} {f : Filter} {x : Var} (hx : variableOf f tk = some x) {P : Bytes → Prop}
    (hP : Selectable tk = true → ∀ k, f.keep k = true ↔ P k) :
    match ask env.lib env.limits.switches m.known tk with
    | .returns a => ∃ vals u, x.fetch env t = .ok (vals, u) ∧ SameCursor t u ∧ a.1 P vals ∧
        Agree (heldView env G) h (refuse a.2.2 { m with known := a.2.1 }) u
    | .panics => x.fetch env t = .panic
    | .hangs => x.fetch env t = .fuel := by
  have hf : HeldFine G t := ha.fine
  have hk : t.held = m.known := ha.know
  have hfacts : m.known.facts = t.facts := by rw [← hk]; rfl
  by_cases hrb : readsBody tk = false
  · obtain ⟨vals, h1, h2⟩ := fetch_lists hrb hx hP t
    rw [ask_plain hrb]
    exact ⟨vals, t, h1, .refl t, by rw [hfacts]; exact h2, ha⟩
  · cases tk <;> first | (exact absurd rfl hrb) | skip
    case requestBody =>
      cases hx
      have hsh : HasShown env.lib env.limits.switches.req m.known ↔ BodyReadable env.limits t ∧ Urlencoded env.lib t := by
        rw [← hk]; exact held_shown
      have hst : m.known.store = t.reqBody.store := by rw [← hk]; rfl
      have hrd := held_read ha
      rw [hst] at hrd
      simp only [ask]
      by_cases hs : HasShown env.lib env.limits.switches.req m.known
      · obtain ⟨hr, hu⟩ := hsh.1 hs
        rw [if_pos hs]
        cases hb : t.reqBody.fileBuf with
        | none =>
          have hs : t.reqBody.store = .memory t.reqBody.memBuf := by simp only [Buf.store, hb]
          rw [hs, Store.readTo, ← hs, ← hst] at hrd
          rw [hst, hs]
          exact ⟨_, _, C44_request_body env t hr hu hb, ⟨rfl, rfl⟩, rfl, hrd⟩
        | some g =>
          rw [hst]
          have hs : ∀ b, t.reqBody.store ≠ .memory b := fun b e => by simp only [Buf.store, hb] at e; split at e <;> cases e
          generalize t.reqBody.store = s at hrd hs
          cases s with
          | memory b => exact absurd rfl (hs b)
          | disk c n => exact ⟨[], _, spilled_request_body env t hr hu (by rw [hb]; simp), ⟨rfl, rfl⟩, rfl, held_refuse hrd _⟩
          | shut =>
          exact ⟨[], _, spilled_request_body env t hr hu (by rw [hb]; simp), ⟨rfl, rfl⟩, rfl, held_refuse hrd _⟩
      · rw [if_neg hs]
        refine ⟨[], t, ?_, .refl t, rfl, ha⟩
        by_cases hr : BodyReadable env.limits t
        · exact (C44_content_type env t).1 fun hu => hs (hsh.2 ⟨hr, hu⟩)
        · exact (C44_gate env t hr).1
    case responseBody =>
      cases hx
      have hresp : m.known.resp = t.respBody.memBuf := by rw [← hk]; rfl
      obtain ⟨r1, r2⟩ := hf.resp.read
      simp only [ask, hresp]
      by_cases hr : env.limits.responseBodyAccess = true ∧ t.respBody.memBuf ≠ []
      · have hn : (t.respBody.len == 0) = false := by
          simp only [Buf.len, hf.resp.length, beq_eq_false_iff_ne, ne_eq, List.length_eq_zero_iff]; exact hr.2
        have e : t.respBody.string = (t.respBody.string.1, t.respBody.string.2) := rfl
        rw [string_mem hf.resp.file] at e
        have hfl : t.respBody.string.1.fileLimit = t.respBody.fileLimit := r1.fileLimit
        have ek : ({ t with respBody := t.respBody.string.1 } : Tx).held = t.held := by
          show ({ t.held with respMost := t.respBody.string.1.fileLimit, resp := t.respBody.string.1.memBuf } : Held) = t.held
          rw [hfl, r2]; rfl
        refine ⟨[t.respBody.memBuf], { t with respBody := t.respBody.string.1 }, ?_, ⟨rfl, rfl⟩, (if_pos hr).symm, ?_⟩
        · simp only [Var.fetch, fetchResponseBody, hr.1, hn]
          rw [e]
          simp only [Bool.not_true, Bool.or_self, Bool.false_eq_true, if_false]
        · exact ⟨ek.trans hk, ⟨hf.req, by
            show t.respBody.string.1.InMem t.respBody.string.1.fileLimit t.respBody.string.1.fileLimit
            rw [hfl]; exact r1, hf.form, hf.parts⟩, ha.phase, ha.verdict, ha.chosen, ha.aborted, ha.low, ha.high⟩
      · refine ⟨[], t, ?_, .refl t, (if_neg hr).symm, ha⟩
        simp only [Var.fetch, fetchResponseBody]
        rw [if_pos]
        simp only [Bool.or_eq_true, Bool.not_eq_true', beq_iff_eq, Buf.len, hf.resp.length, List.length_eq_zero_iff]
        cases hacc : env.limits.responseBodyAccess with
        | false => exact .inl rfl
        | true => exact .inr (Classical.byContradiction fun hc => hr ⟨hacc, hc⟩)
    case argsPost =>
      have hh := held_args ha f
      cases hx
      rw [ask]
      cases hq : askForm env.lib env.limits.switches m.known with
      | panics => rw [hq] at hh; exact hh.elim
      | hangs => rw [hq] at hh; exact hh.1
      | returns a =>
        rw [hq] at hh
        obtain ⟨u, h1, h2, h3, h4⟩ := hh
        exact ⟨_, u, h3, h2, ⟨f.keep, hP rfl, f.fetch_perm _ _⟩, h1⟩
    case argsPostNames =>
      have hh := held_args ha f
      cases hx
      rw [ask]
      cases hq : askForm env.lib env.limits.switches m.known with
      | panics => rw [hq] at hh; exact hh.elim
      | hangs => rw [hq] at hh; exact hh.2
      | returns a =>
        rw [hq] at hh
        obtain ⟨u, h1, h2, h3, h4⟩ := hh
        obtain ⟨a1, a2⟩ := a
        cases a1 with
        | none => exact h4
        | some g => exact ⟨_, u, h4, h2, ⟨f.names_nodup _ _, fun k => by rw [f.mem_names, hP rfl]⟩, h1⟩
    case args =>
      have hh := held_args ha f
      cases hx
      rw [ask]
      cases hq : askForm env.lib env.limits.switches m.known with
      | panics => rw [hq] at hh; exact hh.elim
      | hangs => rw [hq] at hh; exact (by simp only [Var.fetch, hh.1]; rfl : Var.fetch env (.args f f) t = .fuel)
      | returns a =>
        rw [hq] at hh
        obtain ⟨u, h1, h2, h3, h4⟩ := hh
        refine ⟨fetchArgsGet env f t ++ f.fetch env.ord (a.1.getD []), u,
          by simp only [Var.fetch, h3, Res.bind_ok'], h2, ⟨f.keep, hP rfl, ?_⟩, h1⟩
        rw [hfacts, List.filter_append, List.flatMap_append]
        exact (get_values env f t).1.append (f.fetch_perm _ _)
    case argsNames =>
      have hh := held_args ha f
      cases hx
      rw [ask]
      cases hq : askForm env.lib env.limits.switches m.known with
      | panics => rw [hq] at hh; exact hh.elim
      | hangs => rw [hq] at hh; exact (by simp only [Var.fetch, hh.2]; rfl : Var.fetch env (.argsNames f f) t = .fuel)
      | returns a =>
        rw [hq] at hh
        obtain ⟨u, h1, h2, h3, h4⟩ := hh
        obtain ⟨a1, a2⟩ := a
        cases a1 with
        | none => exact (by simp only [Var.fetch, h4]; rfl : Var.fetch env (.argsNames f f) t = .panic)
        | some g =>
          obtain ⟨_, g1, g2⟩ := get_values env f t
          refine ⟨fetchArgsGetNames env f t ++ f.names env.ord g, u,
            by simp only [Var.fetch, h4, Res.bind_ok'], h2, ⟨_, _, ⟨g1, fun k => ?_⟩, ⟨f.names_nodup _ _, fun k => by rw [f.mem_names, hP rfl]⟩, .refl _⟩, h1⟩
          rw [g2, hP rfl, hfacts]; rfl

/-! ### Conditions and chains -/

/-- The loaded rule is the written one, its variables in the order given. -/
structure LinkMeans (lib : Lib) (l : Link) (r : Rule) : Prop where
  rule : RuleMeans lib l.rule r
  order : Pairs (Carries lib.rx l.rule.vars) l.order r.vars

/-- The loaded chain is the written one. -/
def LinksMean (lib : Lib) (c : List Link) (r : Rule) : Prop :=
  ∃ l ls r0 ss, c = l :: ls ∧ LinkMeans lib l r0 ∧ Pairs (LinkMeans lib) ls ss ∧ r = { r0 with subRules := ss }

/-- Asking for the variables of a rule. -/
theorem held_fetches {vs : List PVar} {ks : List (VarTok × Bool)} {xs : List Var} (hp : Pairs (Carries env.lib.rx vs) ks xs) :
    ∀ {m : Mach Held} {t : Tx}, Agree (heldView env G) h m t →
    match askAll env.lib env.limits.switches vs ks m.known with
    | .returns a => ∃ ys u, FetchedValues env xs t ys u ∧ SameCursor t u ∧ (∀ y, (∃ s, (s, y) ∈ ys) ↔ a.1 y) ∧
        Agree (heldView env G) h (refuse a.2.2 { m with known := a.2.1 }) u
    | .panics => ∀ r, fetchVars env r xs t = .panic
    | .hangs => ∀ r, fetchVars env r xs t = .fuel := by
  induction hp with
  | nil => intro m t ha; exact ⟨[], t, .nil, .refl t, fun y => ⟨(fun ⟨_, h⟩ => by cases h), fun h => False.elim h⟩, ha⟩
  | @cons k x ks xs hc _ ih =>
    intro m t ha
    obtain ⟨f, y, hsel, hy, hxy⟩ := hc
    have hfe := held_fetch ha hy (P := Picked env.lib.rx (selectors vs k.1 k.2)) (fun hs => keep_picked (hsel hs))
    have hval : ∀ r : Res (List Bytes × Tx), y.fetch env t = r →
        x.fetch env t = r.bind fun p => .ok (if k.2 then [itoa p.1.length] else p.1, p.2) := by
      rintro _ rfl
      subst hxy
      cases hk : k.2 with
      | false => cases hv : y.fetch env t <;> simp [hv, Res.bind]
      | true => simp only [if_true, Var.fetch]
    rw [askAll]
    cases ea : ask env.lib env.limits.switches m.known k.1 with
    | panics =>
      rw [ea] at hfe
      have hfe : y.fetch env t = .panic := hfe
      intro r
      simp only [fetchVars, Rule.transformVariable, hval _ hfe]; rfl
    | hangs =>
      rw [ea] at hfe
      have hfe : y.fetch env t = .fuel := hfe
      intro r
      simp only [fetchVars, Rule.transformVariable, hval _ hfe]; rfl
    | returns a =>
      rw [ea] at hfe
      obtain ⟨vals, u, h1, h2, h3, h4⟩ := hfe
      have hval := hval _ h1
      have hkn : (refuse a.2.2 { m with known := a.2.1 }).known = a.2.1 := (refuse_keeps _ _).1
      have i := ih h4
      rw [hkn] at i
      simp only [Ending.bind]
      cases eb : askAll env.lib env.limits.switches vs ks a.2.1 with
      | panics =>
        rw [eb] at i
        intro r
        simp only [fetchVars, Rule.transformVariable, hval, Res.bind_ok', i r]; rfl
      | hangs =>
        rw [eb] at i
        intro r
        simp only [fetchVars, Rule.transformVariable, hval, Res.bind_ok', i r]; rfl
      | returns b =>
        rw [eb] at i
        obtain ⟨ys, t', i1, i2, i3, i4⟩ := i
        have hfk : b.2.1.facts = a.2.1.facts := askAll_facts eb
        refine ⟨_, t', .cons hval i1, h2.trans i2, fun y => ?_, ?_⟩
        · have : y ∈ (if k.2 then [itoa vals.length] else vals) ↔
              ∃ vals, a.1 (Picked env.lib.rx (selectors vs k.1 k.2)) vals ∧ if k.2 then y = itoa vals.length else y ∈ vals := by
            constructor
            · intro hy
              refine ⟨vals, h3, ?_⟩
              split
              · rename_i hk; rw [if_pos hk] at hy; simpa using hy
              · rename_i hk; rw [if_neg hk] at hy; exact hy
            · rintro ⟨vals', g3, g4⟩
              have hp := ask_perm ea g3 h3
              split at g4
              · rename_i hk; rw [if_pos hk, g4, hp.length_eq]; simp
              · rename_i hk; rw [if_neg hk]; exact hp.mem_iff.1 g4
          show _ ↔ _ ∨ _
          rw [← this, ← i3]
          simp only [List.mem_append, List.mem_map, Prod.mk.injEq]
          constructor
          · rintro ⟨s, ⟨z, h, _, rfl⟩ | h⟩
            · exact .inl h
            · exact .inr ⟨s, h⟩
          · rintro (h | ⟨s, h⟩)
            · exact ⟨u, .inl ⟨y, h, rfl, rfl⟩⟩
            · exact ⟨s, .inr h⟩
        · show Agree (heldView env G) h (refuse (a.2.2 ++ b.2.2) { m with known := b.2.1 }) t'
          have e : refuse b.2.2 { refuse a.2.2 { m with known := a.2.1 } with known := b.2.1 } = refuse (a.2.2 ++ b.2.2) { m with known := b.2.1 } := by
            rw [← refuse_append, ← refuse_known a.2.2 { m with known := a.2.1 } (k := b.2.1) hfk]
          rw [← e]
          exact i4

/-- The condition of a loaded rule. -/
theorem held_test {l : Link} {r : Rule} (hnot : r.not = l.rule.op.not) (htr : r.trans = l.rule.acts.trans.map transOf)
    (hord : Pairs (Carries env.lib.rx l.rule.vars) l.order r.vars) (hop : ∃ op, r.op = some op ∧ OpMeans env.lib l.rule.op op)
    (ha : Agree (heldView env G) h m t) (hab : m.aborted = false) :
    match test env.lib env.limits.switches l m with
    | .returns a => ∃ b u, r.matches env t = .ok (b, u) ∧ SameCursor t u ∧ Agree (heldView env G) h a.1 u ∧ (b = true ↔ a.2)
    | .panics => r.matches env t = .panic
    | .hangs => r.matches env t = .fuel := by
  obtain ⟨op, ho, hom⟩ := hop
  have hh := held_fetches hord ha
  rw [test]
  cases ea : askAll env.lib env.limits.switches l.rule.vars l.order m.known with
  | panics =>
    rw [ea] at hh
    exact (by simp only [Rule.matches, hh r]; rfl : r.matches env t = .panic)
  | hangs =>
    rw [ea] at hh
    exact (by simp only [Rule.matches, hh r]; rfl : r.matches env t = .fuel)
  | returns a =>
    rw [ea] at hh
    obtain ⟨ys, u, hys, hcu, hval, hag⟩ := hh
    obtain ⟨out, hout⟩ := fetchVars_total (r := r) hys
    obtain ⟨b, hm⟩ : ∃ b, r.matches env t = .ok (b, u) := by
      simp only [Rule.matches, hout, Res.bind_ok', matchLoop_iff ho]
      exact ⟨_, rfl⟩
    refine ⟨b, u, hm, hcu, hag, ?_⟩
    obtain ⟨ys', hys', hb⟩ := C09_condition ho hm
    obtain ⟨rfl, _⟩ := fetchedValues_unique hys hys'
    have eqv : ∀ s y, (op.run u (pipe env.lib s r.trans y) ≠ r.not) ↔
        (Accepts env.lib l.rule.op (pipe env.lib (newTransaction newDefaultLimits) (l.rule.acts.trans.map transOf) y) ↔ l.rule.op.not = false) := by
      intro s y
      rw [htr, hnot, pipe_builtin env.lib _ s (newTransaction newDefaultLimits), ← accepts_iff hom u]
      cases op.run u _ <;> cases l.rule.op.not <;> simp
    have hzero : u.abort = false ↔ a.2.2 = [] := by
      rw [hag.aborted]
      constructor
      · intro h0
        rcases refuse_nil_or a.2.2 { m with known := a.2.1 } with ⟨e, _⟩ | ⟨e, _⟩
        · exact e
        · rw [e] at h0; cases h0
      · intro h0
        rw [h0]
        exact hab
    rw [hb, hzero]
    show _ ↔ _ ∧ _
    refine and_congr_right fun _ => ⟨?_, ?_⟩
    · rintro ⟨⟨s, y⟩, hy, hne⟩
      exact ⟨y, (hval y).1 ⟨s, hy⟩, (eqv s y).1 hne⟩
    · rintro ⟨y, hy, hne⟩
      obtain ⟨s, hs⟩ := (hval y).2 hy
      exact ⟨(s, y), hs, (eqv s y).2 hne⟩

end

theorem test_keeps {lib : Lib} {sw : Switches} {l : Link} {m : Mach Held} {a} (hab : m.aborted = false) (ht : test lib sw l m = .returns a) :
    a.1.rule = m.rule ∧ (a.2 → a.1.aborted = false) ∧ (a.1.aborted = false ∨ a.1.verdict.disruptive = true) := by
  obtain ⟨b, h1, h2⟩ := bind_returns (x := askAll lib sw l.rule.vars l.order m.known) ht
  cases h2
  refine ⟨(refuse_keeps _ _).2, fun hh => ?_, ?_⟩
  · have e : b.2.2 = [] := hh.1
    show (refuse b.2.2 _).aborted = false
    rw [e]; exact hab
  · rcases refuse_nil_or b.2.2 { m with known := b.2.1 } with ⟨_, e⟩ | e
    · refine .inl ?_
      show (refuse b.2.2 _).aborted = false
      rw [e]; exact hab
    · exact .inr e.2

theorem meets_keeps {lib : Lib} {sw : Switches} {c : List Link} : ∀ {m : Mach Held} {a}, m.aborted = false → meets lib sw c m = .returns a →
    a.1.rule = m.rule ∧ (a.2 → a.1.aborted = false) ∧ (a.1.aborted = false ∨ a.1.verdict.disruptive = true) := by
  induction c with
  | nil => intro m a hab h; cases h; exact ⟨rfl, fun _ => hab, .inl hab⟩
  | cons l c ih =>
    intro m a hab h
    obtain ⟨b, h1, h2⟩ := bind_returns (x := test lib sw l m) h
    obtain ⟨k1, k2, k3⟩ := test_keeps hab h1
    split at h2
    · rename_i ht
      obtain ⟨i1, i2, i3⟩ := ih (k2 ht) h2
      exact ⟨i1.trans k1, i2, i3⟩
    · cases h2
      exact ⟨k1, fun h => h.elim, k3⟩

section
variable {env : Env} {G : Int → Int → Prop} {h : List Op}

/-- The conditions of the rules of a chain after its first. -/
theorem held_subs {ls : List Link} {ss : List Rule} (hp : Pairs (LinkMeans env.lib) ls ss) : ∀ {m : Mach Held} {t : Tx},
    Agree (heldView env G) h m t → m.aborted = false →
    match meets env.lib env.limits.switches ls m with
    | .returns a => ∃ b u, matchSubs env ss t = .ok (b, u) ∧ SameCursor t u ∧ Agree (heldView env G) h a.1 u ∧ (b = true ↔ a.2)
    | .panics => matchSubs env ss t = .panic
    | .hangs => matchSubs env ss t = .fuel := by
  induction hp with
  | nil => intro m t ha _; exact ⟨true, t, rfl, .refl t, ha, by simp⟩
  | @cons l r ls ss hl _ ih =>
    intro m t ha hab
    have hh := held_test hl.rule.not hl.rule.trans hl.order hl.rule.op ha hab
    rw [meets]
    cases ea : test env.lib env.limits.switches l m with
    | panics => rw [ea] at hh; exact (by simp only [matchSubs, show r.matches env t = .panic from hh]; rfl : matchSubs env (r :: ss) t = .panic)
    | hangs => rw [ea] at hh; exact (by simp only [matchSubs, show r.matches env t = .fuel from hh]; rfl : matchSubs env (r :: ss) t = .fuel)
    | returns a =>
      rw [ea] at hh
      obtain ⟨b, u, g1, g2, g3, g4⟩ := hh
      simp only [Ending.bind]
      cases b with
      | false =>
        have hno : ¬ a.2 := fun hh => by cases g4.2 hh
        rw [if_neg hno]
        exact ⟨false, u, by simp only [matchSubs, g1, Res.bind_ok']; rfl, g2, g3, ⟨(fun h => by cases h), fun h => False.elim h⟩⟩
      | true =>
        have hyes := g4.1 rfl
        rw [if_pos hyes]
        have hsub : ∀ x, matchSubs env ss u = x → matchSubs env (r :: ss) t = x := by
          rintro _ rfl
          simp only [matchSubs, g1, Res.bind_ok']
          rfl
        have i := ih g3 ((test_keeps hab ea).2.1 hyes)
        cases em : meets env.lib env.limits.switches ls a.1 with
        | panics => rw [em] at i; exact hsub _ i
        | hangs => rw [em] at i; exact hsub _ i
        | returns a' =>
          rw [em] at i
          obtain ⟨b, u', i1, i2, i3, i4⟩ := i
          exact ⟨b, u', hsub _ i1, g2.trans i2, i3, i4⟩

/-- The conditions of a loaded chain. -/
theorem held_run {l : Link} {ls : List Link} {r0 : Rule} {ss : List Rule} (hl : LinkMeans env.lib l r0) (hls : Pairs (LinkMeans env.lib) ls ss) {m : Mach Held}
    {t : Tx} (ha : Agree (heldView env G) h m t) (hab : m.aborted = false) (rs : RuleSet) :
    match meets env.lib env.limits.switches (l :: ls) m with
    | .returns a => ∃ b u, (∀ n, Rule.run env rs n { r0 with subRules := ss } t = if b = true then
          (actionsExecute (Action.run rs n) r0.actions u).bind fun t => subActions rs n ss t else .ok u) ∧
        SameCursor t u ∧ Agree (heldView env G) h a.1 u ∧ (b = true ↔ a.2)
    | .panics => ∀ n, Rule.run env rs n { r0 with subRules := ss } t = .panic
    | .hangs => ∀ n, Rule.run env rs n { r0 with subRules := ss } t = .fuel := by
  have hh := held_test (r := { r0 with subRules := ss }) hl.rule.not hl.rule.trans hl.order hl.rule.op ha hab
  rw [meets]
  cases ea : test env.lib env.limits.switches l m with
  | panics =>
    rw [ea] at hh
    have hh : Rule.matches env { r0 with subRules := ss } t = .panic := hh
    intro n
    simp only [Rule.run, hh]; rfl
  | hangs =>
    rw [ea] at hh
    have hh : Rule.matches env { r0 with subRules := ss } t = .fuel := hh
    intro n
    simp only [Rule.run, hh]; rfl
  | returns a =>
    rw [ea] at hh
    obtain ⟨b, u, g1, g2, g3, g4⟩ := hh
    simp only [Ending.bind]
    cases b with
    | false =>
      have hno : ¬ a.2 := fun hh => by cases g4.2 hh
      rw [if_neg hno]
      exact ⟨false, u, (fun n => by simp only [Rule.run, g1, Res.bind_ok']; rfl), g2, g3, ⟨(fun h => by cases h), fun h => False.elim h⟩⟩
    | true =>
      have hyes := g4.1 rfl
      rw [if_pos hyes]
      have i := held_subs hls g3 ((test_keeps hab ea).2.1 hyes)
      cases em : meets env.lib env.limits.switches ls a.1 with
      | panics =>
        rw [em] at i
        have i : matchSubs env ss u = .panic := i
        intro n
        simp only [Rule.run, g1, Res.bind_ok', Bool.not_true, Bool.false_eq_true, if_false, i]; rfl
      | hangs =>
        rw [em] at i
        have i : matchSubs env ss u = .fuel := i
        intro n
        simp only [Rule.run, g1, Res.bind_ok', Bool.not_true, Bool.false_eq_true, if_false, i]; rfl
      | returns a' =>
        rw [em] at i
        obtain ⟨b, u', i1, i2, i3, i4⟩ := i
        refine ⟨b, u', (fun n => ?_), g2.trans i2, i3, i4⟩
        simp only [Rule.run, g1, Res.bind_ok', Bool.not_true, Bool.false_eq_true, if_false, i1]
        cases b <;> rfl

theorem held_evaluates {rs : RuleSet} (hdef : rs.defaultActions = []) :
    Evaluates (heldView env G) (evalLinks env.lib env.limits.switches) (LinksMean env.lib) rs where
  eval := by
    intro h q j c r m t hr hc hst
    have hi : j < (rs.phases q).length := by
      rcases Nat.lt_or_ge j (rs.phases q).length with h | h
      · exact h
      · rw [List.getElem?_eq_none h] at hr; cases hr
    have hsl : slot (rs.phases q).length j = j := if_neg (by omega)
    obtain ⟨l, ls, r0, ss, rfl, hl, hls, rfl⟩ := hc
    have hrun : m.aborted = false := hst.running
    obtain ⟨m0, hm0⟩ : ∃ m0 : Mach Held, m0 = { m with rule := (j : Int) } := ⟨_, rfl⟩
    have ha : Agree (heldView env G) h m0 t := by
      rw [hm0]
      exact ⟨hst.agree.know, hst.agree.fine, hst.agree.phase, hst.agree.verdict, hst.agree.chosen, hst.agree.aborted, hst.agree.low, hst.agree.high⟩
    have hrun : m0.aborted = false := by rw [hm0]; exact hrun
    have hj : m0.rule = (j : Int) := by rw [hm0]
    have hh := held_run hl hls ha hrun rs
    classical
    have eE : evalLinks env.lib env.limits.switches j (l :: ls) m = (meets env.lib env.limits.switches (l :: ls) m0).bind fun a =>
        .returns (if a.2 then fireAt heldSight (a.1, j + 1) ((l :: ls).map Link.rule) else (a.1, j + 1)) := by rw [hm0]; rfl
    rw [eE]
    cases em : meets env.lib env.limits.switches (l :: ls) m0 with
    | panics => rw [em] at hh; exact hh
    | hangs => rw [em] at hh; exact hh
    | returns a =>
      rw [em] at hh
      obtain ⟨b, u, g1, g2, g3, g4⟩ := hh
      obtain ⟨hk1, hk2, hk3⟩ := meets_keeps hrun em
      have still : Acting (heldView env G) h q (rs.phases q).length (a.1, j + 1) u := by
        refine ⟨g3, ?_, ?_, fun _ => g2.next.trans (hst.next hi)⟩
        · rw [g2.cur, hst.cur, hsl]; exact (hk1.trans hj).symm
        · rw [show a.1.rule = (j : Int) from hk1.trans hj]; omega
      simp only [Ending.bind]
      cases b with
      | false =>
        have hno : ¬ a.2 := fun hh => by cases g4.2 hh
        rw [if_neg hno]
        exact ⟨u, (fun n _ => g1 n), still, fun hnd => hk3.elim id fun hd => absurd hd hnd⟩
      | true =>
        have hall := g4.1 rfl
        have hpr : Pairs (RuleMeans env.lib) ((l :: ls).map Link.rule) (r0 :: ss) := by
          have : ∀ {ls : List Link} {ss : List Rule}, Pairs (LinkMeans env.lib) ls ss → Pairs (RuleMeans env.lib) (ls.map Link.rule) ss := by
            intro ls ss hp
            induction hp with
            | nil => exact .nil
            | cons hx _ ih => exact .cons hx.rule ih
          exact this (.cons hl hls)
        obtain ⟨t3, c1, c2⟩ := chain_at (S := heldSight) (held_sees env G) hdef (by omega) hpr still
        rw [if_pos hall]
        refine ⟨t3, fun n hn => (g1 n).trans (c1 n hn), c2, fun _ => ?_⟩
        exact (congrArg Mach.aborted (fireAt_fst (V := heldView env G) (S := heldSight) _ _)).trans
          ((fire_known (V := heldView env G) (S := heldSight) _ _).2.trans (hk2 hall))

end

/-! ### Texts -/

theorem link_of {lib : Lib} {p : PRule} {r : Rule} (h : RuleMeans lib p r) : ∃ l : Link, l.rule = p ∧ l.Fits ∧ LinkMeans lib l r := by
  obtain ⟨ks, h1, h2, h3⟩ := h.vars
  exact ⟨⟨p, ks⟩, rfl, ⟨h1, h2⟩, h, h3⟩

theorem links_of {lib : Lib} {ps : List PRule} {rs : List Rule} (h : Pairs (RuleMeans lib) ps rs) :
    ∃ ls : List Link, ls.map Link.rule = ps ∧ (∀ l ∈ ls, l.Fits) ∧ Pairs (LinkMeans lib) ls rs := by
  induction h with
  | nil => exact ⟨[], rfl, by simp, .nil⟩
  | cons hr _ ih =>
    obtain ⟨l, e, hf, hm⟩ := link_of hr
    obtain ⟨ls, es, hfs, hms⟩ := ih
    exact ⟨l :: ls, by rw [List.map_cons, e, es], List.forall_mem_cons.2 ⟨hf, hfs⟩, .cons hm hms⟩

theorem chains_of {lib : Lib} {cs : List (List PRule)} {rs : List Rule} (h : Pairs (ChainMeans lib) cs rs) :
    ∃ ls : List (List Link), ls.map (fun c => c.map Link.rule) = cs ∧ (∀ c ∈ ls, ∀ l ∈ c, l.Fits) ∧ Pairs (LinksMean lib) ls rs := by
  induction h with
  | nil => exact ⟨[], rfl, by simp, .nil⟩
  | cons hc _ ih =>
    obtain ⟨p, ps, r0, ss, rfl, hr, hps, rfl⟩ := hc
    obtain ⟨l, e, hf, hm⟩ := link_of hr
    obtain ⟨ls, es, hfs, hms⟩ := links_of hps
    obtain ⟨cs, ec, hfc, hmc⟩ := ih
    exact ⟨(l :: ls) :: cs, by rw [List.map_cons, List.map_cons, e, es, ec], List.forall_mem_cons.2 ⟨List.forall_mem_cons.2 ⟨hf, hfs⟩, hfc⟩,
      .cons ⟨l, ls, r0, ss, rfl, hm, hms, rfl⟩ hmc⟩

theorem carried_links {lib : Lib} {chains : List (List PRule)} {rs : RuleSet} (h : Carried lib chains rs) :
    ∃ links, Ordered chains links ∧ CarriedBy (LinksMean lib) links rs := by
  have hex : ∀ q : Int, ∃ ls : List (List Link), 1 ≤ q → ls.map (fun c => c.map Link.rule) = chains.filter (fun c => chainPhase c = q) ∧
      (∀ c ∈ ls, ∀ l ∈ c, l.Fits) ∧ Pairs (LinksMean lib) ls (rs.phases q) := by
    intro q
    by_cases hq : 1 ≤ q
    · obtain ⟨ls, hls⟩ := chains_of (h.rules q hq)
      exact ⟨ls, fun _ => hls⟩
    · exact ⟨[], fun h => absurd h hq⟩
  refine ⟨fun q => (hex q).choose, fun q hq => ?_, fun q hq => ((hex q).choose_spec hq).2.2, fun q hq => ?_⟩
  · exact ⟨((hex q).choose_spec hq).1, ((hex q).choose_spec hq).2.1⟩
  · have hp := h.rules q (by omega)
    have hemp : (chains.filter fun c => chainPhase c = q) = [] := by
      rw [List.filter_eq_nil_iff]
      intro c hcm
      have := h.five c hcm
      simp; omega
    rw [hemp] at hp
    exact List.length_eq_zero_iff.1 hp.length_eq.symm

/-- The machine and a loaded text that carries the chains in the order of the links. -/
theorem held_exact {lib : Lib} {ord : IterOrd} {dirs : List PDir} {ds : List Dire} (hds : Pairs (DirMeans lib) dirs ds)
    (hcar : Carried lib (chainsOf (rulesIn dirs)) (DireSet.execute (group ds) newEngine).ruleSet) {links : Int → List (List Link)}
    (hby : CarriedBy (LinksMean lib) links (DireSet.execute (group ds) newEngine).ruleSet) (ops : List Op) :
        match runBy heldSight (evalLinks lib { req := reqAccess dirs, resp := respAccess dirs }) links { known := {} } ops with
        | .returns (_, is) => ∃ t' os, shown os = is ∧
          (∀ n, (DireSet.execute (group ds) newEngine).newTransaction.steps ((DireSet.execute (group ds) newEngine).env lib ord) (DireSet.execute (group ds) newEngine).ruleSet n ops = .fuel ∨
            ∃ tr, (DireSet.execute (group ds) newEngine).newTransaction.steps ((DireSet.execute (group ds) newEngine).env lib ord) (DireSet.execute (group ds) newEngine).ruleSet n ops = .ok (t', os, tr)) ∧
          ∃ N, ∀ n ≥ N, ∃ tr,
            (DireSet.execute (group ds) newEngine).newTransaction.steps ((DireSet.execute (group ds) newEngine).env lib ord) (DireSet.execute (group ds) newEngine).ruleSet n ops = .ok (t', os, tr)
        | .panics =>
          (∀ n, (DireSet.execute (group ds) newEngine).newTransaction.steps ((DireSet.execute (group ds) newEngine).env lib ord) (DireSet.execute (group ds) newEngine).ruleSet n ops = .fuel ∨
            (DireSet.execute (group ds) newEngine).newTransaction.steps ((DireSet.execute (group ds) newEngine).env lib ord) (DireSet.execute (group ds) newEngine).ruleSet n ops = .panic) ∧
          ∃ N, ∀ n ≥ N, (DireSet.execute (group ds) newEngine).newTransaction.steps ((DireSet.execute (group ds) newEngine).env lib ord) (DireSet.execute (group ds) newEngine).ruleSet n ops = .panic
        | .hangs => ∀ n, (DireSet.execute (group ds) newEngine).newTransaction.steps ((DireSet.execute (group ds) newEngine).env lib ord) (DireSet.execute (group ds) newEngine).ruleSet n ops = .fuel := by
  have hlim := loaded_limits hds
  have e : (DireSet.execute (group ds) newEngine).newTransaction = newTransaction
      { newDefaultLimits with requestBodyAccess := reqAccess dirs, responseBodyAccess := respAccess dirs } := by rw [← hlim]; rfl
  have hE := held_evaluates (env := (DireSet.execute (group ds) newEngine).env lib ord) (G := fun a _ => 0 ≤ a) (rs := (DireSet.execute (group ds) newEngine).ruleSet) hcar.defaults
  have e1 : ((DireSet.execute (group ds) newEngine).env lib ord).limits.switches = { req := reqAccess dirs, resp := respAccess dirs } := by
    show (DireSet.execute (group ds) newEngine).limits.switches = _
    rw [hlim]
    rfl
  rw [e1] at hE
  have hst : Agree (heldView ((DireSet.execute (group ds) newEngine).env lib ord) fun a _ => 0 ≤ a) [] ({ known := {} } : Mach Held)
      (DireSet.execute (group ds) newEngine).newTransaction := {
      know := by rw [e]; rfl
      phase := rfl, verdict := rfl, chosen := rfl, aborted := rfl
      low := Int.le_refl 0
      high := by show (0 : Int) ≤ 7; omega
      fine := by
        rw [e]
        exact {
          req := ⟨by show (0 : Int) ≤ 131072; decide, rfl, (fun _ _ => by show (0 : Int) ≤ 131072; decide), (fun hn => absurd hn (by show ¬ (131072 : Int) < 0; decide))⟩
          resp := ⟨rfl, rfl, rfl, rfl, rfl⟩
          form := fun r hr => by cases hr
          parts := fun r hr => by cases hr } }
  have hfo : ∀ a op b, ops = a ++ op :: b → Follows (heldView ((DireSet.execute (group ds) newEngine).env lib ord) fun a _ => 0 ≤ a) heldSight.learn ([] ++ a) op :=
    fun a op b eo => held_follows _ _ fun _ _ h => .inl h
  cases hr : runBy heldSight (evalLinks lib { req := reqAccess dirs, resp := respAccess dirs }) links { known := {} } ops with
  | returns x =>
    obtain ⟨t', os, _, g1, g2, g3⟩ := steps_returns (held_sees _ _) hE hby hfo hst hr
    exact ⟨t', os, g1, g2, g3⟩
  | panics =>
    have g := steps_panics (held_sees _ _) hE hby hfo hst hr
    exact ⟨g.any, g.enough⟩
  | hangs => exact steps_hangs (held_sees _ _) hE hby hfo hst hr

/-- C94.  A text whose rules may read bodies: there is an order in which each rule asks
for its variables such that for every sequence of calls, if the reference machine
returns, all calls return and show its verdicts; if it panics, so do the calls; and if a
walk over a phase goes on for ever on it, the calls do not return.  Bodies may have any
size and type, arrive in any phase, and be malformed, and the disk may fail. -/
theorem C94_exact {lib : Lib} {vo : VarOrd} {ord : IterOrd} {text : Bytes} {dirs : List PDir} (ht : Program text dirs)
    (hok : ∀ d ∈ dirs, DirOk lib d) :
    ∃ set links, DireSet.addSecLangString lib vo [] text = .ok (set, none) ∧ Ordered (chainsOf (rulesIn dirs)) links ∧
      ∀ ops : List Op,
        match runBy heldSight (evalLinks lib { req := reqAccess dirs, resp := respAccess dirs }) links { known := {} } ops with
        | .returns (_, is) => ∃ t' os, shown os = is ∧
          (∀ n, (set.execute newEngine).newTransaction.steps ((set.execute newEngine).env lib ord) (set.execute newEngine).ruleSet n ops = .fuel ∨
            ∃ tr, (set.execute newEngine).newTransaction.steps ((set.execute newEngine).env lib ord) (set.execute newEngine).ruleSet n ops = .ok (t', os, tr)) ∧
          ∃ N, ∀ n ≥ N, ∃ tr,
            (set.execute newEngine).newTransaction.steps ((set.execute newEngine).env lib ord) (set.execute newEngine).ruleSet n ops = .ok (t', os, tr)
        | .panics =>
          (∀ n, (set.execute newEngine).newTransaction.steps ((set.execute newEngine).env lib ord) (set.execute newEngine).ruleSet n ops = .fuel ∨
            (set.execute newEngine).newTransaction.steps ((set.execute newEngine).env lib ord) (set.execute newEngine).ruleSet n ops = .panic) ∧
          ∃ N, ∀ n ≥ N, (set.execute newEngine).newTransaction.steps ((set.execute newEngine).env lib ord) (set.execute newEngine).ruleSet n ops = .panic
        | .hangs => ∀ n, (set.execute newEngine).newTransaction.steps ((set.execute newEngine).env lib ord) (set.execute newEngine).ruleSet n ops = .fuel := by
  obtain ⟨ds, hds, hload, hcar⟩ := loaded_carried (vo := vo) ht hok
  obtain ⟨links, hord, hby⟩ := carried_links hcar
  exact ⟨group ds, links, hload, hord, held_exact hds hcar hby⟩

/-! ### Cases -/

/-- A rule with one variable leaves no choice of order. -/
theorem one_order {l : Link} {v : PVar} (h : l.Fits) (hv : l.rule.vars = [v]) : l.order = [(v.tk, v.count)] := by
  obtain ⟨h1, h2⟩ := h
  have hmem : ∀ k, k ∈ l.order ↔ k = (v.tk, v.count) := fun k => by
    rw [h2, hv]
    exact ⟨fun ⟨w, hw, e⟩ => by rw [← e, List.mem_singleton.1 hw], fun e => ⟨v, .head _, e.symm⟩⟩
  match ho : l.order with
  | [] => have := (hmem _).2 rfl; rw [ho] at this; cases this
  | [a] => rw [(hmem a).1 (by rw [ho]; exact .head _)]
  | a :: b :: rest =>
    have ha := (hmem a).1 (by rw [ho]; exact .head _)
    have hb := (hmem b).1 (by rw [ho]; exact .tail _ (.head _))
    rw [ho, ha, hb] at h1
    exact absurd (.head _) (List.nodup_cons.1 h1).1

/-- The only order of a rule with one variable. -/
def single (p : PRule) : Link := ⟨p, p.vars.map fun v => (v.tk, v.count)⟩

/-- Rules with one variable leave no choice of order. -/
theorem Spec.Ordered.single {chains : List (List PRule)} {links : Int → List (List Link)} (h : Ordered chains links) {q : Int} (hq : 1 ≤ q)
    (h1 : ∀ c ∈ chains, ∀ p ∈ c, ∃ v, p.vars = [v]) : links q = (chains.filter fun c => chainPhase c = q).map fun c => c.map Verif.single := by
  obtain ⟨e, hf⟩ := h q hq
  rw [← e, List.map_map]
  have hl : ∀ c ∈ links q, ∀ l ∈ c, l = Verif.single l.rule := by
    intro c hc l hl
    have hm : c.map Link.rule ∈ chains := (List.mem_filter.1 (by rw [← e]; exact List.mem_map_of_mem hc)).1
    obtain ⟨v, hv⟩ := h1 _ hm l.rule (List.mem_map_of_mem hl)
    have ho := one_order (hf c hc l hl) hv
    obtain ⟨p, o⟩ := l
    have hv : p.vars = [v] := hv
    have ho : o = [(v.tk, v.count)] := ho
    rw [Verif.single, hv, ho]
    rfl
  conv => lhs; rw [← List.map_id (links q)]
  refine List.map_congr_left fun c hc => ?_
  show c = (c.map Link.rule).map Verif.single
  rw [List.map_map]
  conv => lhs; rw [← List.map_id c]
  exact List.map_congr_left fun l h => hl c hc l h

/-- A call for a phase without chains. -/
theorem callBy_empty {K C : Type} {S : Sight K} {E : Nat → C → Mach K → Ending (Mach K × Nat)} {chains : Int → List C} {m : Mach K} {op : Op} {q : Int}
    (hq : phaseOf op = some q) (hp : ¬ q ≤ m.phase) (ha : m.aborted = false) (hc : chains q = []) :
    callBy S E chains m op = .returns (goto q { m with known := S.learn m.known op }, []) := by
  simp only [callBy, hq]
  rw [if_neg hp, if_neg (by rw [ha]; simp), hc, endBy_some (.over (Nat.zero_le _))]
  rfl

/-- A call that shows nothing. -/
theorem runBy_silent {K C : Type} {S : Sight K} {E : Nat → C → Mach K → Ending (Mach K × Nat)} {chains : Int → List C} {m m' : Mach K} {op : Op}
    (h : callBy S E chains m op = .returns (m', [])) (ops : List Op) : runBy S E chains m (op :: ops) = runBy S E chains m' ops := by
  rw [runBy, h]
  simp only [Ending.bind]
  cases runBy S E chains m' ops <;> rfl

/-- The calls for a request up to its body, which arrives in two pieces, when there are
chains only for phase 3. -/
theorem runBy_posted {C : Type} {E : Nat → C → Mach Held → Ending (Mach Held × Nat)} {chains : Int → List C} (h1 : chains 1 = []) (h2 : chains 2 = [])
    (type x y : Bytes) {r : Ending (Mach Held)} (hend : ∀ k : Held,
      k = accept (accept { facts := { method := b!"POST", headers := some [(b!"Content-Type", [type])] } } x {}) y {} →
      endBy E 3 (chains 3) { known := k, phase := 3 } = r) (ops : List Op) :
    runBy heldSight E chains { known := {} } ([.processConnection [] [] [] [], .processRequestURL none b!"POST" [],
      .processRequestHeader (some [(b!"Content-Type", [type])]), .appendRequestBody x {}, .appendRequestBody y {}, .processRequestBody] ++ ops) =
    r.bind fun m => runBy heldSight E chains m ops := by
  let m0 : Mach Held := { known := {} }
  let m1 := goto 1 { m0 with known := take m0.known (.processConnection [] [] [] []) }
  let m2 := { m1 with known := take m1.known (.processRequestURL none b!"POST" []) }
  let m3 := goto 2 { m2 with known := take m2.known (.processRequestHeader (some [(b!"Content-Type", [type])])) }
  let m4 := { m3 with known := take m3.known (.appendRequestBody x {}) }
  let m5 := { m4 with known := take m4.known (.appendRequestBody y {}) }
  have c1 : callBy heldSight E chains m0 (.processConnection [] [] [] []) = .returns (m1, []) := callBy_empty rfl (by decide) rfl h1
  have c2 : callBy heldSight E chains m1 (.processRequestURL none b!"POST" []) = .returns (m2, []) := rfl
  have c3 : callBy heldSight E chains m2 (.processRequestHeader (some [(b!"Content-Type", [type])])) = .returns (m3, []) :=
    callBy_empty rfl (show ¬ (2 : Int) ≤ 1 by decide) rfl h2
  have c4 : callBy heldSight E chains m3 (.appendRequestBody x {}) = .returns (m4, []) := rfl
  have c5 : callBy heldSight E chains m4 (.appendRequestBody y {}) = .returns (m5, []) := rfl
  rw [List.cons_append, runBy_silent c1, List.cons_append, runBy_silent c2, List.cons_append, runBy_silent c3, List.cons_append, runBy_silent c4,
    List.cons_append, runBy_silent c5, List.cons_append, List.nil_append, runBy]
  have hk := hend m5.known rfl
  have c6 : callBy heldSight E chains m5 .processRequestBody = r.bind fun m => .returns (m, []) := by
    rw [← hk]
    simp only [callBy, phaseOf]
    refine (if_neg (show ¬ (3 : Int) ≤ 2 by decide)).trans ((if_neg (show ¬ (false = true) by decide)).trans ?_)
    rfl
  rw [c6]
  cases r with
  | returns m => simp only [Ending.bind]; cases runBy heldSight E chains m ops <;> rfl
  | panics => rfl
  | hangs => rfl

/-- A request body of two pieces that does not fit into memory. -/
theorem accept_spills (k : Held) (x y : Bytes) (h0 : k.mem = 131072) (h1 : k.most = 134217728) (h2 : k.size = 0) (h3 : k.store = .memory [])
    (h4 : 131072 < x.length + y.length) (h5 : x.length + y.length ≤ 134217728) :
    ∃ c n, accept (accept k x {}) y {} = { k with size := x.length + y.length, store := .disk c n } := by
  obtain ⟨a1, a2, a3, a4, a5, a6, a7, a8, a9⟩ := k
  simp only at h0 h1 h2 h3
  subst h0 h1 h2 h3
  have g1 : ¬ (134217728 : Int) < ((0 : Nat) : Int) + x.length := by omega
  have g3 : ¬ (134217728 : Int) < ((x.length : Nat) : Int) + y.length := by omega
  simp only [accept, if_neg g1]
  by_cases g2 : ((0 : Nat) : Int) + x.length ≤ 131072
  · have g4 : ¬ ((x.length : Nat) : Int) + y.length ≤ 131072 := by omega
    simp only [if_pos g2, Nat.zero_add, if_neg g3, if_neg g4]
    exact ⟨_, _, rfl⟩
  · simp only [if_neg g2, if_neg (show ¬ (false = true) by decide), Nat.zero_add, reaching, if_neg g3]
    exact ⟨_, _, rfl⟩

/-- A request body of two pieces has their length. -/
theorem accept_size (k : Held) (x y : Bytes) (h0 : k.mem = 131072) (h1 : k.most = 134217728) (h2 : k.size = 0) (h3 : k.store = .memory [])
    (h5 : x.length + y.length ≤ 134217728) : ∃ s, accept (accept k x {}) y {} = { k with size := x.length + y.length, store := s } := by
  obtain ⟨a1, a2, a3, a4, a5, a6, a7, a8, a9⟩ := k
  simp only at h0 h1 h2 h3
  subst h0 h1 h2 h3
  have g1 : ¬ (134217728 : Int) < ((0 : Nat) : Int) + x.length := by omega
  have g3 : ¬ (134217728 : Int) < ((x.length : Nat) : Int) + y.length := by omega
  simp only [accept, if_neg g1]
  by_cases g2 : ((0 : Nat) : Int) + x.length ≤ 131072
  · simp only [if_pos g2, Nat.zero_add, if_neg g3]
    by_cases g4 : ((x.length : Nat) : Int) + y.length ≤ 131072
    · simp only [if_pos g4]
      exact ⟨_, rfl⟩
    · simp only [if_neg g4]
      exact ⟨_, rfl⟩
  · simp only [if_neg g2, if_neg (show ¬ (false = true) by decide), Nat.zero_add, reaching, if_neg g3]
    exact ⟨_, rfl⟩

/-- A form too large for memory is refused with status 413 when its arguments are
asked for, whatever it contains. -/
example (x y : Bytes) (h1 : 131072 < x.length + y.length) (h2 : x.length + y.length ≤ 134217728) :
    ∃ set, DireSet.addSecLangString lib varOrd [] formText = .ok (set, none) ∧
    ∃ t' os i, shown os = [i] ∧ i.status = 413 ∧ i.disruptive = true ∧ ∃ N, ∀ n ≥ N, ∃ tr,
      (set.execute newEngine).newTransaction.steps ((set.execute newEngine).env lib Sample.ord) (set.execute newEngine).ruleSet n
        (formOps x y ++ [.result]) = .ok (t', os, tr) := by
  obtain ⟨set, links, hload, hord, hrun⟩ := C94_exact (vo := varOrd) (ord := Sample.ord) formText_program formText_ok
  refine ⟨set, hload, ?_⟩
  have hrun := hrun (formOps x y ++ [.result])
  have hone : ∀ c ∈ chainsOf (rulesIn formDirs), ∀ p ∈ c, ∃ v, p.vars = [v] := by
    intro c hc p hp
    have hc : c = [formRule] := by simpa using (show c ∈ [[formRule]] from hc)
    subst hc
    rw [List.mem_singleton.1 hp]
    exact ⟨_, rfl⟩
  have hl : links 3 = [[single formRule]] := (hord.single (by decide) hone).trans rfl
  let sw : Switches := { req := true, resp := false }
  let k0 : Held := { facts := { method := b!"POST", headers := some [(b!"Content-Type", [b!"application/x-www-form-urlencoded"])] } }
  obtain ⟨c, n, hk⟩ := accept_spills k0 x y rfl rfl rfl rfl h1 h2
  let k : Held := { k0 with size := x.length + y.length, store := .disk c n }
  let k' : Held := { k with form := .refused, store := .disk c 0 }
  have htype : HasType lib true k b!"application/x-www-form-urlencoded" := by
    refine ⟨⟨rfl, .inl rfl, ?_⟩, ?_⟩
    · show x.length + y.length ≠ 0; omega
    · exact (show b!"application/x-www-form-urlencoded" <+: declared lib { facts := k0.facts } by decide)
  have hform : askForm lib sw k = .returns (some [], k', [b!"out of memory limit"]) := by
    rw [askForm, if_pos htype]; rfl
  obtain ⟨P, htest⟩ : ∃ P : Prop, test lib sw (single formRule) { known := k, phase := 3, rule := ((0 : Nat) : Int) } =
      .returns (refuse [b!"out of memory limit"] { known := k', phase := 3, rule := ((0 : Nat) : Int) }, [b!"out of memory limit"] = [] ∧ P) := by
    rw [test, show askAll lib sw (single formRule).rule.vars (single formRule).order k =
      (ask lib sw k .argsPost).bind fun a => (askAll lib sw (single formRule).rule.vars [] a.2.1).bind fun b => _ from rfl]
    rw [ask, hform]
    exact ⟨_, rfl⟩
  let m' : Mach Held := refuse [b!"out of memory limit"] { known := k', phase := 3, rule := ((0 : Nat) : Int) }
  have heval : evalLinks lib sw 0 [single formRule] { known := k, phase := 3 } = .returns (m', 1) := by
    have hm : meets lib sw [single formRule] { known := k, phase := 3, rule := ((0 : Nat) : Int) } = .returns (m', False) := by
      rw [meets, htest]
      simp only [Ending.bind]
      rw [if_neg (fun h => by cases h.1)]
    rw [evalLinks]
    simp only [hm, Ending.bind]
    rw [if_neg id]
  have hend : endBy (evalLinks lib sw) 3 (links 3) { known := k, phase := 3 } = .returns m' := by
    rw [hl]
    exact endBy_some (.stop (x := (m', 1)) rfl heval (.inl rfl))
  have hall := runBy_posted (E := evalLinks lib sw) ((hord.single (by decide) hone).trans rfl) ((hord.single (by decide) hone).trans rfl)
    b!"application/x-www-form-urlencoded" x y (r := .returns m') (fun k hk' => by rw [hk', hk]; exact hend) [.result]
  have hres : runBy heldSight (evalLinks lib sw) links m' [.result] = .returns (m', [m'.verdict]) := rfl
  have e : runBy heldSight (evalLinks lib { req := reqAccess formDirs, resp := respAccess formDirs }) links { known := {} } (formOps x y ++ [.result]) =
      .returns (m', [m'.verdict]) := hall.trans hres
  rw [e] at hrun
  obtain ⟨t', os, g1, _, g3⟩ := hrun
  exact ⟨t', os, _, g1, rfl, rfl, g3⟩

/-- Two rules on the names of the arguments in the body. -/
def namesText : Bytes :=
  b!"SecRequestBodyAccess On\nSecRule ARGS_POST_NAMES \"@rx evil\" \"id:1,phase:3,deny\"\nSecRule ARGS_POST_NAMES \"@rx bad\" \"id:2,phase:3,deny\"\n"

def namesRule (id : Int) (arg : Bytes) : PRule where
  vars := [{ tk := .argsPostNames }]
  op := { tk := .rx, arg := arg }
  acts := { id := id, phase := 3, action := [⟨.deny, []⟩] }

def namesDirs : List PDir := [.reqBody true, .rule (namesRule 1 b!"evil"), .rule (namesRule 2 b!"bad")]

/-- The library, but no multipart body is understood. -/
def brokenLib : Lib := { lib with readForm := fun _ _ _ => (.err b!"multipart: NextPart: EOF", 0) }

theorem namesText_ok : ∀ d ∈ namesDirs, DirOk brokenLib d := by
  have no : ∀ {s : Bytes} {P : Bytes → Prop}, isRegex s = false → ∀ re, IsRegex s re → P re := by
    intro s P h re hre
    rw [(isRegex_iff s).2 ⟨re, hre⟩] at h; cases h
  intro d hd
  simp only [namesDirs, List.mem_cons, List.not_mem_nil, or_false] at hd
  rcases hd with rfl | rfl | rfl
  · trivial
  · exact {
      vars := by intro v hv; rw [List.mem_singleton.1 hv]; exact ⟨by simp, fun _ => no (by decide)⟩
      op := ⟨_, .rx rfl rfl⟩
      acts := by intro a ha; rw [List.mem_singleton.1 ha]; exact .inl ⟨_, .deny⟩ }
  · exact {
      vars := by intro v hv; rw [List.mem_singleton.1 hv]; exact ⟨by simp, fun _ => no (by decide)⟩
      op := ⟨_, .rx rfl rfl⟩
      acts := by intro a ha; rw [List.mem_singleton.1 ha]; exact .inl ⟨_, .deny⟩ }

/-- A multipart body that is not understood makes the second of two rules on the names
of its values panic, whatever it contains. -/
example (x y : Bytes) (h1 : 0 < x.length + y.length) (h2 : x.length + y.length ≤ 134217728) :
    ∃ set, DireSet.addSecLangString brokenLib varOrd [] namesText = .ok (set, none) ∧ ∃ N, ∀ n ≥ N,
      (set.execute newEngine).newTransaction.steps ((set.execute newEngine).env brokenLib Sample.ord) (set.execute newEngine).ruleSet n
        [.processConnection [] [] [] [], .processRequestURL none b!"POST" [], .processRequestHeader (some [(b!"Content-Type", [b!"multipart/form-data"])]),
          .appendRequestBody x {}, .appendRequestBody y {}, .processRequestBody] = .panic := by
  obtain ⟨set, links, hload, hord, hrun⟩ := C94_exact (vo := varOrd) (ord := Sample.ord) (text := namesText)
    ((C53_exact id _ _).1 (by decide +kernel)) namesText_ok
  refine ⟨set, hload, ?_⟩
  have hone : ∀ c ∈ chainsOf (rulesIn namesDirs), ∀ p ∈ c, ∃ v, p.vars = [v] := by
    intro c hc p hp
    have hc : c = [namesRule 1 b!"evil"] ∨ c = [namesRule 2 b!"bad"] := by simpa using (show c ∈ [[namesRule 1 b!"evil"], [namesRule 2 b!"bad"]] from hc)
    rcases hc with rfl | rfl <;> rw [List.mem_singleton.1 hp] <;> exact ⟨_, rfl⟩
  have hl : links 3 = [[single (namesRule 1 b!"evil")], [single (namesRule 2 b!"bad")]] := (hord.single (by decide) hone).trans rfl
  let sw : Switches := { req := true, resp := false }
  let k0 : Held := { facts := { method := b!"POST", headers := some [(b!"Content-Type", [b!"multipart/form-data"])] } }
  obtain ⟨s, hk⟩ := accept_size k0 x y rfl rfl rfl rfl h2
  let k : Held := { k0 with size := x.length + y.length, store := s }
  let k' : Held := { k with parts := .broken, store := s.formTo 0 }
  have hno : ∀ k : Held, k.facts = k0.facts → ¬ HasType brokenLib true k b!"application/x-www-form-urlencoded" := by
    intro k e h
    have := h.2
    rw [e] at this
    exact absurd this (by decide)
  have htype : ∀ k : Held, k.facts = k0.facts → k.size = x.length + y.length → HasType brokenLib true k b!"multipart/" := by
    intro k e e'
    refine ⟨⟨rfl, .inl (by rw [e]), by omega⟩, ?_⟩
    rw [e]
    exact (show b!"multipart/" <+: declared brokenLib { facts := k0.facts } by decide)
  have hform : askForm brokenLib sw k = .returns (some [], k', []) := by
    rw [askForm, if_neg (hno k rfl), if_pos (htype k rfl rfl)]; rfl
  have hform' : askForm brokenLib sw k' = .returns (none, k', []) := by
    rw [askForm, if_neg (hno k' rfl), if_pos (htype k' rfl rfl)]; rfl
  let m1 : Mach Held := { known := k', phase := 3, rule := ((0 : Nat) : Int) }
  have heval : evalLinks brokenLib sw 0 [single (namesRule 1 b!"evil")] { known := k, phase := 3 } = .returns (m1, 1) := by
    obtain ⟨P, htest, hP⟩ : ∃ P : Prop, test brokenLib sw (single (namesRule 1 b!"evil")) { known := k, phase := 3, rule := ((0 : Nat) : Int) } = .returns (m1, P) ∧ ¬ P := by
      rw [test, show askAll brokenLib sw (single (namesRule 1 b!"evil")).rule.vars (single (namesRule 1 b!"evil")).order k =
        (ask brokenLib sw k .argsPostNames).bind fun a => (askAll brokenLib sw (single (namesRule 1 b!"evil")).rule.vars [] a.2.1).bind fun b => _ from rfl]
      rw [ask, hform]
      refine ⟨_, rfl, ?_⟩
      rintro ⟨_, z, (⟨vals, ⟨_, hmem⟩, hz⟩ | hz), _⟩
      · have hz : z ∈ vals := hz
        cases ((hmem z).1 hz).1
      · exact hz
    have hm : meets brokenLib sw [single (namesRule 1 b!"evil")] { known := k, phase := 3, rule := ((0 : Nat) : Int) } = .returns (m1, False) := by
      rw [meets, htest]
      simp only [Ending.bind]
      rw [if_neg hP]
    rw [evalLinks]
    simp only [hm, Ending.bind]
    rw [if_neg id]
  have heval' : evalLinks brokenLib sw 1 [single (namesRule 2 b!"bad")] m1 = .panics := by
    have ha : ask brokenLib sw k' .argsPostNames = .panics := by rw [ask, hform']; rfl
    have htest : test brokenLib sw (single (namesRule 2 b!"bad")) { m1 with rule := ((1 : Nat) : Int) } = .panics := by
      rw [test, show askAll brokenLib sw (single (namesRule 2 b!"bad")).rule.vars (single (namesRule 2 b!"bad")).order k' =
        (ask brokenLib sw k' .argsPostNames).bind fun a => (askAll brokenLib sw (single (namesRule 2 b!"bad")).rule.vars [] a.2.1).bind fun b => _ from rfl, ha]
      rfl
    rw [evalLinks, meets, htest]
    rfl
  have hend : endBy (evalLinks brokenLib sw) 3 (links 3) { known := k, phase := 3 } = .panics := by
    rw [hl]
    exact endBy_crash (.go (x := (m1, 1)) rfl heval (fun h => h.elim (fun h => by cases h) (fun h => h rfl)) (.crash rfl heval'))
  have hall := runBy_posted (E := evalLinks brokenLib sw) ((hord.single (by decide) hone).trans rfl) ((hord.single (by decide) hone).trans rfl)
    b!"multipart/form-data" x y (r := .panics) (fun k hk' => by rw [hk', hk]; exact hend) []
  have hrun := hrun ([.processConnection [] [] [] [], .processRequestURL none b!"POST" [], .processRequestHeader (some [(b!"Content-Type", [b!"multipart/form-data"])]),
          .appendRequestBody x {}, .appendRequestBody y {}, .processRequestBody] ++ [])
  have e : runBy heldSight (evalLinks brokenLib { req := reqAccess namesDirs, resp := respAccess namesDirs }) links { known := {} } _ = .panics := hall
  rw [e] at hrun
  exact hrun.2

end Verif
