import Verif.Props.BodyPrefix
import Verif.Props.HostBody
import Verif.Props.Multipart
/-! C113: how a body is cut into chunks makes no difference. -/
namespace Verif
open Sample

/-- Two histories with the same calls and the same bodies between them, cut differently. -/
inductive Spec.Recut : List Op → List Op → Prop
  | nil : Recut [] []
  | call {op : Op} {a b : List Op} : (∀ r, chunkOf r op = none) → Recut a b → Recut (op :: a) (op :: b)
  | request {cs ds : List Bytes} {a b : List Op} : cs.flatten = ds.flatten → Recut a b →
      Recut (cs.map (.appendRequestBody · {}) ++ a) (ds.map (.appendRequestBody · {}) ++ b)
  | response {cs ds : List Bytes} {a b : List Op} : cs.flatten = ds.flatten → Recut a b →
      Recut (cs.map (.appendResponseBody · {}) ++ a) (ds.map (.appendResponseBody · {}) ++ b)

/-- What the calls other than appends answered. -/
def Spec.replies (os : List Out) : List Out := os.filter fun | .error _ => false | _ => true

/-- How a history ends: the answers and the rules evaluated, or a panic. -/
def Spec.ending (x : Res (Tx × List Out × Trace)) : Res (List Out × Trace) := x.bind fun y => .ok (replies y.2.1, y.2.2)

/-- C113: whatever chunks a body arrives in, every other call answers the same and the same
rules are evaluated. -/
def C113_statement : Prop :=
  ∀ (env : Env) (rs : RuleSet) (a b : List Op), rs.KeepsBodies → Spec.Recut a b → ∀ n,
    Spec.ending ((newTransaction env.limits).steps env rs n a) = Spec.ending ((newTransaction env.limits).steps env rs n b)

theorem Spec.Recut.sent {a b : List Op} (h : Recut a b) (r : Bool) : Spec.sent r a = Spec.sent r b := by
  have app : ∀ (a b : List Op), Spec.sent r (a ++ b) = Spec.sent r a ++ Spec.sent r b := fun a b => by simp [Spec.sent]
  have req : ∀ cs : List Bytes, Spec.sent r (cs.map (Op.appendRequestBody · {})) = if r then [] else cs.flatten := by
    intro cs
    induction cs with
    | nil => cases r <;> rfl
    | cons c cs ih => rw [List.map_cons, sent_cons, ih]; cases r <;> rfl
  have resp : ∀ cs : List Bytes, Spec.sent r (cs.map (Op.appendResponseBody · {})) = if r then cs.flatten else [] := by
    intro cs
    induction cs with
    | nil => cases r <;> rfl
    | cons c cs ih => rw [List.map_cons, sent_cons, ih]; cases r <;> rfl
  induction h with
  | nil => rfl
  | call _ _ ih => rw [sent_cons, sent_cons, ih]
  | request e _ ih => rw [app, app, req, req, e, ih]
  | response e _ ih => rw [app, app, resp, resp, e, ih]

/-- A buffer in memory that has room for `k` more bytes. -/
structure Buf.Room (b : Buf) (k : Nat) : Prop where
  readed : b.readed = false
  fileBuf : b.fileBuf = none
  mem : (b.length : Int) + k ≤ b.memLimit
  file : (b.length : Int) + k ≤ b.fileLimit

theorem Buf.Room.same {b b' : Buf} {k : Nat} (h : b.Room k) (hs : b.SameBody b') : b'.Room k :=
  ⟨hs.readed.trans h.readed, by
    have := hs.file
    rw [h.fileBuf] at this
    exact Option.map_eq_none_iff.1 this,
   by rw [hs.length, hs.memLimit]; exact h.mem, by rw [hs.length, hs.fileLimit]; exact h.file⟩

/-- The buffer with `p` added in memory. -/
def Buf.plus (b : Buf) (p : Bytes) : Buf := { b with memBuf := b.memBuf ++ p, length := b.length + p.length }

theorem Buf.plus_plus (b : Buf) (p q : Bytes) : (b.plus p).plus q = b.plus (p ++ q) := by
  simp [Buf.plus, Nat.add_assoc]

theorem Buf.plus_nil (b : Buf) : b.plus [] = b := by simp [Buf.plus]

theorem Buf.Room.plus {b : Buf} {k : Nat} {p : Bytes} (h : b.Room (p.length + k)) : (b.plus p).Room k := by
  obtain ⟨h1, h2, h3, h4⟩ := h
  refine ⟨h1, h2, ?_, ?_⟩ <;> simp only [Buf.plus] <;> omega

theorem Buf.Room.write {b : Buf} {k : Nat} {p : Bytes} (h : b.Room (p.length + k)) (io : IOFault) : b.write p io = .ok (b.plus p, p.length, none) := by
  obtain ⟨h1, h2, h3, h4⟩ := h
  simp only [Buf.write, h1, h2, Buf.plus]
  rw [if_neg (by simp), if_neg (by omega), if_neg (by omega)]

theorem request_chunks {env : Env} {rs : RuleSet} {n : Nat} : ∀ {cs : List Bytes} {k : Nat} {t : Tx}, t.reqBody.Room (cs.flatten.length + k) → ∀ ops,
    Spec.ending (t.steps env rs n (cs.map (.appendRequestBody · {}) ++ ops)) =
      Spec.ending (({ t with reqBody := t.reqBody.plus cs.flatten } : Tx).steps env rs n ops)
  | [], k, t, _, ops => by rw [List.flatten_nil, Buf.plus_nil]; rfl
  | c :: cs, k, t, h, ops => by
    rw [List.flatten_cons, List.length_append, Nat.add_assoc] at h
    have ih := request_chunks (env := env) (rs := rs) (n := n) (cs := cs) (t := { t with reqBody := t.reqBody.plus c }) h.plus ops
    rw [List.flatten_cons, ← Buf.plus_plus, ← ih]
    simp only [List.map_cons, List.cons_append, Tx.steps, Tx.step, h.write, Res.bind, Spec.ending]
    cases Tx.steps env rs n { t with reqBody := t.reqBody.plus c } (cs.map (.appendRequestBody · {}) ++ ops) with
    | ok x => rfl
    | panic => rfl
    | fuel => rfl

theorem response_chunks {env : Env} {rs : RuleSet} {n : Nat} : ∀ {cs : List Bytes} {k : Nat} {t : Tx}, t.respBody.Room (cs.flatten.length + k) → ∀ ops,
    Spec.ending (t.steps env rs n (cs.map (.appendResponseBody · {}) ++ ops)) =
      Spec.ending (({ t with respBody := t.respBody.plus cs.flatten } : Tx).steps env rs n ops)
  | [], k, t, _, ops => by rw [List.flatten_nil, Buf.plus_nil]; rfl
  | c :: cs, k, t, h, ops => by
    rw [List.flatten_cons, List.length_append, Nat.add_assoc] at h
    have ih := response_chunks (env := env) (rs := rs) (n := n) (cs := cs) (t := { t with respBody := t.respBody.plus c }) h.plus ops
    rw [List.flatten_cons, ← Buf.plus_plus, ← ih]
    simp only [List.map_cons, List.cons_append, Tx.steps, Tx.step, h.write, Res.bind, Spec.ending]
    cases Tx.steps env rs n { t with respBody := t.respBody.plus c } (cs.map (.appendResponseBody · {}) ++ ops) with
    | ok x => rfl
    | panic => rfl
    | fuel => rfl

theorem sent_request (r : Bool) (cs : List Bytes) (ops : List Op) :
    Spec.sent r (cs.map (Op.appendRequestBody · {}) ++ ops) = (if r then [] else cs.flatten) ++ Spec.sent r ops := by
  induction cs with
  | nil => cases r <;> rfl
  | cons c cs ih => rw [List.map_cons, List.cons_append, sent_cons, ih]; cases r <;> simp [Spec.chunkOf]

theorem sent_response (r : Bool) (cs : List Bytes) (ops : List Op) :
    Spec.sent r (cs.map (Op.appendResponseBody · {}) ++ ops) = (if r then cs.flatten else []) ++ Spec.sent r ops := by
  induction cs with
  | nil => cases r <;> rfl
  | cons c cs ih => rw [List.map_cons, List.cons_append, sent_cons, ih]; cases r <;> simp [Spec.chunkOf]

theorem recut_ending {env : Env} {rs : RuleSet} (hrs : rs.KeepsBodies) {n : Nat} {a b : List Op} (h : Spec.Recut a b) : ∀ {t : Tx},
    t.reqBody.Room (Spec.sent false a).length → t.respBody.Room (Spec.sent true a).length →
    Spec.ending (t.steps env rs n a) = Spec.ending (t.steps env rs n b) := by
  induction h with
  | nil => intros; rfl
  | @call op a b hop _ ih =>
    intro t h1 h2
    rw [sent_cons, hop, Option.getD_none, List.nil_append] at h1 h2
    simp only [Tx.steps]
    cases hs : t.step env rs n op with
    | panic => rfl
    | fuel => rfl
    | ok x =>
      obtain ⟨t1, o, tr⟩ := x
      have e1 : ∀ p io, op ≠ .appendRequestBody p io := by intro p io he; have := hop false; rw [he] at this; cases this
      have e2 : ∀ p io, op ≠ .appendResponseBody p io := by intro p io he; have := hop true; rw [he] at this; cases this
      have := ih (h1.same ((reqBody_inv env hrs t.reqBody).step e1 (.refl _) hs)) (h2.same ((respBody_inv env hrs t.respBody).step e2 (.refl _) hs))
      simp only [Res.bind]
      generalize Tx.steps env rs n t1 a = x, Tx.steps env rs n t1 b = y at this
      simp only [Spec.ending, Res.bind] at this ⊢
      cases x <;> cases y <;> simp_all [Spec.replies]
      rw [List.filter_cons, List.filter_cons]
      simp [this]
  | @request cs ds a b e _ ih =>
    intro t h1 h2
    rw [sent_request] at h1 h2
    simp only [Bool.false_eq_true, if_false, if_true, List.length_append, List.nil_append] at h1 h2
    rw [request_chunks h1, request_chunks (cs := ds) (by rw [← e]; exact h1), ← e]
    exact ih h1.plus h2
  | @response cs ds a b e _ ih =>
    intro t h1 h2
    rw [sent_response] at h1 h2
    simp only [Bool.false_eq_true, if_false, if_true, List.length_append, List.nil_append] at h1 h2
    rw [response_chunks h2, response_chunks (cs := ds) (by rw [← e]; exact h2), ← e]
    exact ih h1 h2.plus

/-- C113 for bodies that fit: the request body within the limit of memory and of the body, the
response body within its limit. -/
theorem C113_chunks_partial {env : Env} {rs : RuleSet} (hrs : rs.KeepsBodies) {a b : List Op} (h : Spec.Recut a b)
    (h1 : ((Spec.sent false a).length : Int) ≤ env.limits.requestBodyInMem) (h2 : ((Spec.sent false a).length : Int) ≤ env.limits.requestBody)
    (h3 : ((Spec.sent true a).length : Int) ≤ env.limits.responseBody) (n : Nat) :
    Spec.ending ((newTransaction env.limits).steps env rs n a) = Spec.ending ((newTransaction env.limits).steps env rs n b) := by
  refine recut_ending hrs h ⟨rfl, rfl, ?_, ?_⟩ ⟨rfl, rfl, ?_, ?_⟩ <;>
    simp only [newTransaction, newBuffer, Int.natCast_zero, Int.zero_add] <;> assumption

/-! ### Bodies moved to a temporary file -/

/-- At least `N` bytes each, the first `N` being the same. -/
structure Long (N : Nat) (x y : Bytes) : Prop where
  left : N ≤ x.length
  right : N ≤ y.length
  same : x.take N = y.take N

/-- Two bodies in temporary files that show the same through `Len`, `String`, `Write` and
reads of at most `N` bytes. -/
structure Buf.Spilt (N : Nat) (b c : Buf) : Prop where
  length : b.length = c.length
  memLimit : b.memLimit = c.memLimit
  fileLimit : b.fileLimit = c.fileLimit
  unread : b.readed = false ∧ c.readed = false
  memBuf : b.memBuf = c.memBuf
  file : ∃ f f', b.fileBuf = some f ∧ c.fileBuf = some f' ∧ f.closed = false ∧ f'.closed = false ∧
    (f.pos = f'.pos ∨ N ≤ f.pos ∧ N ≤ f'.pos) ∧ Long N f.content f'.content

/-- The same body, or alike in temporary files. -/
def Recast (N : Nat) (_ : Option GoMap) (b c : Buf) : Prop := b = c ∨ b.Spilt N c

theorem Res.Both.self {α : Type} {R : α → α → Prop} (hR : ∀ a, R a a) (x : Res α) : x.Both R x := by
  cases x with
  | ok a => exact .ok (hR a)
  | panic => exact .panic
  | fuel => exact .fuel

theorem Long.take_eq {N : Nat} {x y : Bytes} (h : Long N x y) {k : Nat} (hk : k ≤ N) : x.take k = y.take k := by
  have := congrArg (List.take k) h.same
  rwa [List.take_take, List.take_take, Nat.min_eq_left hk] at this

theorem Long.empty {N : Nat} {x y : Bytes} (h : Long N x y) (hN : 0 < N) : x ≠ [] ∧ y ≠ [] := by
  obtain ⟨h1, h2, _⟩ := h
  constructor <;> (rintro rfl; simp at h1 h2; omega)

theorem plays_long {N : Nat} {g : ReadProg} (hN : ∀ h k, g h = .inl k → 0 < k ∧ k ≤ N) {x y : Bytes} (hc : Long N x y) : ∀ {h : List Reply} {p p' : Nat} {r : FormRes},
    Plays (repeating (some x)) g h p r p' → Plays (repeating (some y)) g h p r p' := by
  intro h p p' r hp
  induction hp with
  | stop hs => exact .stop hs
  | ask hk ha _ ih =>
    refine .ask hk ⟨?_, ha.2⟩ ih
    obtain ⟨k1, k2⟩ := hN _ _ hk
    obtain ⟨e1, e2⟩ := hc.empty (by omega)
    have := ha.1
    simp only [hc.take_eq k2, e1, e2] at this ⊢
    exact this

theorem Long.symm {N : Nat} {x y : Bytes} (h : Long N x y) : Long N y x := ⟨h.right, h.left, h.same.symm⟩

section
variable {env : Env} {N : Nat} {g : Bytes → Int → ReadProg}

theorem readForm_long (hl : env.lib.Runs g) (hN : AsksAtMost N g) {x y : Bytes} (h : Long N x y) (bnd : Bytes) (m : Int) :
    env.lib.readForm (some x) bnd m = env.lib.readForm (some y) bnd m ∨
      ((env.lib.readForm (some x) bnd m).1 = .hang ∧ (env.lib.readForm (some y) bnd m).1 = .hang) := by
  have hN' : ∀ h k, g bnd m h = .inl k → 0 < k ∧ k ≤ N := fun h k e => ⟨hl.asks _ _ _ _ e, hN _ _ _ _ e⟩
  rcases h1 : env.lib.readForm (some x) bnd m with ⟨r, p⟩
  rcases h2 : env.lib.readForm (some y) bnd m with ⟨r', p'⟩
  by_cases hr : r = .hang
  · by_cases hr' : r' = .hang
    · exact .inr ⟨hr, hr'⟩
    · have := (hl.runs _ _ _ r' p' hr').2 (plays_long hN' h.symm ((hl.runs _ _ _ r' p' hr').1 h2))
      rw [h1] at this
      exact .inl this
  · have := (hl.runs _ _ _ r p hr).2 (plays_long hN' h ((hl.runs _ _ _ r p hr).1 h1))
    rw [h2] at this
    exact .inl this.symm

theorem Buf.Spilt.string {b c : Buf} (h : b.Spilt N c) : b.string.1.Spilt N c.string.1 ∧ b.string.2 = c.string.2 := by
  obtain ⟨h1, h2, h3, h4, h5, f, f', h6, h7, h8, h9, h10, h11⟩ := h
  simp only [Buf.string, Buf.initRead, h4.1, h4.2, h6, h7, Bool.not_false, if_true, Option.map_some, h8, h9, Bool.false_eq_true, if_false, h5, Option.isSome_some, and_true]
  exact ⟨h1, h2, h3, ⟨rfl, rfl⟩, rfl, _, _, rfl, rfl, rfl, rfl, .inl rfl, h11⟩

theorem Buf.Spilt.content {b c : Buf} (h : b.Spilt N c) : ∃ x y, b.content = some x ∧ c.content = some y ∧ Long N x y := by
  obtain ⟨h1, h2, h3, h4, h5, f, f', h6, h7, h8, h9, h10, h11⟩ := h
  exact ⟨f.content, f'.content, by simp [Buf.content, h6, h8], by simp [Buf.content, h7, h9], h11⟩

theorem Buf.Spilt.afterForm {b c : Buf} (h : b.Spilt N c) (n : Nat) : (b.afterForm n).Spilt N (c.afterForm n) := by
  by_cases hn : n = 0
  · simpa only [Buf.afterForm, hn, if_true] using h
  obtain ⟨h1, h2, h3, h4, h5, f, f', h6, h7, h8, h9, h10, h11⟩ := h
  simp only [Buf.afterForm, hn, Buf.read, Buf.initRead, h4.1, h4.2, h6, h7, Bool.not_false, if_true, Option.map_some, h8, h9, Bool.false_eq_true, if_false, File.read]
  refine ⟨h1, h2, h3, ⟨rfl, rfl⟩, h5, _, _, rfl, rfl, rfl, rfl, ?_, h11⟩
  have := h11.left
  have := h11.right
  simp only [List.drop_zero, List.length_take]
  omega

theorem parseBody_recast (hl : env.lib.Runs g) (hN : AsksAtMost N g) (tp : BodyType) (bnd : Bytes) {t u : Tx} (h : Duo (Recast N) t u) :
    (parseBody env tp bnd t).Both (fun x y => Duo (Recast N) x.1 y.1 ∧ x.2 = y.2) (parseBody env tp bnd u) := by
  rcases h.body with he | hb
  · have : u = t := by rw [h.rest, ← he]
    rw [this]
    exact Res.Both.self (fun a => ⟨⟨rfl, .inl rfl⟩, rfl⟩) _
  · cases tp with
    | urlencoded =>
      obtain ⟨k1, k2⟩ := hb.string
      obtain ⟨f, f', h6, h7, h8, h9, -⟩ := hb.file
      have hw := h.with (b := t.reqBody.string.1) (c := u.reqBody.string.1) (.inr k1)
      have e : t.reqBody.string.2.2 = some .outOfMemLimit := by simp [Buf.string, Buf.initRead, hb.unread.1, h6]
      simp only [parseBody, ← k2, e]
      exact .ok ⟨hw.map (f := fun t => t.abortWithError 413 errOutOfMemLimit) (fun _ _ => rfl) rfl, rfl⟩
    | multipart =>
      obtain ⟨x, y, c1, c2, hxy⟩ := hb.content
      rcases h1 : env.lib.readForm (some x) bnd env.limits.requestBodyInMem with ⟨r, p⟩
      rcases h2 : env.lib.readForm (some y) bnd env.limits.requestBodyInMem with ⟨r', p'⟩
      simp only [parseBody, c1, c2, h1, h2]
      rcases readForm_long hl hN hxy bnd env.limits.requestBodyInMem with he | ⟨he, he'⟩
      · rw [h1, h2] at he
        cases he
        have hw := h.with (b := t.reqBody.afterForm p) (c := u.reqBody.afterForm p) (.inr (hb.afterForm p))
        cases r with
        | ok m => exact .ok ⟨hw, rfl⟩
        | tooLarge => exact .ok ⟨hw.map (f := fun t => t.abortWithError 413 errMessageTooLarge) (fun _ _ => rfl) rfl, rfl⟩
        | err e => exact .ok ⟨hw, rfl⟩
        | hang => exact .fuel
      · rw [h1] at he
        rw [h2] at he'
        simp only at he he'
        subst he he'
        exact .fuel

theorem loop_recast (hl : env.lib.Runs g) (hN : AsksAtMost N g) (ct bnd : Bytes) : ∀ (tps : List BodyType) {t u : Tx}, Duo (Recast N) t u →
    (requestBodyLoop env ct bnd tps t).Both (fun x y => Duo (Recast N) x.1 y.1 ∧ x.2 = y.2) (requestBodyLoop env ct bnd tps u)
  | [], t, u, h => .ok ⟨h, rfl⟩
  | tp :: tps, t, u, h => by
    have ec : u.cache = t.cache := h.get Tx.cache fun _ _ => rfl
    simp only [requestBodyLoop, ec]
    split
    · exact loop_recast hl hN ct bnd tps h
    · cases t.cache.lookup tp with
      | some res =>
        simp only
        split
        · exact loop_recast hl hN ct bnd tps h
        · exact .ok ⟨h, rfl⟩
      | none =>
        simp only
        refine (parseBody_recast hl hN tp bnd h).bind fun x y hxy => ?_
        obtain ⟨x, res, err⟩ := x
        obtain ⟨y, res', err'⟩ := y
        obtain ⟨h1, h2⟩ := hxy
        cases h2
        have h1 := h1.map (f := fun t => t.setCache tp res) (fun _ _ => rfl) rfl
        cases err with
        | some e => exact .ok ⟨h1.map (f := fun t => { t with reqBodyError := some e }) (fun _ _ => rfl) rfl, rfl⟩
        | none =>
          simp only
          split
          · exact loop_recast hl hN ct bnd tps h1
          · exact .ok ⟨h1, rfl⟩

theorem Recast.len {h : Option GoMap} {b c : Buf} (hb : Recast N h b c) : c.len = b.len := by
  rcases hb with rfl | hb
  · rfl
  · exact hb.length.symm

theorem parse_recast (hl : env.lib.Runs g) (hN : AsksAtMost N g) {t u : Tx} (h : Duo (Recast N) t u) :
    (requestBodyParse env t).Both (fun x y => Duo (Recast N) x.1 y.1 ∧ x.2 = y.2) (requestBodyParse env u) := by
  have em : u.method = t.method := h.get Tx.method fun _ _ => rfl
  have eh : u.reqHeader = t.reqHeader := h.get Tx.reqHeader fun _ _ => rfl
  simp only [requestBodyParse, em, eh, h.body.len]
  split
  · exact .ok ⟨h, rfl⟩
  · split
    · exact .ok ⟨h, rfl⟩
    · exact loop_recast hl hN _ _ _ h

/-- No stock variable tells the bodies apart. -/
theorem fetch_recast (hl : env.lib.Runs g) (hN : AsksAtMost N g) : FetchesAlike env (Recast N) := by
  have post : ∀ (f : Filter) {t u : Tx}, Duo (Recast N) t u →
      (fetchArgsPost env f t).Both (fun x y => x.1 = y.1 ∧ Duo (Recast N) x.2 y.2) (fetchArgsPost env f u) := by
    intro f t u h
    refine (parse_recast hl hN h).bind fun x y hxy => ?_
    obtain ⟨x, tp, v⟩ := x
    obtain ⟨y, tp', v'⟩ := y
    obtain ⟨h1, h2⟩ := hxy
    cases h2
    simp only
    split <;> exact .ok ⟨rfl, h1⟩
  have names : ∀ (f : Filter) {t u : Tx}, Duo (Recast N) t u →
      (fetchArgsPostNames env f t).Both (fun x y => x.1 = y.1 ∧ Duo (Recast N) x.2 y.2) (fetchArgsPostNames env f u) := by
    intro f t u h
    refine (parse_recast hl hN h).bind fun x y hxy => ?_
    obtain ⟨x, tp, v⟩ := x
    obtain ⟨y, tp', v'⟩ := y
    obtain ⟨h1, h2⟩ := hxy
    cases h2
    simp only
    split <;> first | exact .ok ⟨rfl, h1⟩ | exact .panic
  intro v
  induction v with
  | custom f => intro hv; exact hv.elim
  | count v ih =>
    intro hv t u h
    simp only [Var.fetch]
    exact (ih hv h).bind fun x y hxy => .ok ⟨by simp only [hxy.1], hxy.2⟩
  | args a b =>
    intro _ t u h
    simp only [Var.fetch]
    refine (post b h).bind fun x y hxy => .ok ⟨?_, hxy.2⟩
    have := h.get (fetchArgsGet env a) fun _ _ => rfl
    simp only [hxy.1, this]
  | argsNames a b =>
    intro _ t u h
    simp only [Var.fetch]
    refine (names b h).bind fun x y hxy => .ok ⟨?_, hxy.2⟩
    have := h.get (fetchArgsGetNames env a) fun _ _ => rfl
    simp only [hxy.1, this]
  | argsPost f => intro _ t u h; exact post f h
  | argsPostNames f => intro _ t u h; exact names f h
  | requestBody =>
    intro _ t u h
    have em : u.method = t.method := h.get Tx.method fun _ _ => rfl
    have eh : u.reqHeader = t.reqHeader := h.get Tx.reqHeader fun _ _ => rfl
    rcases h.body with he | hb
    · have : u = t := by rw [h.rest, ← he]
      rw [this]
      exact Res.Both.self (fun a => ⟨rfl, rfl, .inl rfl⟩) _
    · simp only [Var.fetch, fetchRequestBody, em, eh, h.body.len]
      split
      · exact .ok ⟨rfl, h⟩
      · split
        · exact .ok ⟨rfl, h⟩
        · split
          · exact .ok ⟨rfl, h⟩
          · split
            · exact .ok ⟨rfl, h⟩
            · obtain ⟨k1, k2⟩ := hb.string
              obtain ⟨f, f', h6, h7, h8, h9, -⟩ := hb.file
              have hw := h.with (b := t.reqBody.string.1) (c := u.reqBody.string.1) (.inr k1)
              have e : t.reqBody.string.2.2 = some .outOfMemLimit := by simp [Buf.string, Buf.initRead, hb.unread.1, h6]
              rw [em, eh] at hw
              simp only [← k2, e]
              exact .ok ⟨rfl, hw.map (f := fun t => t.abortWithError 413 errOutOfMemLimit) (fun _ _ => rfl) rfl⟩
  | responseBody =>
    intro _ t u h
    have eb : u.respBody = t.respBody := h.get Tx.respBody fun _ _ => rfl
    simp only [Var.fetch, fetchResponseBody, eb]
    split
    · exact .ok ⟨rfl, h⟩
    · have hm := h.map (f := fun t' => { t' with respBody := t.respBody.string.1 }) (fun _ _ => rfl) rfl
      split
      · exact .ok ⟨rfl, hm.map (f := fun t => t.abortWithError 500 errOutOfMemLimit) (fun _ _ => rfl) rfl⟩
      · exact .ok ⟨rfl, hm⟩
  | _ =>
    intro _ t u h
    obtain ⟨b, rfl⟩ : ∃ b, u = { t with reqBody := b } := ⟨_, h.rest⟩
    exact .ok ⟨rfl, h⟩

end

/-! ### Chunks of a body that may be moved to a file -/

theorem writeAt_writeAt (x : Bytes) (n : Nat) (p q : Bytes) : writeAt (writeAt x n p) (n + p.length) q = writeAt x n (p ++ q) := by
  by_cases hp : p = []
  · subst hp; simp [writeAt]
  · by_cases hq : q = []
    · subst hq; simp [writeAt]
    · have hpq : p ++ q ≠ [] := by simp [hp]
      simp only [writeAt, hp, hq, hpq, if_false]
      refine List.ext_getElem? fun i => ?_
      simp only [List.getElem?_append, List.length_append, List.length_take, List.length_replicate, List.getElem?_take, List.getElem?_replicate,
        List.getElem?_drop, List.length_drop]
      grind

/-- The buffer `b` after it has accepted the bytes `p`, in whatever chunks. -/
def Buf.Grown (b : Buf) (p : Bytes) (b' : Buf) : Prop :=
  match b.fileBuf with
  | some f => b' = { b with fileBuf := some { f with content := writeAt f.content f.pos p, pos := f.pos + p.length }, length := b.length + p.length }
  | none =>
    if (b.length : Int) + p.length ≤ b.memLimit then b' = b.plus p
    else ∃ r, b' = { b with
      memBuf := (b.memBuf ++ p).take b.memLimit.toNat, length := b.length + p.length,
      fileBuf := some { content := (b.memBuf ++ p).take b.memLimit.toNat ++ r, pos := b.memLimit.toNat + r.length } }

/-- A body that has room for `k` bytes, in memory or in an open file. -/
structure Buf.Fits (b : Buf) (k : Nat) : Prop where
  readed : b.readed = false
  limit : 0 ≤ b.memLimit
  file : (b.length : Int) + k ≤ b.fileLimit
  mem : b.fileBuf = none → b.memBuf.length = b.length ∧ (b.length : Int) ≤ b.memLimit
  opened : ∀ f, b.fileBuf = some f → f.closed = false

theorem Buf.Fits.write {b : Buf} {p : Bytes} {k : Nat} (h : b.Fits (p.length + k)) : ∃ b', b.write p {} = .ok (b', p.length, none) ∧ b'.Fits k ∧
    b.Grown p b' := by
  obtain ⟨h1, h2, h3, h4, h5⟩ := h
  cases hf : b.fileBuf with
  | some f =>
    have hc := h5 f hf
    refine ⟨{ b with fileBuf := some { f with content := writeAt f.content f.pos p, pos := f.pos + p.length }, length := b.length + p.length }, ?_, ⟨h1, h2, ?_, ?_, ?_⟩, ?_⟩
    · simp only [Buf.write, h1, hf, File.write, hc, Bool.false_eq_true, if_false]
      rw [if_neg (by omega)]
    · simp only [Int.natCast_add]; omega
    · intro e; cases e
    · intro f' e; cases e; exact hc
    · simp only [Buf.Grown, hf]
  | none =>
    obtain ⟨m1, m2⟩ := h4 hf
    by_cases hm : (b.length : Int) + p.length ≤ b.memLimit
    · refine ⟨b.plus p, ?_, ⟨h1, h2, ?_, ?_, ?_⟩, ?_⟩
      · simp only [Buf.write, h1, hf, Bool.false_eq_true, if_false, Buf.plus]
        rw [if_neg (by omega), if_neg (by omega)]
      · simp only [Buf.plus, Int.natCast_add]; omega
      · intro _; simp only [Buf.plus, List.length_append, m1, Int.natCast_add]; exact ⟨trivial, hm⟩
      · intro f e; simp [Buf.plus, hf] at e
      · simp only [Buf.Grown, hf, hm, if_true]
    · have et : (b.memBuf ++ p).take b.memLimit.toNat = b.memBuf ++ p.take (b.memLimit - b.length).toNat := by
        rw [List.take_append, List.take_of_length_le (by omega)]
        congr 2
        omega
      have el : (b.memBuf ++ p.take (b.memLimit - b.length).toNat).length = b.memLimit.toNat := by simp; omega
      refine ⟨{ b with
          memBuf := (b.memBuf ++ p).take b.memLimit.toNat, length := b.length + p.length,
          fileBuf := some { content := (b.memBuf ++ p).take b.memLimit.toNat ++ p, pos := b.memLimit.toNat + p.length } }, ?_, ⟨h1, h2, ?_, ?_, ?_⟩, ?_⟩
      · simp only [Buf.write, h1, hf, Bool.false_eq_true, if_false]
        rw [if_neg (by omega), if_pos (by omega), if_neg (by omega)]
        rw [et]
        generalize b.memBuf ++ p.take (b.memLimit - b.length).toNat = m at el ⊢
        by_cases hm0 : m = []
        · subst hm0
          simp only [File.write, writeAt, ← el]
          by_cases hp : p = [] <;> simp [hp]
        · by_cases hp : p = []
          · exfalso; subst hp; simp at hm; omega
          · simp only [File.write, writeAt, hm0, hp, el]
            rw [show b.memLimit.toNat = m.length from el.symm]
            simp
      · simp only [Int.natCast_add]; omega
      · intro e; cases e
      · intro f' e; cases e; rfl
      · simp only [Buf.Grown, hf, hm, if_false]
        exact ⟨p, rfl⟩

theorem Buf.Grown.trans {b b1 b2 : Buf} {p q : Bytes} {k : Nat} (hb : b.Fits k) (h : b.Grown p b1) (h' : b1.Grown q b2) : b.Grown (p ++ q) b2 := by
  cases hf : b.fileBuf with
  | some f =>
    simp only [Buf.Grown, hf] at h ⊢
    subst h
    simp only [Buf.Grown] at h'
    rw [h', writeAt_writeAt]
    simp [Nat.add_assoc]
  | none =>
    obtain ⟨m1, m2⟩ := hb.mem hf
    have := hb.limit
    simp only [Buf.Grown, hf] at h ⊢
    split at h
    · rename_i hm
      subst h
      simp only [Buf.Grown, Buf.plus, hf, Int.natCast_add] at h'
      split at h'
      · rename_i hm2
        rw [if_pos (by simp; omega), h', ← Buf.plus_plus]; simp only [Buf.plus, hf]
      · rename_i hm2
        rw [if_neg (by simp; omega)]
        obtain ⟨r, rfl⟩ := h'
        exact ⟨r, by simp [Nat.add_assoc]⟩
    · rename_i hm
      obtain ⟨r, rfl⟩ := h
      rw [if_neg (by simp; omega)]
      simp only [Buf.Grown] at h'
      have ep : (b.memBuf ++ p).take b.memLimit.toNat = (b.memBuf ++ (p ++ q)).take b.memLimit.toNat := by
        rw [← List.append_assoc, List.take_append (l₁ := b.memBuf ++ p)]
        rw [show b.memLimit.toNat - (b.memBuf ++ p).length = 0 by simp; omega]
        simp
      have el : ((b.memBuf ++ (p ++ q)).take b.memLimit.toNat).length = b.memLimit.toNat := by simp; omega
      refine ⟨r ++ q, ?_⟩
      rw [ep] at h'
      rw [h']
      generalize (b.memBuf ++ (p ++ q)).take b.memLimit.toNat = m at el ⊢
      have : writeAt (m ++ r) (b.memLimit.toNat + r.length) q = m ++ (r ++ q) := by
        simp only [writeAt]
        split
        · simp_all
        · rw [show b.memLimit.toNat + r.length = (m ++ r).length by simp [el]]
          rw [List.take_length, Nat.sub_self, List.drop_of_length_le (by omega)]
          simp
      rw [this]
      simp [Nat.add_assoc]

theorem Buf.Grown.nil {b : Buf} {k : Nat} (hb : b.Fits k) : b.Grown [] b := by
  cases hf : b.fileBuf with
  | some f => 
    obtain ⟨a1, a2, a3, a4, a5, a6, a7⟩ := b
    simp only at hf
    subst hf
    simp [Buf.Grown, writeAt]
  | none =>
    have := (hb.mem hf).2
    simp only [Buf.Grown, hf]
    rw [if_pos (by simpa using this), Buf.plus_nil]

/-- The same bytes in other chunks leave the bodies alike. -/
theorem Recast.grown {N : Nat} {h : Option GoMap} {b c b' c' : Buf} {p : Bytes} {k : Nat} (hq : Recast N h b c) (hb : b.Fits k) (hM : (N : Int) ≤ b.memLimit)
    (h1 : b.Grown p b') (h2 : c.Grown p c') : Recast N h b' c' := by
  rcases hq with rfl | ⟨e1, e2, e3, e4, e5, f, f', h6, h7, h8, h9, h10, h11⟩
  · cases hf : b.fileBuf with
    | some f => simp only [Buf.Grown, hf] at h1 h2; exact .inl (h1.trans h2.symm)
    | none =>
      simp only [Buf.Grown, hf] at h1 h2
      split at h1
      · rename_i hm
        rw [if_pos hm] at h2
        exact .inl (h1.trans h2.symm)
      · rename_i hm
        rw [if_neg hm] at h2
        obtain ⟨r, rfl⟩ := h1
        obtain ⟨r', rfl⟩ := h2
        obtain ⟨m1, m2⟩ := hb.mem hf
        have el : ((b.memBuf ++ p).take b.memLimit.toNat).length = b.memLimit.toNat := by simp; omega
        refine .inr ⟨rfl, rfl, rfl, ⟨hb.readed, hb.readed⟩, rfl, _, _, rfl, rfl, rfl, rfl, .inr ⟨?_, ?_⟩, ?_, ?_, ?_⟩
        · simp only; omega
        · simp only; omega
        · simp only [List.length_append, el]; omega
        · simp only [List.length_append, el]; omega
        · simp only
          generalize (b.memBuf ++ p).take b.memLimit.toNat = m at el ⊢
          rw [List.take_append_of_le_length (by omega), List.take_append_of_le_length (by omega)]
  · simp only [Buf.Grown, h6, h7] at h1 h2
    subst h1 h2
    refine .inr ⟨by simp only [e1], e2, e3, e4, e5, _, _, rfl, rfl, h8, h9, ?_, ?_, ?_, ?_⟩
    · simp only; omega
    · have := h11.left; simp only [writeAt]; split
      · exact this
      · simp; omega
    · have := h11.right; simp only [writeAt]; split
      · exact this
      · simp; omega
    · obtain ⟨l1, l2, l3⟩ := h11
      have hi : ∀ i < N, f.content[i]? = f'.content[i]? := by
        intro i hi
        have := congrArg (fun l : Bytes => l[i]?) l3
        simpa [List.getElem?_take, hi] using this
      simp only [writeAt]
      split
      · exact l3
      · refine List.ext_getElem? fun i => ?_
        simp only [List.getElem?_take]
        split
        · rename_i hiN
          have := hi i hiN
          simp only [List.getElem?_append, List.length_append, List.length_take, List.length_replicate, List.getElem?_take, List.getElem?_replicate,
            List.getElem?_drop]
          rcases h10 with hp | ⟨hp, hp'⟩
          · rw [hp]
            have := hi (f'.pos + p.length + (i - (min f'.pos f'.content.length + (f'.pos - f'.content.length) + p.length)))
            grind
          · grind
        · rfl

/-- The chunks, one after the other. -/
theorem fits_chunks {env : Env} {rs : RuleSet} {n : Nat} : ∀ {cs : List Bytes} {k : Nat} {t : Tx}, t.reqBody.Fits (cs.flatten.length + k) → ∃ b,
    t.reqBody.Grown cs.flatten b ∧ b.Fits k ∧ b.memLimit = t.reqBody.memLimit ∧ ∀ ops,
    Spec.ending (t.steps env rs n (cs.map (.appendRequestBody · {}) ++ ops)) = Spec.ending (({ t with reqBody := b } : Tx).steps env rs n ops)
  | [], k, t, h => ⟨t.reqBody, .nil h, by simpa using h, rfl, fun _ => rfl⟩
  | c :: cs, k, t, h => by
    rw [List.flatten_cons, List.length_append, Nat.add_assoc] at h
    obtain ⟨b1, w1, w2, w3⟩ := h.write
    have hm : b1.memLimit = t.reqBody.memLimit := by
      cases hf : t.reqBody.fileBuf with
      | some f => simp only [Buf.Grown, hf] at w3; rw [w3]
      | none =>
        simp only [Buf.Grown, hf] at w3
        split at w3
        · rw [w3]; rfl
        · obtain ⟨r, rfl⟩ := w3; rfl
    obtain ⟨b, k1, k2, k3, k4⟩ := fits_chunks (env := env) (rs := rs) (n := n) (cs := cs) (t := { t with reqBody := b1 }) w2
    refine ⟨b, w3.trans h k1, k2, k3.trans hm, fun ops => ?_⟩
    rw [← k4]
    simp only [List.map_cons, List.cons_append, Tx.steps, Tx.step, w1, Res.bind, Spec.ending]
    cases Tx.steps env rs n { t with reqBody := b1 } (cs.map (.appendRequestBody · {}) ++ ops) with
    | ok x => rfl
    | panic => rfl
    | fuel => rfl

theorem Buf.Fits.same {b b' : Buf} {k : Nat} (h : b.Fits k) (hs : b.SameBody b') (ho : b'.fileState ≠ some true) : b'.Fits k := by
  refine ⟨hs.readed.trans h.readed, by rw [hs.memLimit]; exact h.limit, by rw [hs.length, hs.fileLimit]; exact h.file, fun hf => ?_, fun f hf => ?_⟩
  · have := hs.file
    rw [hf] at this
    rw [hs.memBuf, hs.length, hs.memLimit]
    exact h.mem (Option.map_eq_none_iff.1 this.symm)
  · cases hc : f.closed with
    | false => rfl
    | true => exact absurd (by simp [Buf.fileState, hf, hc]) ho

theorem Recast.fits {N : Nat} {h : Option GoMap} {b c : Buf} {k : Nat} (hq : Recast N h b c) (hb : b.Fits k) : c.Fits k := by
  rcases hq with rfl | ⟨e1, e2, e3, e4, e5, f, f', h6, h7, h8, h9, -⟩
  · exact hb
  · exact ⟨e4.2, by rw [← e2]; exact hb.limit, by rw [← e1, ← e3]; exact hb.file, fun hf => (by rw [h7] at hf; cases hf),
      fun g hg => (by rw [h7] at hg; cases hg; exact h9)⟩

theorem RuleSet.Stock.keepsBodies {rs : RuleSet} (h : rs.Stock) : rs.KeepsBodies := by
  have key : ∀ a : Action, a.Stock → a.KeepsBodies := by
    intro a ha
    cases a <;> first | trivial | exact ha.elim
  refine ⟨fun p r hr a ha => key a ?_, fun a ha => key a (h.default a ha)⟩
  have hs := h.rules p r hr
  rcases List.mem_append.1 ha with ha | ha
  · exact hs.1.actions a ha
  · obtain ⟨s, h1, h2⟩ := List.mem_flatMap.1 ha
    exact (hs.2 s h1).actions a h2

theorem recut_recast {env : Env} {N : Nat} {g : Bytes → Int → ReadProg} (hl : env.lib.Runs g) (hN : AsksAtMost N g) {rs : RuleSet} (hrs : rs.Stock) {n : Nat}
    {a b : List Op} (h : Spec.Recut a b) : ∀ {t u : Tx}, Duo (Recast N) t u → (N : Int) ≤ t.reqBody.memLimit → t.FilesOpen →
    t.reqBody.Fits (Spec.sent false a).length → t.respBody.Room (Spec.sent true a).length →
    Spec.ending (t.steps env rs n a) = Spec.ending (u.steps env rs n b) := by
  induction h with
  | nil => intros; rfl
  | @call op a b hop _ ih =>
    intro t u hd hM ho h1 h2
    rw [sent_cons, hop, Option.getD_none, List.nil_append] at h1 h2
    have e1 : ∀ p io, op ≠ .appendRequestBody p io := by intro p io he; have := hop false; rw [he] at this; cases this
    have e2 : ∀ p io, op ≠ .appendResponseBody p io := by intro p io he; have := hop true; rw [he] at this; cases this
    simp only [Tx.steps]
    have hs := step_twin (fetch_recast hl hN) hrs n (fun p io e => absurd e (e1 p io)) (fun _ _ _ _ _ hq => hq) hd
    cases ht : t.step env rs n op with
    | panic => rw [ht] at hs; cases hu : u.step env rs n op <;> rw [hu] at hs <;> first | rfl | cases hs
    | fuel => rw [ht] at hs; cases hu : u.step env rs n op <;> rw [hu] at hs <;> first | rfl | cases hs
    | ok x =>
      rw [ht] at hs
      cases hu : u.step env rs n op with
      | panic => rw [hu] at hs; cases hs
      | fuel => rw [hu] at hs; cases hs
      | ok y =>
        rw [hu] at hs
        obtain ⟨t1, o, tr⟩ := x
        obtain ⟨u1, o', tr'⟩ := y
        cases hs with
        | ok hs =>
          obtain ⟨hd1, he⟩ := hs
          cases he
          have hk := hrs.keepsBodies
          have b1 := (reqBody_inv env hk t.reqBody).step e1 (.refl _) ht
          have b2 := (respBody_inv env hk t.respBody).step e2 (.refl _) ht
          have ho1 := (filesOpen_inv env hk).step trivial ho ht
          have := ih hd1 (by rw [b1.memLimit]; exact hM) ho1 (h1.same b1 ho1.1) (h2.same b2)
          simp only [Res.bind]
          generalize Tx.steps env rs n t1 a = x, Tx.steps env rs n u1 b = y at this
          simp only [Spec.ending, Res.bind] at this ⊢
          cases x <;> cases y <;> simp_all [Spec.replies]
          rw [List.filter_cons, List.filter_cons]
          simp [this]
  | @request cs ds a b e _ ih =>
    intro t u hd hM ho h1 h2
    rw [sent_request] at h1 h2
    simp only [Bool.false_eq_true, if_false, if_true, List.length_append, List.nil_append] at h1 h2
    have hu := hd.body.fits h1
    obtain ⟨b1, k1, k2, k3, k4⟩ := fits_chunks (env := env) (rs := rs) (n := n) h1
    obtain ⟨c1, l1, l2, l3, l4⟩ := fits_chunks (env := env) (rs := rs) (n := n) (cs := ds) (t := u) (by rw [← e]; exact hu)
    rw [k4, l4]
    rw [← e] at l1
    refine ih (hd.with (hd.body.grown h1 hM k1 l1)) (by rw [k3]; exact hM) ⟨?_, ho.2⟩ k2 h2
    intro hf
    simp only [Buf.fileState, Option.map_eq_some_iff] at hf
    obtain ⟨f, f1, f2⟩ := hf
    rw [k2.opened f f1] at f2
    cases f2
  | @response cs ds a b e _ ih =>
    intro t u hd hM ho h1 h2
    rw [sent_response] at h1 h2
    simp only [Bool.false_eq_true, if_false, if_true, List.length_append, List.nil_append] at h1 h2
    have eb : u.respBody = t.respBody := hd.get Tx.respBody fun _ _ => rfl
    rw [response_chunks h2, response_chunks (cs := ds) (by rw [← e, eb]; exact h2), ← e, eb]
    refine ih (hd.map (f := fun t' => { t' with respBody := t.respBody.plus cs.flatten }) (fun _ _ => rfl) rfl) hM ⟨ho.1, ?_⟩ h1 h2.plus
    simp [Buf.fileState, Buf.plus, h2.fileBuf]

/-- C113 for bodies beyond the limit of memory, which go to a temporary file: let `ReadForm`
ask for at most `N` bytes at a time and let that many be kept in memory.  Then, for rules
without parts written by the host, the chunks make no difference either as long as the bodies
are within their limits. -/
theorem C113_spilled_partial {env : Env} {N : Nat} {g : Bytes → Int → ReadProg} (hl : env.lib.Runs g) (hN : AsksAtMost N g) {rs : RuleSet} (hrs : rs.Stock)
    {a b : List Op} (h : Spec.Recut a b) (h1 : (N : Int) ≤ env.limits.requestBodyInMem) (h2 : ((Spec.sent false a).length : Int) ≤ env.limits.requestBody)
    (h3 : ((Spec.sent true a).length : Int) ≤ env.limits.responseBody) (n : Nat) :
    Spec.ending ((newTransaction env.limits).steps env rs n a) = Spec.ending ((newTransaction env.limits).steps env rs n b) := by
  refine recut_recast hl hN hrs h ⟨rfl, .inl rfl⟩ h1 ⟨by simp [Buf.fileState, newTransaction, newBuffer], by simp [Buf.fileState, newTransaction, newBuffer]⟩
    ⟨rfl, ?_, ?_, fun _ => ⟨rfl, ?_⟩, nofun⟩ ⟨rfl, rfl, ?_, ?_⟩ <;>
    simp only [newTransaction, newBuffer, Int.natCast_zero, Int.zero_add] <;> first | assumption | omega

/-- The same for rules loaded from text. -/
theorem C113_loaded_partial {lib : Lib} {vo : VarOrd} {ord : IterOrd} {text : Bytes} {set : DireSet}
    (hload : DireSet.addSecLangString lib vo [] text = .ok (set, none)) {N : Nat} {g : Bytes → Int → ReadProg} (hl : lib.Runs g) (hN : AsksAtMost N g)
    {a b : List Op} (h : Spec.Recut a b) (h1 : (N : Int) ≤ (set.execute newEngine).limits.requestBodyInMem)
    (h2 : ((Spec.sent false a).length : Int) ≤ (set.execute newEngine).limits.requestBody)
    (h3 : ((Spec.sent true a).length : Int) ≤ (set.execute newEngine).limits.responseBody) (n : Nat) :
    Spec.ending ((set.execute newEngine).newTransaction.steps ((set.execute newEngine).env lib ord) (set.execute newEngine).ruleSet n a) =
      Spec.ending ((set.execute newEngine).newTransaction.steps ((set.execute newEngine).env lib ord) (set.execute newEngine).ruleSet n b) :=
  C113_spilled_partial (env := (set.execute newEngine).env lib ord) hl hN (loaded_stock hload) h h1 h2 h3 n

/-! ### Chunks that make a difference -/

def Sample.badRule : Rule := { vars := [.responseBody], op := some (.rx ⟨b!"bad", (· == b!"bad")⟩), actions := [.deny] }

theorem Sample.badRules_keep : (rules [(5, badRule)]).KeepsBodies := by
  refine ⟨fun p r hr a ha => ?_, fun a ha => by cases ha⟩
  have : r = { badRule with phase := 5 } := by
    by_cases hp : p = 5
    · subst hp; exact List.mem_singleton.1 hr
    · have he : (rules [(5, badRule)]).phases p = [] := by simp [rules, RuleSet.addRules, RuleSet.addRule, badRule, hp, phaseEnd, phaseBegin]
      rw [he] at hr; cases hr
  subst this
  rw [List.mem_singleton.1 (show a ∈ [Action.deny] from ha)]
  trivial

def Sample.badOps (cs : List Bytes) : List Op := cs.map (.appendResponseBody · {}) ++ [.processResponseBody, .result]

/-- One chunk too big is refused whole; in two, the first is inspected and refused by the rule. -/
theorem C113_refuted : ¬ C113_statement := by
  intro h
  have hc : Spec.Recut (badOps [b!"bad", b!"123456"]) (badOps [b!"bad123456"]) :=
    .response rfl (.call (fun r => by cases r <;> rfl) (.call (fun r => by cases r <;> rfl) .nil))
  have := h env (rules [(5, badRule)]) _ _ badRules_keep hc 9
  revert this
  decide +kernel

def Sample.smallEnv : Env := { twiceEnv with limits := { limits with requestBodyInMem := 2 } }

def Sample.formOps (cs : List Bytes) : List Op :=
  [.processConnection [] [] [] [], .processRequestURL none b!"POST" [], .processRequestHeader (some [(b!"Content-Type", [b!"multipart/form-data"])])] ++
    (cs.map (.appendRequestBody · {}) ++ [.processRequestBody, .result])

/-- `formOps` differ in the chunks only. -/
theorem Sample.formOps_recut {cs ds : List Bytes} (h : cs.flatten = ds.flatten) : Spec.Recut (formOps cs) (formOps ds) := by
  refine .call (fun r => ?_) (.call (fun r => ?_) (.call (fun r => ?_) (.request h (.call (fun r => ?_) (.call (fun r => ?_) .nil))))) <;> cases r <;> rfl

/-- With less memory than `ReadForm` asks for, the repeated beginning of the file shows, and
what is repeated depends on the chunks, though the body is within its limit. -/
theorem C113_small_memory :
    Spec.ending ((newTransaction smallEnv.limits).steps smallEnv (rules [(3, evilRule)]) 9 (formOps [b!"evilgood"])) ≠
      Spec.ending ((newTransaction smallEnv.limits).steps smallEnv (rules [(3, evilRule)]) 9 (formOps [b!"ev", b!"ilgood"])) := by
  decide +kernel

theorem Sample.evil_stock : (rules [(3, evilRule)]).Stock := by
  have hr : ({ evilRule with phase := 3 } : Rule).Stock :=
    ⟨⟨fun v hv => by rw [List.mem_singleton.1 hv]; trivial, (fun _ h => by cases h), (fun o h => by cases h; trivial),
      fun a ha => by rw [List.mem_singleton.1 ha]; trivial⟩, fun _ h => by cases h⟩
  refine ⟨fun p r h => ?_, fun _ h => by cases h⟩
  have : r = { evilRule with phase := 3 } := by
    by_cases hp : p = 3
    · subst hp; exact List.mem_singleton.1 h
    · have he : (rules [(3, evilRule)]).phases p = [] := by simp [rules, RuleSet.addRules, RuleSet.addRule, evilRule, hp, phaseEnd, phaseBegin]
      rw [he] at h; cases h
  rw [this]; exact hr

/-- Twelve bytes with eight in memory: whatever the chunks, the rule refuses. -/
example (cs : List Bytes) (h : cs.flatten = b!"evilgoodgood") :
    (match Spec.ending ((newTransaction twiceEnv.limits).steps twiceEnv (rules [(3, evilRule)]) 9 (formOps cs)) with
      | .ok (os, _) => os.getLast?.map fun o => match o with | .intervention i => i.disruptive | _ => false
      | _ => none) = some true := by
  have hc := formOps_recut (cs := cs) (ds := [b!"evilgoodgood"]) (by rw [h]; rfl)
  rw [C113_spilled_partial (env := twiceEnv) twice_runs twice_asks evil_stock hc (by decide) (by rw [hc.sent]; decide +kernel) (by rw [hc.sent]; decide +kernel)]
  decide +kernel

/-- A body in memory, in any chunks. -/
example (cs : List Bytes) (h : cs.flatten = b!"bad") :
    Spec.ending ((newTransaction env.limits).steps env (rules [(5, badRule)]) 9 (badOps cs)) =
      Spec.ending ((newTransaction env.limits).steps env (rules [(5, badRule)]) 9 (badOps [b!"bad"])) := by
  have hc : Spec.Recut (badOps cs) (badOps [b!"bad"]) :=
    .response (by rw [h]; rfl) (.call (fun r => by cases r <;> rfl) (.call (fun r => by cases r <;> rfl) .nil))
  exact C113_chunks_partial badRules_keep hc (by rw [hc.sent]; decide +kernel) (by rw [hc.sent]; decide +kernel) (by rw [hc.sent]; decide +kernel) 9

end Verif
