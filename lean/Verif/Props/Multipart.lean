import Verif.Spec.Stream
import Verif.Proofs.Flow
import Verif.Props.Loaded
/-!
C97: what `ReadForm` is given of a multipart body.
-/
namespace Verif
open Sample Spec

/-! ### Reading the body is reading its beginning again and again -/

/-- One `Read` of a body. -/
theorem Buf.read_beginning {b : Buf} (hr : b.readed = false) {k : Nat} (hk : 0 < k) :
    ∃ b' a, b.read k = .ok (b', a) ∧ b'.readed = false ∧ b'.content = b.content ∧
      repeating b.content 0 k a k ∧ ∀ j, b'.read j = b.read j := by
  simp only [Buf.read, Buf.initRead, hr, Bool.not_false, if_true]
  cases hb : b.fileBuf with
  | none =>
    refine ⟨_, _, rfl, rfl, by simp [Buf.content, hb], ⟨?_, rfl⟩, fun j => ?_⟩
    · simp only [Buf.content, hb, memRead]
      cases hm : b.memBuf with
      | nil => simp
      | cons x xs => simp
    · simp
  | some f =>
    cases hc : f.closed with
    | true =>
      refine ⟨_, _, rfl, rfl, by simp [Buf.content, hb, File.read, hc], ⟨?_, rfl⟩, fun j => ?_⟩
      · simp [Buf.content, hb, File.read, hc]
      · simp [File.read, hc]
    | false =>
      refine ⟨_, _, rfl, rfl, by simp [Buf.content, hb, File.read, hc], ⟨?_, rfl⟩, fun j => ?_⟩
      · simp only [Buf.content, hb, File.read, hc]
        cases hm : f.content with
        | nil => simp [hk]
        | cons x xs => cases k with
          | zero => cases hk
          | succ k => simp
      · simp [File.read, hc]

theorem plays_body {g : ReadProg} (hg : ∀ h k, g h = .inl k → 0 < k) {b0 : Buf} {c : Option Bytes} : ∀ {h : List Reply} {b b' : Buf} {r : FormRes},
    b.readed = false → b.content = c → (∀ j, b.read j = b0.read j) → Plays fromBody g h b r b' → ∀ p, (∃ s e, 0 < p → b0.read p = .ok (b, s, e)) →
    ∃ p', Plays (repeating c) g h p r p' ∧ ∃ s e, 0 < p' → b0.read p' = .ok (b', s, e) := by
  intro h b b' r hr hc hb hp
  induction hp with
  | stop hs => intro p hp; exact ⟨p, .stop hs, hp⟩
  | @ask h s s' s'' k a r hk ha _ ih =>
    intro p _
    obtain ⟨b1, a1, h1, h2, h3, h4, h5⟩ := Buf.read_beginning hr (hg _ _ hk)
    have ha' : s.read k = .ok (s', a.1, a.2) := ha
    rw [ha'] at h1
    cases h1
    obtain ⟨p', i1, i2⟩ := ih h2 (h3.trans hc) (fun j => (h5 j).trans (hb j)) k ⟨a.1, a.2, fun _ => by rw [← hb]; exact ha'⟩
    rw [hc] at h4
    exact ⟨p', .ask hk h4 i1, i2⟩

theorem plays_repeating {g : ReadProg} (hg : ∀ h k, g h = .inl k → 0 < k) {c : Option Bytes} : ∀ {h : List Reply} {p p' : Nat} {r : FormRes},
    Plays (repeating c) g h p r p' → ∀ b : Buf, b.readed = false → b.content = c → ∃ b', Plays fromBody g h b r b' := by
  intro h p p' r hp
  induction hp with
  | stop hs => intro b _ _; exact ⟨b, .stop hs⟩
  | @ask h s s' s'' k a r hk ha _ ih =>
    intro b hr hc
    obtain ⟨b1, a1, h1, h2, h3, h4, h5⟩ := Buf.read_beginning hr (hg _ _ hk)
    have e : a1 = a := by
      obtain ⟨h4, _⟩ := h4
      obtain ⟨ha, _⟩ := ha
      rw [hc] at h4
      cases c <;> exact h4.trans ha.symm
    subst e
    obtain ⟨b', i⟩ := ih b1 h2 (h3.trans hc)
    exact ⟨b', .ask hk h1 i⟩

theorem plays_pos {g : ReadProg} (hg : ∀ h k, g h = .inl k → 0 < k) {c : Option Bytes} : ∀ {h : List Reply} {p p' : Nat} {r : FormRes},
    Plays (repeating c) g h p r p' → (0 < p ∨ ∃ k, g h = .inl k) → 0 < p' := by
  intro h p p' r hp
  induction hp with
  | stop hs =>
    rintro (h | ⟨k, hk⟩)
    · exact h
    · rw [hs] at hk; cases hk
  | @ask h s s' s'' k a r hk ha _ ih =>
    intro _
    refine ih (.inl ?_)
    rw [ha.2]
    exact hg _ _ hk

/-- A program stops in one way only. -/
theorem plays_det {σ : Type} {rd : σ → Nat → Reply → σ → Prop} (hd : ∀ s k a s' a' s'', rd s k a s' → rd s k a' s'' → a = a' ∧ s' = s'')
    {g : ReadProg} : ∀ {h : List Reply} {s s' s'' : σ} {r r' : FormRes}, Plays rd g h s r s' → Plays rd g h s r' s'' → r = r' ∧ s' = s'' := by
  intro h s s' s'' r r' h1
  induction h1 with
  | stop hs =>
    intro h2
    cases h2 with
    | stop hs' => rw [hs] at hs'; cases hs'; exact ⟨rfl, rfl⟩
    | ask hk => rw [hs] at hk; cases hk
  | ask hk ha _ ih =>
    intro h2
    cases h2 with
    | stop hs' => rw [hk] at hs'; cases hs'
    | ask hk' ha' hp' =>
      rw [hk] at hk'; cases hk'
      obtain ⟨rfl, rfl⟩ := hd _ _ _ _ _ _ ha ha'
      exact ih hp'

theorem repeating_det {c : Option Bytes} {s k : Nat} {a a' : Reply} {s' s'' : Nat} (h : repeating c s k a s') (h' : repeating c s k a' s'') :
    a = a' ∧ s' = s'' := by
  obtain ⟨h1, h2⟩ := h
  obtain ⟨h3, h4⟩ := h'
  refine ⟨?_, h2.trans h4.symm⟩
  cases c <;> exact h1.trans h3.symm

/-- C97: what a program makes of the body of a request is what it makes of the bytes of
the body, read in order. -/
def C97_statement : Prop :=
  ∀ (g : ReadProg), (∀ h k, g h = .inl k → 0 < k) → ∀ (b : Buf) (c : Bytes), b.readed = false → b.content = some c → ∀ r,
    (∃ b', Plays fromBody g [] b r b') ↔ ∃ p, Plays (inOrder c) g [] 0 r p

/-- What is true instead: it is what the program makes of the beginning of the bytes,
given anew each time it asks. -/
theorem C97_beginning_again (g : ReadProg) (hg : ∀ h k, g h = .inl k → 0 < k) (b : Buf) (hr : b.readed = false) (r : FormRes) :
    (∃ b', Plays fromBody g [] b r b') ↔ ∃ p, Plays (repeating b.content) g [] 0 r p := by
  constructor
  · rintro ⟨b', h⟩
    obtain ⟨p', h1, _⟩ := plays_body hg (b0 := b) hr rfl (fun _ => rfl) h 0 ⟨[], none, fun h => absurd h (by simp)⟩
    exact ⟨p', h1⟩
  · rintro ⟨p, h⟩
    exact plays_repeating hg h b hr rfl

/-- C97, for programs that need only what they ask for first.  Missing: programs that ask
again. -/
theorem C97_first_ask_partial (g : ReadProg) (hg : ∀ h k, g h = .inl k → 0 < k) (b : Buf) (c : Bytes) (hr : b.readed = false) (hc : b.content = some c)
    {k : Nat} {r0 : FormRes} (h1 : g [] = .inl k) (h2 : g [(c.take k, if c = [] then some .eof else none)] = .inr r0) (r : FormRes) :
    (∃ b', Plays fromBody g [] b r b') ↔ ∃ p, Plays (inOrder c) g [] 0 r p := by
  rw [C97_beginning_again g hg b hr r, hc]
  have e1 : Plays (repeating (some c)) g [] 0 r0 k := .ask h1 ⟨rfl, rfl⟩ (.stop h2)
  have e2 : Plays (inOrder c) g [] 0 r0 (0 + (c.take k).length) :=
    .ask (a := (c.take k, if c = [] then some .eof else none)) h1 ⟨by cases c <;> simp, rfl⟩ (.stop h2)
  constructor
  · rintro ⟨p, h⟩
    obtain ⟨rfl, _⟩ := plays_det (rd := repeating _) (fun _ _ _ _ _ _ => repeating_det) h e1
    exact ⟨_, e2⟩
  · rintro ⟨p, h⟩
    obtain ⟨rfl, _⟩ := plays_det (fun _ _ _ _ _ _ ⟨a, b⟩ ⟨a', b'⟩ => ⟨a.trans a'.symm, by rw [b, b', a, a']⟩) h e2
    exact ⟨_, e1⟩

/-- Reads to the end of the file, two bytes at a time. -/
def toTheEnd : ReadProg := fun h =>
  match h.getLast? with
  | some (_, some _) => .inr (.ok [])
  | _ => .inl 2

/-- On the body `abc` it never stops; on the bytes `abc` it does. -/
theorem C97_refuted : ¬ C97_statement := by
  intro h
  have h := h toTheEnd (by
    intro h k hk
    simp only [toTheEnd] at hk
    split at hk
    · cases hk
    · cases hk; decide) { newBuffer 10 10 with memBuf := b!"abc", length := 3 } b!"abc" rfl rfl (.ok [])
  obtain ⟨b', h⟩ := h.2 ⟨3, .ask rfl ⟨rfl, rfl⟩ (.ask rfl ⟨rfl, rfl⟩ (.ask (k := 2) (a := ([], some .eof)) rfl ⟨rfl, rfl⟩ (.stop rfl)))⟩
  obtain ⟨p, h⟩ := (C97_beginning_again toTheEnd (by
    intro h k hk
    simp only [toTheEnd] at hk
    split at hk
    · cases hk
    · cases hk; decide) _ rfl _).1 ⟨b', h⟩
  have key : ∀ {hs : List Reply} {p p' : Nat} {r : FormRes}, Plays (repeating (some b!"abc")) toTheEnd hs p r p' →
      (hs = [] ∨ ∃ x, hs.getLast? = some (x, none)) → False := by
    intro hs p p' r hp
    induction hp with
    | stop hs' =>
      rintro (h | ⟨x, h⟩)
      · subst h; cases hs'
      · simp only [toTheEnd, h] at hs'; cases hs'
    | ask _ ha _ ih =>
      intro _
      exact ih (.inr ⟨_, by rw [List.getLast?_concat, ha.1]; rfl⟩)
  exact key h (.inl rfl)

/-- What `parseBody` makes of the outcome of `ReadForm`. -/
def formOutcome (t : Tx) : FormRes → Res (Tx × Parsed × Option Err)
  | .ok m => .ok (t, .form (some m), none)
  | .tooLarge => .ok (t.abortWithError 413 errMessageTooLarge, .nil, some errMessageTooLarge)
  | .err e => .ok (t, .form none, some e)
  | .hang => .fuel

/-- The parser of multipart bodies runs the program on the body, with `Read`: if the
program stops, the parser returns what the program says, the body being left as the program
leaves it; if not, the parser does not return. -/
theorem C97_parser_runs (env : Env) {g : Bytes → Int → ReadProg} (hl : env.lib.Runs g) (bnd : Bytes) (t : Tx) (hr : t.reqBody.readed = false) :
    (∃ r b', Plays fromBody (g bnd env.limits.requestBodyInMem) [] t.reqBody r b' ∧
      parseBody env .multipart bnd t = formOutcome { t with reqBody := b' } r) ∨
    ((∀ r b', ¬ Plays fromBody (g bnd env.limits.requestBodyInMem) [] t.reqBody r b') ∧ parseBody env .multipart bnd t = .fuel) := by
  have hg := hl.asks bnd env.limits.requestBodyInMem
  rcases hres : env.lib.readForm t.reqBody.content bnd env.limits.requestBodyInMem with ⟨r, p⟩
  by_cases hh : r = .hang
  · right
    refine ⟨fun r' b' h => ?_, by simp only [parseBody, hres, hh]⟩
    obtain ⟨p', h⟩ := (C97_beginning_again _ hg _ hr r').1 ⟨b', h⟩
    have hne : r' ≠ .hang := by
      intro e
      subst e
      have key : ∀ {hs : List Reply} {p p' : Nat} {r : FormRes}, Plays (repeating t.reqBody.content) (g bnd env.limits.requestBodyInMem) hs p r p' →
          r = .hang → False := by
        intro hs p p' r hp
        induction hp with
        | stop hs' => intro e; subst e; exact hl.stops _ _ _ hs'
        | ask _ _ _ ih => exact ih
      exact key h rfl
    have := (hl.runs _ _ _ r' p' hne).2 h
    rw [hres] at this
    cases this
    exact hne hh
  · left
    have h1 := (hl.runs _ _ _ r p hh).1 hres
    obtain ⟨b', h2⟩ := plays_repeating hg h1 t.reqBody hr rfl
    refine ⟨r, b', h2, ?_⟩
    obtain ⟨p', h3, s, e, h4⟩ := plays_body hg (b0 := t.reqBody) hr rfl (fun _ => rfl) h2 0 ⟨[], none, fun h => absurd h (by simp)⟩
    have := (plays_det (rd := repeating _) (fun _ _ _ _ _ _ => repeating_det) h3 h1).2
    subst this
    have ha : t.reqBody.afterForm p' = b' := by
      cases hf : g bnd env.limits.requestBodyInMem [] with
      | inl k =>
        have hp := plays_pos hg h3 (.inr ⟨k, hf⟩)
        simp only [Buf.afterForm, h4 hp, if_neg (show p' ≠ 0 by omega)]
      | inr r0 =>
        cases h2 with
        | stop _ =>
          cases h3 with
          | stop _ => rfl
          | ask hk => rw [hf] at hk; cases hk
        | ask hk => rw [hf] at hk; cases hk
    simp only [parseBody, hres, ha]
    cases r <;> rfl

/-! ### What lies beyond the first bytes is never seen -/

/-- As many bytes, the first `N` being the same. -/
structure Near (N : Nat) (x y : Bytes) : Prop where
  length : x.length = y.length
  same : ∀ i < N, x[i]? = y[i]?

theorem Near.refl {N : Nat} (x : Bytes) : Near N x x := ⟨rfl, fun _ _ => rfl⟩

theorem Near.take {N : Nat} {x y : Bytes} (h : Near N x y) (k : Nat) : Near N (x.take k) (y.take k) :=
  ⟨by simp [h.length], fun i hi => by simp only [List.getElem?_take, h.same i hi]⟩

theorem Near.take_eq {N : Nat} {x y : Bytes} (h : Near N x y) {k : Nat} (hk : k ≤ N) : x.take k = y.take k := by
  refine List.ext_getElem? fun i => ?_
  simp only [List.getElem?_take]
  split
  · exact h.same i (by omega)
  · rfl

/-- Bytes that may differ from the `N`-th byte of the whole on, put at place `n`. -/
structure NearAt (N n : Nat) (x y : Bytes) : Prop where
  length : x.length = y.length
  same : ∀ i, n + i < N → x[i]? = y[i]?

theorem NearAt.refl {N n : Nat} (x : Bytes) : NearAt N n x x := ⟨rfl, fun _ _ => rfl⟩

theorem NearAt.take {N n : Nat} {x y : Bytes} (h : NearAt N n x y) (k : Nat) : NearAt N n (x.take k) (y.take k) :=
  ⟨by simp [h.length], fun i hi => by simp only [List.getElem?_take, h.same i hi]⟩

theorem NearAt.later {N n m : Nat} {x y : Bytes} (h : NearAt N n x y) (hm : n ≤ m) : NearAt N m x y :=
  ⟨h.length, fun i hi => h.same i (by omega)⟩

theorem Near.append {N : Nat} {x y p q : Bytes} (h : Near N x y) (hp : NearAt N x.length p q) : Near N (x ++ p) (y ++ q) := by
  refine ⟨by simp [h.length, hp.length], fun i hi => ?_⟩
  simp only [List.getElem?_append, ← h.length]
  split
  · exact h.same i hi
  · exact hp.same _ (by omega)

theorem Near.writeAt {N n : Nat} {x y p q : Bytes} (h : Near N x y) (hp : NearAt N n p q) : Near N (writeAt x n p) (writeAt y n q) := by
  have hl := h.length
  have hpl := hp.length
  have e : p = [] ↔ q = [] := by rw [← List.length_eq_zero_iff, ← List.length_eq_zero_iff, hpl]
  simp only [Verif.writeAt, e]
  split
  · exact h
  · refine ⟨by simp [hl, hpl], fun i hi => ?_⟩
    simp only [List.getElem?_append, List.length_append, List.length_take, List.length_replicate, hl, hpl, List.getElem?_take, List.getElem?_replicate,
      List.getElem?_drop]
    have h1 := h.same i hi
    have h2 := hp.same (i - (min n y.length + (n - y.length)))
    have h3 := h.same (n + q.length + (i - (min n y.length + (n - y.length) + q.length)))
    grind

/-- Two bodies that show the same through `Len`, `Write` and reads of `N` bytes. -/
structure Buf.Close (N : Nat) (b c : Buf) : Prop where
  length : b.length = c.length
  memLimit : b.memLimit = c.memLimit
  fileLimit : b.fileLimit = c.fileLimit
  unread : b.readed = false ∧ c.readed = false
  memBuf : Near N b.memBuf c.memBuf
  file : (b.fileBuf = none ∧ c.fileBuf = none) ∨
    ∃ f f', b.fileBuf = some f ∧ c.fileBuf = some f' ∧ f.closed = f'.closed ∧ f.pos = f'.pos ∧ Near N f.content f'.content

theorem Buf.Close.refl {N : Nat} {b : Buf} (h : b.readed = false) : b.Close N b := by
  refine ⟨rfl, rfl, rfl, ⟨h, h⟩, .refl _, ?_⟩
  cases hf : b.fileBuf with
  | none => exact .inl ⟨rfl, rfl⟩
  | some f => exact .inr ⟨f, f, rfl, rfl, rfl, rfl, .refl _⟩

/-- Where the next chunk goes. -/
def Buf.place (b : Buf) : Nat :=
  match b.fileBuf with
  | none => b.memBuf.length
  | some f => f.pos

theorem file_write_close {N : Nat} {f f' : File} {p q : Bytes} (hc : f.closed = f'.closed) (hpos : f.pos = f'.pos) (hn : Near N f.content f'.content)
    (hp : NearAt N f.pos p q) (io : Option Nat) :
    (f.write p io).2.1 = (f'.write q io).2.1 ∧ (f.write p io).2.2 = (f'.write q io).2.2 ∧ (f.write p io).1.closed = (f'.write q io).1.closed ∧ (f.write p io).1.pos = (f'.write q io).1.pos ∧
      Near N (f.write p io).1.content (f'.write q io).1.content := by
  simp only [File.write, hc]
  split
  · exact ⟨rfl, rfl, hc, hpos, hn⟩
  · cases io with
    | none => exact ⟨by simp [hp.length], rfl, rfl, by simp [hp.length, hpos], by rw [← hpos]; exact hn.writeAt hp⟩
    | some k => exact ⟨by simp [hp.length], rfl, rfl, by simp [hp.length, hpos], by rw [← hpos]; exact hn.writeAt (hp.take k)⟩

/-- Chunks that differ only beyond the first bytes keep two bodies close. -/
theorem Buf.Close.write {N : Nat} {b c : Buf} (h : b.Close N c) {p q : Bytes} (hp : NearAt N b.place p q) (io : IOFault) :
    (b.write p io).Both (fun x y => x.1.Close N y.1 ∧ x.2 = y.2) (c.write q io) := by
  have hpl := hp.length
  simp only [Buf.write, h.unread.1, h.unread.2, Bool.false_eq_true, if_false, ← h.length, ← h.fileLimit, ← h.memLimit, ← hpl]
  split
  · exact .ok ⟨h, rfl⟩
  · rcases h.file with ⟨h1, h2⟩ | ⟨f, f', h1, h2, h3, h4, h5⟩
    · simp only [Buf.place, h1] at hp
      simp only [h1, h2]
      split
      · split
        · exact .panic
        · have hm : Near N (b.memBuf ++ p.take (b.memLimit - b.length).toNat) (c.memBuf ++ q.take (b.memLimit - b.length).toNat) :=
            h.memBuf.append (hp.take _)
          split
          · exact .ok ⟨⟨rfl, rfl, rfl, ⟨rfl, rfl⟩, hm, .inl ⟨rfl, rfl⟩⟩, rfl⟩
          · obtain ⟨_, w1, w2, w3, w4⟩ := file_write_close (f := { content := [], pos := 0 }) (f' := { content := [], pos := 0 }) (N := N) rfl rfl (.refl _)
              (p := b.memBuf ++ p.take (b.memLimit - b.length).toNat) (q := c.memBuf ++ q.take (b.memLimit - b.length).toNat)
              ⟨hm.length, fun i hi => hm.same i (by simpa using hi)⟩ io.copyFail
            simp only [← w1]
            split
            · rename_i he
              simp only [he]
              exact .ok ⟨⟨rfl, rfl, rfl, ⟨rfl, rfl⟩, hm, .inr ⟨_, _, rfl, rfl, w2, w3, w4⟩⟩, rfl⟩
            · rename_i he
              have hcf : io.copyFail = none := by
                cases hcf : io.copyFail with
                | none => rfl
                | some k => rw [hcf] at he; simp [File.write] at he
              have hpos : (File.write { content := [], pos := 0 } (b.memBuf ++ p.take (b.memLimit - b.length).toNat) io.copyFail).1.pos =
                  b.memBuf.length + min (b.memLimit - b.length).toNat p.length := by
                rw [hcf]; simp [File.write]
              obtain ⟨v0, v1, v2, v3, v4⟩ := file_write_close w2 w3 w4 (hp.later (m := _) (by rw [hpos]; omega)) io.writeFail
              simp only [he, ← v0, ← v1]
              exact .ok ⟨⟨rfl, rfl, rfl, ⟨rfl, rfl⟩, hm, .inr ⟨_, _, rfl, rfl, v2, v3, v4⟩⟩, rfl⟩
      · exact .ok ⟨⟨rfl, rfl, rfl, ⟨rfl, rfl⟩, h.memBuf.append hp, .inl ⟨rfl, rfl⟩⟩, rfl⟩
    · simp only [Buf.place, h1] at hp
      simp only [h1, h2]
      obtain ⟨v0, v1, v2, v3, v4⟩ := file_write_close h3 h4 h5 hp io.writeFail
      simp only [← v0, ← v1]
      exact .ok ⟨⟨rfl, rfl, rfl, ⟨rfl, rfl⟩, h.memBuf, .inr ⟨_, _, rfl, rfl, v2, v3, v4⟩⟩, rfl⟩

theorem Buf.Close.content {N : Nat} {b c : Buf} (h : b.Close N c) :
    (b.content = none ∧ c.content = none) ∨ ∃ x y, b.content = some x ∧ c.content = some y ∧ Near N x y := by
  rcases h.file with ⟨h1, h2⟩ | ⟨f, f', h1, h2, h3, _, h5⟩
  · exact .inr ⟨_, _, by simp only [Buf.content, h1], by simp only [Buf.content, h2], h.memBuf⟩
  · simp only [Buf.content, h1, h2, h3]
    split
    · exact .inl ⟨rfl, rfl⟩
    · exact .inr ⟨_, _, rfl, rfl, h5⟩

theorem Buf.Close.afterForm {N : Nat} {b c : Buf} (h : b.Close N c) (n : Nat) : (b.afterForm n).Close N (c.afterForm n) := by
  by_cases hn : n = 0
  · simpa only [Buf.afterForm, hn, if_true] using h
  have hu := h.unread
  simp only [Buf.afterForm, hn, if_false, Buf.read, Buf.initRead, hu.1, hu.2, Bool.not_false, if_true]
  rcases h.file with ⟨h1, h2⟩ | ⟨f, f', h1, h2, h3, h4, h5⟩
  · simp only [h1, h2, Option.map_none]
    exact ⟨h.length, h.memLimit, h.fileLimit, ⟨rfl, rfl⟩, h.memBuf, .inl ⟨rfl, rfl⟩⟩
  · simp only [h1, h2, Option.map_some, File.read, h3]
    by_cases hc : f'.closed = true
    · simp only [hc, if_true]
      refine ⟨h.length, h.memLimit, h.fileLimit, ⟨rfl, rfl⟩, h.memBuf, .inr ⟨_, _, rfl, rfl, ?_, ?_, ?_⟩⟩
      · simp [h3, hc]
      · simp [h3, hc, h4]
      · simpa [h3, hc] using h5
    · simp only [hc, Bool.false_eq_true, if_false]
      refine ⟨h.length, h.memLimit, h.fileLimit, ⟨rfl, rfl⟩, h.memBuf, .inr ⟨_, _, rfl, rfl, ?_, ?_, ?_⟩⟩
      · rfl
      · simp [h5.length]
      · simpa using h5

/-- A program that asks for at most `N` bytes at a time makes the same of both. -/
theorem plays_near {N : Nat} {g : ReadProg} (hN : ∀ h k, g h = .inl k → k ≤ N) {c c' : Option Bytes}
    (hc : (c = none ∧ c' = none) ∨ ∃ x y, c = some x ∧ c' = some y ∧ Near N x y) : ∀ {h : List Reply} {p p' : Nat} {r : FormRes},
    Plays (repeating c) g h p r p' → Plays (repeating c') g h p r p' := by
  intro h p p' r hp
  induction hp with
  | stop hs => exact .stop hs
  | ask hk ha _ ih =>
    refine .ask hk ⟨?_, ha.2⟩ ih
    rcases hc with ⟨rfl, rfl⟩ | ⟨x, y, rfl, rfl, hxy⟩
    · exact ha.1
    · have e : x = [] ↔ y = [] := by rw [← List.length_eq_zero_iff, ← List.length_eq_zero_iff, hxy.length]
      have := ha.1
      simp only [hxy.take_eq (hN _ _ hk), e] at this
      exact this

theorem readForm_near {N : Nat} {lib : Lib} {g : Bytes → Int → ReadProg} (hl : lib.Runs g) (hN : AsksAtMost N g) {b c : Buf} (h : b.Close N c)
    (bnd : Bytes) (m : Int) : lib.readForm b.content bnd m = lib.readForm c.content bnd m ∨
      ((lib.readForm b.content bnd m).1 = .hang ∧ (lib.readForm c.content bnd m).1 = .hang) := by
  have hc := h.content
  have hc' : (c.content = none ∧ b.content = none) ∨ ∃ x y, c.content = some x ∧ b.content = some y ∧ Near N x y := by
    rcases hc with ⟨h1, h2⟩ | ⟨x, y, h1, h2, h3⟩
    · exact .inl ⟨h2, h1⟩
    · exact .inr ⟨y, x, h2, h1, h3.length.symm, fun i hi => (h3.same i hi).symm⟩
  rcases h1 : lib.readForm b.content bnd m with ⟨r, p⟩
  rcases h2 : lib.readForm c.content bnd m with ⟨r', p'⟩
  by_cases hr : r = .hang
  · by_cases hr' : r' = .hang
    · exact .inr ⟨hr, hr'⟩
    · have := (hl.runs _ _ _ r' p' hr').2 (plays_near (hN bnd m) hc' ((hl.runs _ _ _ r' p' hr').1 h2))
      rw [h1] at this
      exact .inl this
  · have := (hl.runs _ _ _ r p hr).2 (plays_near (hN bnd m) hc ((hl.runs _ _ _ r p hr).1 h1))
    rw [h2] at this
    exact .inl this.symm

/-- The media type of the request is not `application/x-www-form-urlencoded`. -/
def NotUrlencoded (env : Env) (h : Option GoMap) : Prop :=
  ¬ b!"application/x-www-form-urlencoded".isPrefixOf
    (env.lib.mediaType (if headerGet h b!"Content-Type" = [] then b!"application/octet-stream" else headerGet h b!"Content-Type")).1

/-- The relation for which the bodies are close. -/
def CloseFor (env : Env) (N : Nat) (h : Option GoMap) (b c : Buf) : Prop := NotUrlencoded env h ∧ b.Close N c

section
variable {env : Env} {N : Nat}

theorem Duo.with {t u : Tx} {Q : Option GoMap → Buf → Buf → Prop} (h : Duo Q t u) {b c : Buf} (hb : Q t.reqHeader b c) :
    Duo Q { t with reqBody := b } { u with reqBody := c } := by
  refine ⟨?_, hb⟩
  have := h.rest
  show _ = ({ t with reqBody := c } : Tx)
  rw [this]

/-- Bodies in the relation are read alike, and stay in it. -/
structure ReadsAlike (env : Env) (Q : Option GoMap → Buf → Buf → Prop) : Prop where
  type : ∀ {h b c}, Q h b c → NotUrlencoded env h
  len : ∀ {h b c}, Q h b c → (c.len = 0 ↔ b.len = 0)
  form : ∀ {h b c bnd}, Q h b c →
    (env.lib.mediaType (if headerGet h b!"Content-Type" = [] then b!"application/octet-stream" else headerGet h b!"Content-Type")).2 = bnd →
    env.lib.readForm b.content bnd env.limits.requestBodyInMem = env.lib.readForm c.content bnd env.limits.requestBodyInMem ∨
    (env.lib.readForm b.content bnd env.limits.requestBodyInMem).1 = .hang ∧ (env.lib.readForm c.content bnd env.limits.requestBodyInMem).1 = .hang
  after : ∀ {h b c} (p : Nat), Q h b c → Q h (b.afterForm p) (c.afterForm p)

theorem requestBodyParse_twin {Q : Option GoMap → Buf → Buf → Prop} (hQ : ReadsAlike env Q) {t u : Tx} (h : Duo Q t u) :
    (requestBodyParse env t).Both (fun x y => Duo Q x.1 y.1 ∧ x.2 = y.2) (requestBodyParse env u) := by
  have em : u.method = t.method := h.get Tx.method fun _ _ => rfl
  have eh : u.reqHeader = t.reqHeader := h.get Tx.reqHeader fun _ _ => rfl
  have el : (u.reqBody.len == 0) = (t.reqBody.len == 0) := by
    have := hQ.len h.body
    rw [Bool.eq_iff_iff, beq_iff_eq, beq_iff_eq, this]
  have ec : u.cache = t.cache := h.get Tx.cache fun _ _ => rfl
  simp only [requestBodyParse, em, eh, el]
  split
  · exact .ok ⟨h, rfl⟩
  · split
    · exact .ok ⟨h, rfl⟩
    · have hn := hQ.type h.body
      simp only [NotUrlencoded] at hn
      rcases hm : env.lib.mediaType (if headerGet t.reqHeader b!"Content-Type" = [] then b!"application/octet-stream" else headerGet t.reqHeader b!"Content-Type")
        with ⟨ct, bnd⟩
      rw [hm] at hn
      have hn' : (BodyType.contentType .urlencoded).isPrefixOf ct = false := by
        exact eq_false_of_ne_true hn
      simp only [hm, requestBodyLoop, hn', Bool.not_false, if_true, ec]
      split
      · exact .ok ⟨h, rfl⟩
      · cases hk : t.cache.lookup .multipart with
        | some res => 
          simp only
          split
          · exact .ok ⟨h, rfl⟩
          · exact .ok ⟨h, rfl⟩
        | none =>
          simp only
          refine Res.Both.bind (R := fun x y => Duo Q x.1 y.1 ∧ x.2 = y.2) ?_ fun x y hxy => ?_
          · rcases h1 : env.lib.readForm t.reqBody.content bnd env.limits.requestBodyInMem with ⟨r, p⟩
            rcases h2 : env.lib.readForm u.reqBody.content bnd env.limits.requestBodyInMem with ⟨r', p'⟩
            simp only [parseBody, h1, h2]
            rcases hQ.form h.body (bnd := bnd) (by rw [hm]) with he | ⟨he, he'⟩
            · rw [h1, h2] at he
              cases he
              have hw := h.with (b := t.reqBody.afterForm p) (c := u.reqBody.afterForm p) (hQ.after p h.body)
              cases r with
              | ok m => exact .ok ⟨hw, rfl⟩
              | tooLarge => exact .ok ⟨hw.map (f := fun t => t.abortWithError 413 errMessageTooLarge) (fun _ _ => rfl) rfl, rfl⟩
              | err e => exact .ok ⟨hw, rfl⟩
              | hang => exact .fuel
            · rw [h1] at he
              rw [h2] at he'
              simp only at he he'
              subst he he'
              exact .fuel
          · obtain ⟨x, res, err⟩ := x
            obtain ⟨y, res', err'⟩ := y
            obtain ⟨h1, h2⟩ := hxy
            cases h2
            have h1 := h1.map (f := fun t => t.setCache .multipart res) (fun _ _ => rfl) rfl
            cases err with
            | some e => exact .ok ⟨h1.map (f := fun t => { t with reqBodyError := some e }) (fun _ _ => rfl) rfl, rfl⟩
            | none =>
              simp only
              split
              · exact .ok ⟨h1, rfl⟩
              · exact .ok ⟨h1, rfl⟩

/-- No stock variable tells the bodies apart. -/
theorem ReadsAlike.fetch {Q : Option GoMap → Buf → Buf → Prop} (hQ : ReadsAlike env Q) : FetchesAlike env Q := by
  have post : ∀ (f : Filter) {t u : Tx}, Duo Q t u →
      (fetchArgsPost env f t).Both (fun x y => x.1 = y.1 ∧ Duo Q x.2 y.2) (fetchArgsPost env f u) := by
    intro f t u h
    refine (requestBodyParse_twin hQ h).bind fun x y hxy => ?_
    obtain ⟨x, tp, v⟩ := x
    obtain ⟨y, tp', v'⟩ := y
    obtain ⟨h1, h2⟩ := hxy
    cases h2
    simp only
    split <;> exact .ok ⟨rfl, h1⟩
  have names : ∀ (f : Filter) {t u : Tx}, Duo Q t u →
      (fetchArgsPostNames env f t).Both (fun x y => x.1 = y.1 ∧ Duo Q x.2 y.2) (fetchArgsPostNames env f u) := by
    intro f t u h
    refine (requestBodyParse_twin hQ h).bind fun x y hxy => ?_
    obtain ⟨x, tp, v⟩ := x
    obtain ⟨y, tp', v'⟩ := y
    obtain ⟨h1, h2⟩ := hxy
    cases h2
    simp only
    split <;> first | exact .ok ⟨rfl, h1⟩ | exact .panic
  intro v
  induction v with
  | custom f => intro hv; exact hv.elim
  | count v ih =>
    intro hv t u h
    simp only [Var.fetch]
    exact (ih hv h).bind fun x y hxy => .ok ⟨by simp only [hxy.1], hxy.2⟩
  | args a b =>
    intro _ t u h
    simp only [Var.fetch]
    refine (post b h).bind fun x y hxy => .ok ⟨?_, hxy.2⟩
    have := h.get (fetchArgsGet env a) fun _ _ => rfl
    simp only [hxy.1, this]
  | argsNames a b =>
    intro _ t u h
    simp only [Var.fetch]
    refine (names b h).bind fun x y hxy => .ok ⟨?_, hxy.2⟩
    have := h.get (fetchArgsGetNames env a) fun _ _ => rfl
    simp only [hxy.1, this]
  | argsPost f => intro _ t u h; exact post f h
  | argsPostNames f => intro _ t u h; exact names f h
  | requestBody =>
    intro _ t u h
    have key : ∀ {t : Tx}, NotUrlencoded env t.reqHeader → fetchRequestBody env t = ([], t) := by
      intro t hn
      simp only [fetchRequestBody]
      split
      · rfl
      · split
        · rfl
        · split
          · rfl
          · rename_i hne
            simp only [NotUrlencoded, hne, if_false] at hn
            rw [if_pos]
            intro he
            rw [he] at hn
            exact hn (by decide)
    have eh : u.reqHeader = t.reqHeader := h.get Tx.reqHeader fun _ _ => rfl
    simp only [Var.fetch]
    rw [key (hQ.type h.body), key (by rw [eh]; exact hQ.type h.body)]
    exact .ok ⟨rfl, h⟩
  | responseBody =>
    intro _ t u h
    have eb : u.respBody = t.respBody := h.get Tx.respBody fun _ _ => rfl
    simp only [Var.fetch, fetchResponseBody, eb]
    split
    · exact .ok ⟨rfl, h⟩
    · have hm := h.map (f := fun t' => { t' with respBody := t.respBody.string.1 }) (fun _ _ => rfl) rfl
      split
      · exact .ok ⟨rfl, hm.map (f := fun t => t.abortWithError 500 errOutOfMemLimit) (fun _ _ => rfl) rfl⟩
      · exact .ok ⟨rfl, hm⟩
  | _ =>
    intro _ t u h
    obtain ⟨b, rfl⟩ : ∃ b, u = { t with reqBody := b } := ⟨_, h.rest⟩
    exact .ok ⟨rfl, h⟩

theorem fetch_close {g : Bytes → Int → ReadProg} (hl : env.lib.Runs g) (hN : AsksAtMost N g) : FetchesAlike env (CloseFor env N) :=
  ReadsAlike.fetch
    { type := fun h => h.1, len := fun h => by rw [Buf.len, Buf.len, h.2.length], form := fun h _ => readForm_near hl hN h.2 _ _
      after := fun p h => ⟨h.1, h.2.afterForm p⟩ }

/-- C97, what follows for the verdicts: let `ReadForm` ask for at most `N` bytes at a time.
Two transactions that differ in the bodies only, and there not in the length and not in the
first `N` bytes, the media type not being `application/x-www-form-urlencoded`, give the same
outputs to every sequence of calls (that does not set another media type), under every rule
set without parts written by the host: every verdict, every return value, every rule visited;
or panic both, or fail to return both. -/
theorem C97_rest_unseen {g : Bytes → Int → ReadProg} (hl : env.lib.Runs g) (hN : AsksAtMost N g) {rs : RuleSet} (hrs : rs.Stock) (n : Nat)
    {t u : Tx} (h : Duo (CloseFor env N) t u) {ops : List Op} (hh : ∀ hd, .processRequestHeader hd ∈ ops → NotUrlencoded env (orEmpty hd)) :
    (t.steps env rs n ops).Both (fun x y => Duo (CloseFor env N) x.1 y.1 ∧ x.2 = y.2) (u.steps env rs n ops) :=
  steps_twin (fetch_close hl hN) hrs n
    (fun _ io _ _ _ hQ => Res.Both.imp (hQ.2.write (NearAt.refl _) io) fun _ _ h' => ⟨⟨hQ.1, h'.1⟩, h'.2⟩)
    (fun hd hm _ _ _ hQ => ⟨hh hd hm, hQ.2⟩) h

/-- Chunks only go further on, unless the copy to the file fails. -/
theorem Buf.write_place {b b' : Buf} {p : Bytes} {io : IOFault} {x : Nat × Option BufErr} (h : b.write p io = .ok (b', x)) (hr : b.readed = false)
    (hio : io.copyFail = none) : b.place ≤ b'.place ∧ b'.readed = false := by
  have fw : ∀ (f : File) (p : Bytes) (w : Option Nat), f.pos ≤ (f.write p w).1.pos := by
    intro f p w
    simp only [File.write]
    split
    · exact Nat.le_refl _
    · split <;> simp
  simp only [Buf.write, hr, Bool.false_eq_true, if_false, hio] at h
  split at h
  · cases h; exact ⟨Nat.le_refl _, hr⟩
  · cases hb : b.fileBuf with
    | none =>
      simp only [hb] at h
      simp only [Buf.place, hb]
      split at h
      · split at h
        · cases h
        · split at h
          · cases h; simp
          · simp only [File.write, Bool.false_eq_true, if_false, List.nil_append] at h
            cases hw : io.writeFail with
            | none => simp only [hw] at h; cases h; simp; omega
            | some k => simp only [hw] at h; cases h; simp; omega
      · cases h; simp
    | some f =>
      simp only [hb] at h
      cases h
      simp only [Buf.place, hb]
      exact ⟨fw _ _ _, trivial⟩

/-- Different chunks for the two. -/
theorem append_twin {rs : RuleSet} (n : Nat) {t u : Tx} (h : Duo (CloseFor env N) t u) {p q : Bytes} (hp : NearAt N t.reqBody.place p q) (io : IOFault) :
    (t.step env rs n (.appendRequestBody p io)).Both (fun x y => Duo (CloseFor env N) x.1 y.1 ∧ x.2 = y.2) (u.step env rs n (.appendRequestBody q io)) := by
  simp only [Tx.step]
  refine (h.body.2.write hp io).bind fun x y hxy => .ok ⟨h.with ⟨h.body.1, hxy.1⟩, by simp only [hxy.2]⟩

/-- Chunks put one after the other, of the same lengths. -/
def chunksOf (side : Bytes × Bytes → Bytes) (cs : List ((Bytes × Bytes) × IOFault)) : List Op := cs.map fun c => .appendRequestBody (side c.1) c.2

/-- C97, for two requests: calls that have put (at least) `N` bytes into the body, then the
rest of the body, then further calls.  The rest may be anything: the outputs depend on the
lengths of its chunks only. -/
theorem C97_rest_of_body_unseen {g : Bytes → Int → ReadProg} (hl : env.lib.Runs g) (hN : AsksAtMost N g) {rs : RuleSet} (hrs : rs.Stock) (n : Nat)
    {ops : List Op} (hh : ∀ hd, .processRequestHeader hd ∈ ops → NotUrlencoded env (orEmpty hd)) :
    ∀ (cs : List ((Bytes × Bytes) × IOFault)), (∀ c ∈ cs, c.1.1.length = c.1.2.length ∧ c.2.copyFail = none) →
    ∀ {t u : Tx}, Duo (CloseFor env N) t u → N ≤ t.reqBody.place →
    (t.steps env rs n (chunksOf Prod.fst cs ++ ops)).Both (fun x y => Duo (CloseFor env N) x.1 y.1 ∧ x.2 = y.2) (u.steps env rs n (chunksOf Prod.snd cs ++ ops))
  | [], _, t, u, h, _ => C97_rest_unseen hl hN hrs n h hh
  | c :: cs, hc, t, u, h, hN' => by
    obtain ⟨h1, h2⟩ := hc c List.mem_cons_self
    have hp : NearAt N t.reqBody.place c.1.1 c.1.2 := ⟨h1, fun i hi => absurd hi (by omega)⟩
    have hs := append_twin (rs := rs) n h hp c.2
    simp only [chunksOf, List.map_cons, List.cons_append, Tx.steps]
    cases hw : t.reqBody.write c.1.1 c.2 with
    | ok x =>
      have e : t.step env rs n (.appendRequestBody c.1.1 c.2) = .ok ({ t with reqBody := x.1 }, .error x.2.2, []) := by
        simp only [Tx.step, hw, Res.bind_ok']
      rw [e] at hs ⊢
      cases hs' : u.step env rs n (.appendRequestBody c.1.2 c.2) with
      | ok y =>
        rw [hs'] at hs
        cases hs with
        | ok hs =>
          refine (C97_rest_of_body_unseen hl hN hrs n hh cs (fun d hd => hc d (List.mem_cons_of_mem _ hd)) hs.1 ?_).bind fun a b hab => ?_
          · exact Nat.le_trans hN' (Buf.write_place hw h.body.2.unread.1 h2).1
          · obtain ⟨y1, y2, y3⟩ := y
            obtain ⟨h3, h4⟩ := hs
            cases h4
            exact .ok ⟨hab.1, by simp only [hab.2]⟩
      | panic => rw [hs'] at hs; cases hs
      | fuel => rw [hs'] at hs; cases hs
    | panic =>
      have e : t.step env rs n (.appendRequestBody c.1.1 c.2) = .panic := by simp only [Tx.step, hw, Res.bind_panic']
      rw [e] at hs ⊢
      cases hs' : u.step env rs n (.appendRequestBody c.1.2 c.2) with
      | ok y => rw [hs'] at hs; cases hs
      | panic => exact .panic
      | fuel => rw [hs'] at hs; cases hs
    | fuel =>
      have e : t.step env rs n (.appendRequestBody c.1.1 c.2) = .fuel := by simp only [Tx.step, hw]; rfl
      rw [e] at hs ⊢
      cases hs' : u.step env rs n (.appendRequestBody c.1.2 c.2) with
      | ok y => rw [hs'] at hs; cases hs
      | panic => rw [hs'] at hs; cases hs
      | fuel => exact .fuel

end

/-- The rules of a text have no parts written by the host. -/
theorem loaded_stock {lib : Lib} {vo : VarOrd} {text : Bytes} {set : DireSet}
    (hl : DireSet.addSecLangString lib vo [] text = .ok (set, none)) : (set.execute newEngine).ruleSet.Stock := by
  obtain ⟨dirs, ds, hp, hd, rfl⟩ := loaded_set hl
  have hdef : (DireSet.execute (group ds) newEngine).ruleSet.defaultActions = [] := (C58_switches (group ds) newEngine).2.2
  refine ⟨?_, by intro a ha; rw [hdef] at ha; cases ha⟩
  intro q r hr
  have key : ∀ p x, .rule p ∈ dirs → RuleMeans lib p x → x.Stock1 := by
    intro p x hin hm
    refine ⟨?_, ?_, ?_, ?_⟩
    · intro v hvm
      obtain ⟨ks, _, h2, h3⟩ := hm.vars
      obtain ⟨k, hk, f, y, _, hy, rfl⟩ := pairs_mem_right h3 hvm
      have hys : y.Stock := by
        cases hkt : k.1 <;> simp only [hkt, variableOf] at hy <;> cases hy <;> trivial
      split
      · exact hys
      · exact hys
    · intro x' hx
      rw [hm.trans] at hx
      obtain ⟨tk, _, rfl⟩ := List.mem_map.1 hx
      cases tk <;> trivial
    · intro o ho
      obtain ⟨op, h, h'⟩ := hm.op
      rw [h] at ho
      cases ho
      cases h' <;> trivial
    · intro a ha
      obtain ⟨b, _, hba⟩ := pairs_mem_right hm.actions ha
      cases hba <;> trivial
  obtain ⟨_, _, h3, _⟩ := engine_rule hd hr
  obtain ⟨⟨p1, o1, o2⟩, o3⟩ := grouped_rule_origin hd h3
  have h1 := key p1 _ o1 o2
  refine ⟨⟨h1.vars, h1.trans, h1.op, h1.actions⟩, fun s hs => ?_⟩
  obtain ⟨p2, k1, k2⟩ := o3 s hs
  exact key p2 s k1 k2

/-- No call marks the request body as read. -/
theorem steps_unread {env : Env} {rs : RuleSet} (hrs : rs.Stock) {n : Nat} {ops : List Op} {t t' : Tx} {outs : List Out} {tr : Trace}
    (h : t.steps env rs n ops = .ok (t', outs, tr)) (hr : t.reqBody.readed = false) : t'.reqBody.readed = false := by
  let Q : Option GoMap → Buf → Buf → Prop := fun _ b c => b.readed = false ∧ c = b
  have eq : ∀ {t u : Tx}, Duo Q t u → u = t := by
    intro t u h
    rw [h.rest, h.body.2]
  have hF : FetchesAlike env Q := by
    intro v _ t u h
    rw [eq h]
    cases hv : v.fetch env t with
    | ok x => exact .ok ⟨rfl, rfl, (Var.fetch_fetched hv).req.readed.trans h.body.1, rfl⟩
    | panic => exact .panic
    | fuel => exact .fuel
  have hs : (t.steps env rs n ops).Both (fun x y => Duo Q x.1 y.1 ∧ x.2 = y.2) (t.steps env rs n ops) := by
    refine steps_twin hF hrs n ?_ (fun _ _ _ _ _ h => h) ⟨rfl, hr, rfl⟩
    intro p io _ b c hQ
    obtain ⟨h1, h2⟩ := hQ
    rw [h2]
    cases hw : b.write p io with
    | ok x =>
      refine .ok ⟨⟨?_, rfl⟩, rfl⟩
      refine Buf.write_cases b p io h1 ?_ ?_ ?_ ?_ ?_ ?_ ?_ <;> intros <;> simp_all
      all_goals (try (cases hw; rfl))
      all_goals subst hw; simp_all
    | panic => exact .panic
    | fuel => exact .fuel
  rw [h] at hs
  cases hs with
  | ok hs => exact hs.1.body.1

theorem steps_bind {env : Env} {rs : RuleSet} {n : Nat} (ops' : List Op) : ∀ (ops : List Op) (t : Tx), t.steps env rs n (ops ++ ops') =
    (t.steps env rs n ops).bind fun x => (x.1.steps env rs n ops').bind fun y => .ok (y.1, x.2.1 ++ y.2.1, x.2.2 ++ y.2.2)
  | [], t => by
    simp only [List.nil_append, Tx.steps, Res.bind_ok']
    cases t.steps env rs n ops' <;> rfl
  | op :: ops, t => by
    simp only [List.cons_append, Tx.steps]
    cases t.step env rs n op with
    | ok x =>
      simp only [Res.bind_ok', steps_bind ops' ops]
      cases x.1.steps env rs n ops with
      | ok y =>
        simp only [Res.bind_ok']
        cases y.1.steps env rs n ops' with
        | ok z => simp only [Res.bind_ok', List.cons_append, List.append_assoc]
        | panic => rfl
        | fuel => rfl
      | panic => rfl
      | fuel => rfl
    | panic => rfl
    | fuel => rfl

/-- C97, for rules loaded from a text: calls `pre` that set a media type other than
`application/x-www-form-urlencoded` and put (at least) `N` bytes into the body, then the rest
of the body, then further calls.  Whatever the text, no output depends on the bytes of the
rest. -/
theorem C97_loaded_rest_unseen {lib : Lib} {vo : VarOrd} {ord : IterOrd} {text : Bytes} {set : DireSet}
    (hload : DireSet.addSecLangString lib vo [] text = .ok (set, none))
    {N : Nat} {g : Bytes → Int → ReadProg} (hl : lib.Runs g) (hN : AsksAtMost N g) (n : Nat) {pre post : List Op}
    (hpre : ∀ t outs tr,
      (set.execute newEngine).newTransaction.steps ((set.execute newEngine).env lib ord) (set.execute newEngine).ruleSet n pre = .ok (t, outs, tr) →
      NotUrlencoded ((set.execute newEngine).env lib ord) t.reqHeader ∧ N ≤ t.reqBody.place)
    (hpost : ∀ hd, .processRequestHeader hd ∈ post → NotUrlencoded ((set.execute newEngine).env lib ord) (orEmpty hd))
    (cs : List ((Bytes × Bytes) × IOFault)) (hcs : ∀ c ∈ cs, c.1.1.length = c.1.2.length ∧ c.2.copyFail = none) :
    Res.Both (fun x y => x.2 = y.2)
      ((set.execute newEngine).newTransaction.steps ((set.execute newEngine).env lib ord) (set.execute newEngine).ruleSet n
        (pre ++ (chunksOf Prod.fst cs ++ post)))
      ((set.execute newEngine).newTransaction.steps ((set.execute newEngine).env lib ord) (set.execute newEngine).ruleSet n
        (pre ++ (chunksOf Prod.snd cs ++ post))) := by
  have hst := loaded_stock hload
  rw [steps_bind, steps_bind]
  cases hp : (set.execute newEngine).newTransaction.steps ((set.execute newEngine).env lib ord) (set.execute newEngine).ruleSet n pre with
  | ok x =>
    obtain ⟨t, outs, tr⟩ := x
    obtain ⟨ht, hlong⟩ := hpre t outs tr hp
    have hr := steps_unread hst hp rfl
    simp only [Res.bind_ok']
    exact (C97_rest_of_body_unseen (env := (set.execute newEngine).env lib ord) hl hN hst n hpost cs hcs
      (Duo.mk' (t := t) (b := t.reqBody) ⟨ht, .refl hr⟩) hlong).bind fun x y h => .ok (by simp only [h.2])
  | panic => exact .panic
  | fuel => exact .fuel

/-! ### Examples -/

/-- Asks twice for four bytes; the form has what came as the value `a`. -/
def Sample.twice : ReadProg
  | a :: b :: _ => .inr (.ok [(b!"a", [a.1 ++ b.1])])
  | _ => .inl 4

def Sample.twiceLib : Lib :=
  { lib with readForm := fun c _ _ => (.ok [(b!"a", [(c.getD []).take 4 ++ (c.getD []).take 4])], 4) }

theorem Sample.twice_runs : twiceLib.Runs fun _ _ => twice where
  asks := fun _ _ h k hk => by
    match h, hk with
    | [], hk => cases hk; decide
    | [_], hk => cases hk; decide
  stops := fun _ _ h hk => by
    match h, hk with
    | _ :: _ :: _, hk => cases hk
  runs := fun c bnd m r p _ => by
    have e : Plays (repeating c) twice [] 0 (.ok [(b!"a", [(c.getD []).take 4 ++ (c.getD []).take 4])]) 4 := by
      cases c with
      | none => exact .ask (a := ([], some .io)) rfl ⟨rfl, rfl⟩ (.ask (a := ([], some .io)) rfl ⟨rfl, rfl⟩ (.stop rfl))
      | some c => exact .ask rfl ⟨rfl, rfl⟩ (.ask rfl ⟨rfl, rfl⟩ (.stop rfl))
    constructor
    · intro h
      cases h
      exact e
    · intro h
      obtain ⟨rfl, rfl⟩ := plays_det (rd := repeating c) (fun _ _ _ _ _ _ => repeating_det) e h
      rfl

theorem Sample.twice_asks : AsksAtMost 4 fun _ _ => twice := fun _ _ h k hk => by
  match h, hk with
  | [], hk => cases hk; decide
  | [_], hk => cases hk; decide

/-- Given the body `evilgood` the program makes `evilevil` of it; given its bytes in order,
`evilgood`. -/
example : (∃ b', Plays fromBody twice [] { newBuffer 10 10 with memBuf := b!"evilgood", length := 8 } (.ok [(b!"a", [b!"evilevil"])]) b') ∧
    ∃ p, Plays (inOrder b!"evilgood") twice [] 0 (.ok [(b!"a", [b!"evilgood"])]) p :=
  ⟨(C97_beginning_again twice (fun h k hk => twice_runs.asks [] 0 h k hk) _ rfl _).2
      ⟨4, .ask rfl ⟨rfl, rfl⟩ (.ask rfl ⟨rfl, rfl⟩ (.stop rfl))⟩,
    ⟨8, .ask rfl ⟨rfl, rfl⟩ (.ask rfl ⟨rfl, rfl⟩ (.stop rfl))⟩⟩

/-- A program that asks once is given the bytes in order. -/
example : ∃ b', Plays fromBody (fun h => match h with | [] => .inl 9 | a :: _ => .inr (.ok [(b!"a", [a.1])])) []
    { newBuffer 10 10 with memBuf := b!"evilgood", length := 8 } (.ok [(b!"a", [b!"evilgood"])]) b' := by
  refine (C97_first_ask_partial _ ?_ _ b!"evilgood" rfl rfl rfl rfl _).2 ⟨8, .ask rfl ⟨rfl, rfl⟩ (.stop rfl)⟩
  intro h k hk
  match h, hk with
  | [], hk => cases hk; decide

def Sample.twiceEnv : Env := { env with lib := twiceLib }

def Sample.evilRule : Rule := { vars := [.argsPost {}], op := some (.rx ⟨b!"evilevil", (· == b!"evilevil")⟩), actions := [.deny] }

def Sample.partsOf (x y : Bytes) : List Op :=
  [.processConnection [] [] [] [], .processRequestURL none b!"POST" [], .processRequestHeader (some [(b!"Content-Type", [b!"multipart/form-data"])]),
    .appendRequestBody x {}, .appendRequestBody y {}, .processRequestBody, .result]

/-- A rule that sees the first four bytes, twice: the rest of the body does not matter. -/
example : (∀ y ∈ [b!"evil", b!"good", b!"...."], (outsOf ((newTransaction limits).steps twiceEnv (rules [(3, evilRule)]) 20 (partsOf b!"evil" y))).map
      (fun os => os.getLast?.map fun o => match o with | .intervention i => i.disruptive | _ => false) = some (some true)) ∧
    ∀ y ∈ [b!"evil", b!"good", b!"...."], (outsOf ((newTransaction limits).steps twiceEnv (rules [(3, evilRule)]) 20 (partsOf b!"good" y))).map
      (fun os => os.getLast?.map fun o => match o with | .intervention i => i.disruptive | _ => false) = some (some false) := by
  decide +kernel

theorem Sample.parts_type : NotUrlencoded twiceEnv (some [(b!"Content-Type", [b!"multipart/form-data"])]) := by
  simp only [NotUrlencoded]
  decide +kernel

/-- The same for any rest, by the theorem. -/
example (x y y' : Bytes) (hx : 4 ≤ x.length) (hy : y.length = y'.length) :
    Res.Both (fun x y => x.2 = y.2)
      (({ newTransaction limits with
          reqHeader := some [(b!"Content-Type", [b!"multipart/form-data"])], method := b!"POST",
          reqBody := { newBuffer 8 16 with memBuf := x, length := x.length } } : Tx).steps twiceEnv (rules [(3, evilRule)]) 20
        [.appendRequestBody y {}, .processRequestBody, .result])
      (({ newTransaction limits with
          reqHeader := some [(b!"Content-Type", [b!"multipart/form-data"])], method := b!"POST",
          reqBody := { newBuffer 8 16 with memBuf := x, length := x.length } } : Tx).steps twiceEnv (rules [(3, evilRule)]) 20
        [.appendRequestBody y' {}, .processRequestBody, .result]) := by
  have hst : (rules [(3, evilRule)]).Stock := by
    have hr : ({ evilRule with phase := 3 } : Rule).Stock :=
      ⟨⟨fun v hv => by rw [List.mem_singleton.1 hv]; trivial, (fun _ h => by cases h), (fun o h => by cases h; trivial),
        fun a ha => by rw [List.mem_singleton.1 ha]; trivial⟩, fun _ h => by cases h⟩
    refine ⟨fun p r h => ?_, fun _ h => by cases h⟩
    have : r = { evilRule with phase := 3 } := by
      by_cases hp : p = 3
      · subst hp; exact List.mem_singleton.1 h
      · have he : (rules [(3, evilRule)]).phases p = [] := by simp [rules, RuleSet.addRules, RuleSet.addRule, evilRule, hp, phaseEnd, phaseBegin]
        rw [he] at h; cases h
    rw [this]; exact hr
  exact Res.Both.imp (C97_rest_of_body_unseen (env := twiceEnv) twice_runs twice_asks hst 20 (ops := [.processRequestBody, .result])
    (by intro hd h; cases h with | tail _ h => cases h with | tail _ h => cases h) [((y, y'), {})]
    (by intro c hc; rw [List.mem_singleton.1 hc]; exact ⟨hy, rfl⟩)
    (Duo.mk' (b := { newBuffer 8 16 with memBuf := x, length := x.length }) ⟨Sample.parts_type, .refl rfl⟩) hx) fun _ _ h => h.2

end Verif
