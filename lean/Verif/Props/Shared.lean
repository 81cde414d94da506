import Verif.Proofs.Shared
/-!
C135: what `Bytes` returned stays what it was.
C136: what a host does with it stays with the host (false of the code).
-/
namespace Verif

/-- The calls of a host's program, its assignments left out. -/
def Spec.callsOf : List HolderOp → List BufOp
  | [] => []
  | .call op :: ops => op :: Spec.callsOf ops
  | .set _ _ _ :: ops => Spec.callsOf ops

/-- A host that does not assign to the slices it got. -/
def Spec.OnlyCalls (prog : List HolderOp) : Prop := ∀ op ∈ prog, ∃ c, op = .call c

/-- What a buffer that shares nothing answers to a sequence of calls. -/
def Spec.answers : Buf → List BufOp → Res (List BufAns)
  | _, [] => .ok []
  | b, op :: ops => (b.ask op).bind fun r => (Spec.answers r.1 ops).bind fun as => .ok (r.2 :: as)

/-- What is known while a program runs. -/
structure Holder.Sound (h : Holder) : Prop where
  m : h.m.Sound
  old : ∀ s ∈ h.got, h.m.Old s

theorem Holder.step_call {room : Nat → Nat → Nat} {h h' : Holder} (hs : h.Sound) {op : BufOp} {a : Option BufAns}
    (k : h.step room (.call op) = .ok (h', a)) :
    ∃ x, a = some x ∧ h.m.view.ask op = .ok (h'.m.view, x) ∧ h'.Sound ∧ (∀ s ∈ h.got, s ∈ h'.got ∧ h'.m.look s = h.m.look s) ∧
      (∀ s ∈ h'.got, s ∈ h.got ∨ op = .bytes ∧ h'.got = h.got ++ [s] ∧ h'.m.look s = h'.m.view.memBuf) := by
  rw [Holder.step] at k
  cases e : h.m.call room op with
  | panic => rw [e] at k; cases k
  | fuel => rw [e] at k; cases k
  | ok r =>
    rw [e] at k; cases k
    obtain ⟨k1, k2, k3, k4⟩ := view_call (m' := r.1) (a := r.2) hs.m e
    refine ⟨_, rfl, k1, ⟨k2, fun s h => ?_⟩, fun s h => ⟨?_, (k3 s (hs.old s h)).2⟩, fun s h => ?_⟩
    · simp only at h
      split at h
      · simp only [List.mem_append, List.mem_singleton] at h
        rcases h with h | rfl
        · exact (k3 s (hs.old s h)).1
        · exact k4
      · exact (k3 s (hs.old s h)).1
    · simp only; split <;> simp [h]
    · simp only at h
      split at h
      · rename_i o
        simp only [List.mem_append, List.mem_singleton] at h
        rcases h with h | rfl
        · exact .inl h
        · exact .inr ⟨o, by simp [o], rfl⟩
      · exact .inl h

theorem Holder.run_cons {room : Nat → Nat → Nat} {h : Holder} {op : HolderOp} {ops : List HolderOp} {q : Holder × List BufAns}
    (k : h.run room (op :: ops) = .ok q) : ∃ h' a as, h.step room op = .ok (h', a) ∧ h'.run room ops = .ok (q.1, as) ∧ q.2 = a.toList ++ as := by
  rw [Holder.run] at k
  cases e : h.step room op with
  | panic => rw [e] at k; cases k
  | fuel => rw [e] at k; cases k
  | ok r =>
    rw [e] at k
    simp only [Res.bind] at k
    cases e' : r.1.run room ops with
    | panic => rw [e'] at k; cases k
    | fuel => rw [e'] at k; cases k
    | ok s => rw [e'] at k; cases k; exact ⟨r.1, r.2, s.2, rfl, e', rfl⟩

/-- C135.  Whatever is appended, read, sought or closed later, with whatever errors of the
operating system, a slice that a host got from `Bytes` holds what it held when it got it. -/
theorem C135_keeps (room : Nat → Nat → Nat) (memLimit fileLimit : Int) (prog rest : List HolderOp) (hp : Spec.OnlyCalls rest) {h h' : Holder} {as as' : List BufAns}
    (k : Holder.run room ⟨newShBuf memLimit fileLimit, []⟩ prog = .ok (h, as)) (k' : h.run room rest = .ok (h', as')) :
    ∀ s ∈ h.got, h'.m.look s = h.m.look s := by
  have hs : h.Sound := by
    have : ∀ (prog : List HolderOp) (g : Holder) (as : List BufAns), g.Sound → g.run room prog = .ok (h, as) → h.Sound := by
      intro prog
      induction prog with
      | nil => intro g as hg e; cases e; exact hg
      | cons op ops ih =>
        intro g as hg e
        obtain ⟨g', a, as', e1, e2, -⟩ := Holder.run_cons e
        refine ih g' as' ?_ e2
        cases op with
        | call op => obtain ⟨_, -, -, k, -⟩ := Holder.step_call hg e1; exact k
        | set j i v =>
          rw [Holder.step] at e1
          split at e1
          · cases e1
          · split at e1
            · cases e1
              refine ⟨⟨?_, hg.m.made⟩, fun s h => hg.old s h⟩
              have := hg.m.fits
              simp only
              split <;> simpa using this
            · cases e1
    exact this prog _ as ⟨newShBuf_sound _ _, fun s h => by simp at h⟩ k
  clear k
  induction rest generalizing h as' with
  | nil => cases k'; exact fun _ _ => rfl
  | cons op ops ih =>
    obtain ⟨g, a, as'', e1, e2, -⟩ := Holder.run_cons k'
    obtain ⟨c, rfl⟩ := hp op (by simp)
    obtain ⟨_, -, -, k3, k4, -⟩ := Holder.step_call hs e1
    intro s h
    rw [ih (fun op h => hp op (by simp [h])) e2 k3 s (k4 s h).1, (k4 s h).2]

/-- C136: a host may do with the slices it gets what it likes; the buffer answers every call as
if it shared nothing. -/
def C136_statement : Prop := ∀ (room : Nat → Nat → Nat) (memLimit fileLimit : Int) (prog : List HolderOp) (h : Holder) (as : List BufAns),
  Holder.run room ⟨newShBuf memLimit fileLimit, []⟩ prog = .ok (h, as) → Spec.answers (newBuffer memLimit fileLimit) (Spec.callsOf prog) = .ok as

/-- So it is for hosts that do not assign to them. -/
theorem C136_reading_partial (room : Nat → Nat → Nat) (memLimit fileLimit : Int) (prog : List HolderOp) (hp : Spec.OnlyCalls prog) {h : Holder} {as : List BufAns}
    (k : Holder.run room ⟨newShBuf memLimit fileLimit, []⟩ prog = .ok (h, as)) :
    Spec.answers (newBuffer memLimit fileLimit) (Spec.callsOf prog) = .ok as := by
  have : ∀ (prog : List HolderOp) (g : Holder) (as : List BufAns), Spec.OnlyCalls prog → g.Sound → g.run room prog = .ok (h, as) →
      Spec.answers g.m.view (Spec.callsOf prog) = .ok as := by
    intro prog
    induction prog with
    | nil => intro g as _ _ e; cases e; rfl
    | cons op ops ih =>
      intro g as hp hg e
      obtain ⟨g', a, as', e1, e2, e3⟩ := Holder.run_cons e
      obtain ⟨c, rfl⟩ := hp op (by simp)
      obtain ⟨x, rfl, k2, k3, -⟩ := Holder.step_call hg e1
      have := ih g' as' (fun op h => hp op (by simp [h])) k3 e2
      simp only [Spec.callsOf, Spec.answers, k2, Res.bind, this]
      simp only at e3
      rw [e3]; rfl
  exact this prog ⟨newShBuf memLimit fileLimit, []⟩ as hp ⟨newShBuf_sound _ _, fun s h => by simp at h⟩ k

/-- A host that overwrites the first byte of what `Bytes` returned has overwritten the body. -/
theorem C136_refuted : ¬ C136_statement := by
  intro h
  have := h (fun c _ => c) 100 100 [.call (.write b!"attack" {}), .call .bytes, .set 0 0 120, .call .string]
    _ [.number 6 none, .text b!"attack" none, .text b!"xttack" none] rfl
  revert this
  decide

/-- The same from some point on. -/
def Spec.SameFrom (l : Nat) (x y : Bytes) : Prop := x.length = y.length ∧ ∀ i, l ≤ i → x[i]? = y[i]?

/-- The same answer, but for the first bytes of a text. -/
def Spec.AlikeFrom (l : Nat) : BufAns → BufAns → Prop
  | .text x e, .text y e' => Spec.SameFrom l x y ∧ e = e'
  | .number n e, .number n' e' => n = n' ∧ e = e'
  | .only e, .only e' => e = e'
  | _, _ => False

/-- Answers that are alike one by one. -/
def Spec.AllAlike (l : Nat) : List BufAns → List BufAns → Prop
  | [], [] => True
  | a :: as, b :: bs => Spec.AlikeFrom l a b ∧ Spec.AllAlike l as bs
  | _, _ => False

theorem Spec.SameFrom.rfl {l : Nat} {x : Bytes} : Spec.SameFrom l x x := ⟨Eq.refl _, fun _ _ => Eq.refl _⟩

theorem Spec.SameFrom.take {l : Nat} {x y : Bytes} (h : Spec.SameFrom l x y) (n : Nat) : Spec.SameFrom l (x.take n) (y.take n) :=
  ⟨by simp [h.1], fun i hi => by simp only [List.getElem?_take]; split <;> simp [h.2 i hi]⟩

theorem Spec.SameFrom.append {l : Nat} {x y : Bytes} (h : Spec.SameFrom l x y) (p : Bytes) : Spec.SameFrom l (x ++ p) (y ++ p) :=
  ⟨by simp [h.1], fun i hi => by simp only [List.getElem?_append, h.1]; split <;> simp [h.2 i hi]⟩

theorem Spec.SameFrom.drop {l : Nat} {x y : Bytes} (h : Spec.SameFrom l x y) (n : Nat) : Spec.SameFrom l (x.drop n) (y.drop n) :=
  ⟨by simp [h.1], fun i hi => by simp only [List.getElem?_drop]; exact h.2 _ (by omega)⟩

theorem Spec.SameFrom.writeAt {l : Nat} {x y p q : Bytes} (h : Spec.SameFrom l x y) (n : Nat) (hp : Spec.SameFrom l p q) (hn : p = q ∨ n = 0) :
    Spec.SameFrom l (Verif.writeAt x n p) (Verif.writeAt y n q) := by
  have e : p = [] ↔ q = [] := by rw [← List.length_eq_zero_iff, ← List.length_eq_zero_iff, hp.1]
  simp only [Verif.writeAt]
  by_cases k : p = []
  · rw [if_pos k, if_pos (e.1 k)]; exact h
  · rw [if_neg k, if_neg (mt e.2 k)]
    have h1 := h.1
    have h2 := hp.1
    refine ⟨by simp [h1, h2], fun i hi => ?_⟩
    simp only [List.getElem?_append, List.length_append, List.length_take, List.length_replicate, List.getElem?_take, List.getElem?_drop, h1, h2]
    have := h.2 i hi
    split
    · split
      · split
        · split <;> first | exact this | rfl
        · rfl
      · rcases hn with rfl | rfl
        · rfl
        · exact hp.2 _ (by omega)
    · exact h.2 _ (by omega)

/-- Files that are alike from some point on. -/
def FileLike (l : Nat) : Option File → Option File → Prop
  | none, none => True
  | some f, some g => f.pos = g.pos ∧ f.closed = g.closed ∧ Spec.SameFrom l f.content g.content
  | _, _ => False

/-- Buffers that are alike from some point on. -/
structure BufLike (l : Nat) (b v : Buf) : Prop where
  length : b.length = v.length
  memLimit : b.memLimit = v.memLimit
  fileLimit : b.fileLimit = v.fileLimit
  unread : b.readed = false
  unread' : v.readed = false
  mem : Spec.SameFrom l b.memBuf v.memBuf
  file : FileLike l b.fileBuf v.fileBuf

theorem Spec.SameFrom.mono {l k : Nat} {x y : Bytes} (h : Spec.SameFrom l x y) (hl : l ≤ k) : Spec.SameFrom k x y :=
  ⟨h.1, fun i hi => h.2 i (by omega)⟩

theorem FileLike.mono {l k : Nat} {f g : Option File} (h : FileLike l f g) (hl : l ≤ k) : FileLike k f g := by
  cases f <;> cases g <;> simp only [FileLike] at h ⊢
  exact ⟨h.1, h.2.1, h.2.2.mono hl⟩

theorem BufLike.mono {l k : Nat} {b v : Buf} (h : BufLike l b v) (hl : l ≤ k) : BufLike k b v :=
  ⟨h.length, h.memLimit, h.fileLimit, h.unread, h.unread', h.mem.mono hl, h.file.mono hl⟩

theorem FileLike.isSome {l : Nat} {f g : Option File} (h : FileLike l f g) : f.isSome = g.isSome := by
  cases f <;> cases g <;> simp only [FileLike] at h <;> rfl

/-- Writing the same, or things alike at the beginning. -/
theorem FileLike.write {l : Nat} {f g : File} (h : FileLike l (some f) (some g)) {p q : Bytes} (hp : Spec.SameFrom l p q) (hn : p = q ∨ f.pos = 0) (io : Option Nat) :
    FileLike l (some (f.write p io).1) (some (g.write q io).1) ∧ (f.write p io).2 = (g.write q io).2 := by
  obtain ⟨h1, h2, h3⟩ := h
  have e := hp.1
  simp only [File.write, ← h2, ← h1]
  split
  · exact ⟨⟨h1, h2, h3⟩, rfl⟩
  · cases io with
    | none =>
      exact ⟨⟨by simp only [e], rfl, h3.writeAt _ hp hn⟩, by simp only [e]⟩
    | some k =>
      have hk : p.take k = q.take k ∨ f.pos = 0 := by
        rcases hn with rfl | h
        · exact .inl rfl
        · exact .inr h
      have e' : (p.take k).length = (q.take k).length := (hp.take k).1
      exact ⟨⟨by simp only [e'], rfl, h3.writeAt _ (hp.take k) hk⟩, by simp only [e']⟩

theorem BufLike.initRead {l : Nat} {b v : Buf} (h : BufLike l b v) : BufLike l b.initRead v.initRead ∧
    b.initRead.memReader = some (b.memBuf, 0) ∧ v.initRead.memReader = some (v.memBuf, 0) ∧ b.initRead.memBuf = b.memBuf ∧ v.initRead.memBuf = v.memBuf := by
  have h7 := h.file
  simp only [Buf.initRead, h.unread, h.unread', Bool.not_false, if_true, and_true]
  refine ⟨h.length, h.memLimit, h.fileLimit, rfl, rfl, h.mem, ?_⟩
  simp only
  cases e : b.fileBuf <;> cases e' : v.fileBuf <;> rw [e, e'] at h7 <;> simp only [FileLike] at h7
  · simp [FileLike]
  · obtain ⟨h1, h2, h3⟩ := h7
    simp only [Option.map_some, h2]
    split
    · exact ⟨h1, h2, h3⟩
    · exact ⟨rfl, rfl, h3⟩

theorem like_write {l : Nat} {b v v' : Buf} (h : BufLike l b v) {p : Bytes} {io : IOFault} {n : Nat} {e : Option BufErr} (k : v.write p io = .ok (v', n, e)) :
    ∃ b', b.write p io = .ok (b', n, e) ∧ BufLike l b' v' := by
  have h7 := h.file
  rw [Buf.write] at k ⊢
  rw [h.unread, h.length, h.memLimit, h.fileLimit]
  rw [h.unread'] at k
  simp only [Bool.false_eq_true, if_false] at k ⊢
  split at k
  · cases k; rename_i c; rw [if_pos c]; exact ⟨b, rfl, h⟩
  · rename_i c; rw [if_neg c]; clear c
    cases e1 : b.fileBuf with
    | none =>
      cases e2 : v.fileBuf with
      | some g => rw [e1, e2] at h7; exact h7.elim
      | none =>
        rw [e2] at k
        simp only at k ⊢
        split at k
        · rename_i c; rw [if_pos c]; clear c
          split at k
          · cases k
          · rename_i c; rw [if_neg c]; clear c
            split at k
            · rename_i c; rw [if_pos c]; cases k
              exact ⟨_, rfl, rfl, rfl, rfl, (by first | rfl | exact h.unread), (by first | rfl | exact h.unread'), h.mem.append _, by simp only [e1, e2]; trivial⟩
            · rename_i c; rw [if_neg c]; clear c
              have hm := h.mem.append (p.take (v.memLimit - v.length).toNat)
              obtain ⟨w1, w2⟩ := FileLike.write (f := { content := [], pos := 0 }) (g := { content := [], pos := 0 }) ⟨rfl, rfl, .rfl⟩ hm (.inr rfl) io.copyFail
              have w3 := congrArg Prod.snd w2
              rw [w3]
              split at k
              · rename_i c; rw [c]; cases k
                exact ⟨_, rfl, rfl, rfl, rfl, (by first | rfl | exact h.unread), (by first | rfl | exact h.unread'), hm, w1⟩
              · rename_i c; rw [c]; cases k
                obtain ⟨x1, x2⟩ := FileLike.write w1 (p := p) .rfl (.inl rfl) io.writeFail
                have x3 := congrArg Prod.fst x2
                have x4 := congrArg Prod.snd x2
                simp only at x3 x4 ⊢
                rw [x3, x4]
                exact ⟨_, rfl, rfl, rfl, rfl, (by first | rfl | exact h.unread), (by first | rfl | exact h.unread'), hm, x1⟩
        · rename_i c; rw [if_neg c]; cases k
          exact ⟨_, rfl, rfl, rfl, rfl, (by first | rfl | exact h.unread), (by first | rfl | exact h.unread'), h.mem.append _, by simp only [e1, e2]; trivial⟩
    | some f =>
      cases e2 : v.fileBuf with
      | none => rw [e1, e2] at h7; exact h7.elim
      | some g =>
        rw [e1, e2] at h7
        rw [e2] at k; cases k
        obtain ⟨x1, x2⟩ := FileLike.write h7 (p := p) .rfl (.inl rfl) io.writeFail
        have x3 := congrArg Prod.fst x2
        have x4 := congrArg Prod.snd x2
        simp only at x3 x4 ⊢
        rw [x3, x4]
        exact ⟨_, rfl, rfl, rfl, rfl, (by first | rfl | exact h.unread), (by first | rfl | exact h.unread'), h.mem, x1⟩

theorem like_file {l : Nat} {b v : Buf} (h : BufLike l b v) {r : Option (Bytes × Nat)} {r' : Option (Bytes × Nat)} {f g : Option File} (hf : FileLike l f g) :
    BufLike l { b with memReader := r, fileBuf := f } { v with memReader := r', fileBuf := g } :=
  ⟨h.length, h.memLimit, h.fileLimit, h.unread, h.unread', h.mem, hf⟩

theorem like_call {l : Nat} {b v v' : Buf} (h : BufLike l b v) {op : BufOp} {a : BufAns} (k : v.ask op = .ok (v', a)) :
    ∃ b' a', b.ask op = .ok (b', a') ∧ BufLike l b' v' ∧ Spec.AlikeFrom l a a' := by
  obtain ⟨hi, r1, r2, m1, m2⟩ := h.initRead
  have hf := hi.file
  have hsym : ∀ {x y : Bytes}, Spec.SameFrom l x y → Spec.SameFrom l y x := fun h => ⟨h.1.symm, fun i hi => (h.2 i hi).symm⟩
  cases op with
  | write p io =>
    rw [Buf.ask] at k
    cases e : v.write p io with
    | panic => rw [e] at k; cases k
    | fuel => rw [e] at k; cases k
    | ok r =>
      rw [e] at k; cases k
      obtain ⟨b', e', hb⟩ := like_write (v' := r.1) (n := r.2.1) (e := r.2.2) h e
      exact ⟨b', .number r.2.1 r.2.2, by rw [Buf.ask, e']; rfl, hb, rfl, rfl⟩
  | string =>
    cases k
    exact ⟨_, _, rfl, hi, by simp only [Buf.string, m1, m2]; exact hsym h.mem, by simp only [Buf.string, hf.isSome]⟩
  | bytes =>
    cases k
    exact ⟨_, _, rfl, hi, by simp only [Buf.string, m1, m2]; exact hsym h.mem, by simp only [Buf.string, hf.isSome]⟩
  | read n =>
    rw [Buf.ask, Buf.read] at k ⊢
    simp only at k ⊢
    cases e1 : b.initRead.fileBuf with
    | none =>
      cases e2 : v.initRead.fileBuf with
      | some g => rw [e1, e2] at hf; exact hf.elim
      | none =>
        rw [e2, r2] at k; rw [r1]
        simp only [memRead, h.mem.1] at k ⊢
        split at k
        · rename_i c; cases k; rw [if_pos c]
          exact ⟨_, _, rfl, like_file hi (by first | exact hf | trivial), .rfl, rfl⟩
        · rename_i c; cases k; rw [if_neg c]
          exact ⟨_, _, rfl, like_file hi (by first | exact hf | trivial), (hsym h.mem).take n, rfl⟩
    | some f =>
      cases e2 : v.initRead.fileBuf with
      | none => rw [e1, e2] at hf; exact hf.elim
      | some g =>
        rw [e1, e2] at hf
        obtain ⟨f1, f2, f3⟩ := hf
        rw [e2] at k
        simp only [File.read] at k ⊢
        rw [f2]
        split at k
        · rename_i c; cases k; rw [if_pos c]
          exact ⟨_, _, rfl, like_file hi ⟨f1, f2, f3⟩, .rfl, rfl⟩
        · rename_i c; cases k; rw [if_neg c]
          have t := (f3.drop f.pos).take n
          rw [f1] at t ⊢
          exact ⟨_, _, rfl, like_file hi ⟨by simp only [t.1], rfl, f3⟩, hsym t, by simp only [t.1]⟩
  | writeTo =>
    rw [Buf.ask, Buf.writeTo] at k ⊢
    try simp only at k ⊢
    cases e1 : b.initRead.fileBuf with
    | none =>
      cases e2 : v.initRead.fileBuf with
      | some g => rw [e1, e2] at hf; exact hf.elim
      | none =>
        rw [e2, r2] at k; rw [r1]
        cases k
        exact ⟨_, _, rfl, like_file hi (by first | exact hf | trivial), (hsym h.mem).drop 0, rfl⟩
    | some f =>
      cases e2 : v.initRead.fileBuf with
      | none => rw [e1, e2] at hf; exact hf.elim
      | some g =>
        rw [e1, e2] at hf
        obtain ⟨f1, f2, f3⟩ := hf
        rw [e2] at k
        simp only at k ⊢
        rw [f2]
        split at k
        · rename_i c; cases k; rw [if_pos c]
          exact ⟨_, _, rfl, hi, .rfl, rfl⟩
        · rename_i c; cases k; rw [if_neg c]
          exact ⟨_, _, rfl, like_file hi ⟨by simp only [f1, f3.1], rfl, f3⟩, by rw [f1]; exact (hsym f3).drop _, rfl⟩
  | seek o w =>
    rw [Buf.ask, Buf.seek] at k ⊢
    try simp only at k ⊢
    cases e1 : b.initRead.fileBuf with
    | none =>
      cases e2 : v.initRead.fileBuf with
      | some g => rw [e1, e2] at hf; exact hf.elim
      | none =>
        rw [e2, r2] at k; rw [r1]
        simp only [h.mem.1] at k ⊢
        split at k
        · cases k
          exact ⟨_, _, rfl, hi, rfl, rfl⟩
        · cases k
          exact ⟨_, _, rfl, like_file hi (by first | exact hf | trivial), rfl, rfl⟩
    | some f =>
      cases e2 : v.initRead.fileBuf with
      | none => rw [e1, e2] at hf; exact hf.elim
      | some g =>
        rw [e1, e2] at hf
        obtain ⟨f1, f2, f3⟩ := hf
        rw [e2] at k
        simp only at k ⊢
        rw [f2, f1, f3.1]
        split at k
        · rename_i c; cases k; rw [if_pos c]
          exact ⟨_, _, rfl, hi, rfl, rfl⟩
        · rename_i c; rw [if_neg c]
          split at k
          · cases k
            exact ⟨_, _, rfl, hi, rfl, rfl⟩
          · cases k
            exact ⟨_, _, rfl, like_file hi ⟨rfl, rfl, f3⟩, rfl, rfl⟩
  | close =>
    have hf := h.file
    rw [Buf.ask, Buf.close] at k ⊢
    cases e1 : b.fileBuf with
    | none =>
      cases e2 : v.fileBuf with
      | some g => rw [e1, e2] at hf; exact hf.elim
      | none => rw [e2] at k; cases k
    | some f =>
      cases e2 : v.fileBuf with
      | none => rw [e1, e2] at hf; exact hf.elim
      | some g =>
        rw [e1, e2] at hf
        obtain ⟨f1, f2, f3⟩ := hf
        rw [e2] at k; cases k
        exact ⟨_, _, rfl, like_file h ⟨f1, rfl, f3⟩, by simp only [f2]; rfl⟩

theorem Holder.step_sound {room : Nat → Nat → Nat} {g g' : Holder} (hg : g.Sound) {op : HolderOp} {a : Option BufAns} (k : g.step room op = .ok (g', a)) :
    g'.Sound ∧ ∀ s ∈ g.got, s ∈ g'.got := by
  cases op with
  | call op => obtain ⟨_, -, -, k, k', -⟩ := Holder.step_call hg k; exact ⟨k, fun s h => (k' s h).1⟩
  | set j i v =>
    rw [Holder.step] at k
    split at k
    · cases k
    · split at k
      · cases k
        refine ⟨⟨⟨?_, hg.m.made⟩, fun s h => hg.old s h⟩, fun s h => h⟩
        have := hg.m.fits
        simp only
        split <;> simpa using this
      · cases k

theorem Holder.run_got {room : Nat → Nat → Nat} {h : Holder} : ∀ {prog : List HolderOp} {g : Holder} {as : List BufAns}, g.Sound → g.run room prog = .ok (h, as) →
    ∀ s ∈ g.got, s ∈ h.got
  | [], _, _, _, k => by cases k; exact fun _ h => h
  | op :: ops, g, as, hg, k => by
    obtain ⟨g', a, as', e1, e2, -⟩ := Holder.run_cons k
    have := Holder.step_sound hg e1
    exact fun s h => Holder.run_got this.1 e2 s (this.2 s h)

/-- What a host changes: the bytes within the slices it got.  All else that the buffer answers,
lengths, errors, positions and every byte beyond the longest of these slices, is as if it
shared nothing. -/
theorem C136_beyond (room : Nat → Nat → Nat) (memLimit fileLimit : Int) (prog : List HolderOp) {h : Holder} {as : List BufAns}
    (k : Holder.run room ⟨newShBuf memLimit fileLimit, []⟩ prog = .ok (h, as)) {l : Nat} (hl : ∀ s ∈ h.got, s.len ≤ l) :
    ∃ as', Spec.answers (newBuffer memLimit fileLimit) (Spec.callsOf prog) = .ok as' ∧ Spec.AllAlike l as as' := by
  have : ∀ (prog : List HolderOp) (g : Holder) (as : List BufAns) (b : Buf), g.Sound → BufLike l b g.m.view → g.run room prog = .ok (h, as) →
      ∃ as', Spec.answers b (Spec.callsOf prog) = .ok as' ∧ Spec.AllAlike l as as' := by
    intro prog
    induction prog with
    | nil => intro g as b _ _ e; cases e; exact ⟨[], rfl, trivial⟩
    | cons op ops ih =>
      intro g as b hg hb e
      obtain ⟨g', a, as', e1, e2, e3⟩ := Holder.run_cons e
      have hg' := Holder.step_sound hg e1
      simp only at e3; subst e3
      cases op with
      | call op =>
        obtain ⟨x, rfl, k2, -⟩ := Holder.step_call hg e1
        obtain ⟨b', a', k3, k4, k5⟩ := like_call hb k2
        obtain ⟨as'', k6, k7⟩ := ih g' as' b' hg'.1 k4 e2
        exact ⟨a' :: as'', by simp only [Spec.callsOf, Spec.answers, k3, Res.bind, k6], k5, k7⟩
      | set j i v =>
        rw [Holder.step] at e1
        split at e1
        · cases e1
        · rename_i s hs
          split at e1
          · rename_i hi
            cases e1
            have hi : i < l := Nat.lt_of_lt_of_le hi (hl s (Holder.run_got hg'.1 e2 s (List.mem_of_getElem? hs)))
            refine ih _ as' b hg'.1 ⟨hb.length, hb.memLimit, hb.fileLimit, hb.unread, hb.unread', ?_, hb.file⟩ e2
            have hm := hb.mem
            simp only [ShBuf.view, ShBuf.look] at hm ⊢
            split
            · refine ⟨by rw [hm.1]; simp, fun j hj => ?_⟩
              rw [hm.2 j hj]
              simp only [List.getElem?_take]
              split
              · rw [List.getElem?_set_ne (by omega)]
              · rfl
            · exact hm
          · cases e1
  exact this prog ⟨newShBuf memLimit fileLimit, []⟩ as _ ⟨newShBuf_sound _ _, fun s h => by simp at h⟩
    ⟨rfl, rfl, rfl, rfl, rfl, by simp [ShBuf.view, ShBuf.look, newShBuf, newBuffer]; exact .rfl, trivial⟩ k

/-- A slice whose array the body has outgrown is the host's own. -/
theorem C136_outgrown {room : Nat → Nat → Nat} {h h' : Holder} {k i : Nat} {v : UInt8} {a : Option BufAns} {s : BSlice} (hs : h.got[k]? = some s)
    (ho : s.arr ≠ h.m.arr) (e : h.step room (.set k i v) = .ok (h', a)) : h'.m.view = h.m.view := by
  rw [Holder.step, hs] at e
  simp only at e
  split at e
  · cases e
    simp only [ShBuf.view, ShBuf.look]
    rw [if_neg (Ne.symm ho)]
  · cases e

/-- `C135_keeps`: the body goes on, in place and then in a new array and in a file; the slice
does not. -/
example : (Holder.run (fun c _ => c + 8) ⟨newShBuf 10 100, []⟩ [.call (.write b!"ab" {}), .call .bytes, .call (.write b!"cd" {}), .call (.write b!"0123456789" {})]).bind
    (fun r => .ok (r.1.got.map r.1.m.look, r.1.m.view.content, r.1.m.count)) = .ok ([b!"ab"], some b!"abcd0123450123456789", 2) := by decide

/-- `C136_reading_partial`, `C136_beyond`: both kinds of programs; with the assignment `x` in
the first two bytes, the third and fourth are as they were. -/
example : (Holder.run (fun c _ => c + 8) ⟨newShBuf 10 100, []⟩ [.call (.write b!"ab" {}), .call .bytes, .call (.write b!"cd" {}), .call (.read 4)]).bind
      (fun r => .ok r.2) = .ok [.number 2 none, .text b!"ab" none, .number 2 none, .text b!"abcd" none] ∧
    (Holder.run (fun c _ => c + 8) ⟨newShBuf 10 100, []⟩ [.call (.write b!"ab" {}), .call .bytes, .call (.write b!"cd" {}), .set 0 1 120, .call (.read 4)]).bind
      (fun r => .ok r.2) = .ok [.number 2 none, .text b!"ab" none, .number 2 none, .text b!"axcd" none] := by decide

/-- `C136_outgrown`: with no spare room the second `Write` moves. -/
example : (Holder.run (fun _ _ => 0) ⟨newShBuf 10 100, []⟩ [.call (.write b!"ab" {}), .call .bytes, .call (.write b!"cd" {}), .set 0 1 120, .call (.read 4)]).bind
      (fun r => .ok r.2) = .ok [.number 2 none, .text b!"ab" none, .number 2 none, .text b!"abcd" none] := by decide

end Verif
