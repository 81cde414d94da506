import Verif.Model.Buffer
namespace Verif

theorem File.write_count (f : File) (p : Bytes) (fail : Option Nat) : (f.write p fail).2.1 ≤ p.length := by
  simp only [File.write]
  split
  · simp
  · split
    · simp
    · simp only [List.length_take]; omega

theorem File.write_ok {f f' : File} {p : Bytes} {n : Nat} (h : f.write p none = (f', n, none)) : n = p.length := by
  simp only [File.write] at h
  split at h <;> simp_all

theorem File.write_err {f f' : File} {p : Bytes} {n : Nat} {e : BufErr}
    (h : f.write p none = (f', n, some e)) : n = 0 ∧ f' = f := by
  simp only [File.write] at h
  split at h <;> simp_all

/-- An open file positioned at its end. -/
def File.at (c : Bytes) : File := { content := c, pos := c.length }

/-- What a write can do. -/
theorem Buf.write_cases {P : Prop} (b : Buf) (p : Bytes) (io : IOFault) (hr : b.readed = false)
    (over : (b.length : Int) + p.length > b.fileLimit → b.write p io = .ok (b, 0, some .outOfFileLimit) → P)
    (pan : (b.length : Int) + p.length ≤ b.fileLimit → b.fileBuf = none → b.memLimit - b.length < 0 →
      (b.length : Int) + p.length > b.memLimit → b.write p io = .panic → P)
    (tmp : (b.length : Int) + p.length ≤ b.fileLimit → b.fileBuf = none → 0 ≤ b.memLimit - b.length →
      (b.length : Int) + p.length > b.memLimit → io.tempFail = true →
      b.write p io = .ok ({ b with memBuf := b.memBuf ++ p.take (b.memLimit - b.length).toNat }, 0, some .io) → P)
    (copy : ∀ f e, (b.length : Int) + p.length ≤ b.fileLimit → b.fileBuf = none → 0 ≤ b.memLimit - b.length →
      (b.length : Int) + p.length > b.memLimit → io.tempFail = false → io.copyFail ≠ none →
      b.write p io = .ok ({ b with memBuf := b.memBuf ++ p.take (b.memLimit - b.length).toNat, fileBuf := some f }, 0, some e) → P)
    (spill : ∀ f wn e, (b.length : Int) + p.length ≤ b.fileLimit → b.fileBuf = none → 0 ≤ b.memLimit - b.length →
      (b.length : Int) + p.length > b.memLimit → io.tempFail = false → io.copyFail = none →
      File.write (.at (b.memBuf ++ p.take (b.memLimit - b.length).toNat)) p io.writeFail = (f, wn, e) →
      b.write p io = .ok ({ b with memBuf := b.memBuf ++ p.take (b.memLimit - b.length).toNat, fileBuf := some f,
                                   length := b.length + wn }, wn, e) → P)
    (mem : (b.length : Int) + p.length ≤ b.fileLimit → b.fileBuf = none → (b.length : Int) + p.length ≤ b.memLimit →
      b.write p io = .ok ({ b with memBuf := b.memBuf ++ p, length := b.length + p.length }, p.length, none) → P)
    (file : ∀ f0 f wn e, (b.length : Int) + p.length ≤ b.fileLimit → b.fileBuf = some f0 →
      f0.write p io.writeFail = (f, wn, e) →
      b.write p io = .ok ({ b with fileBuf := some f, length := b.length + wn }, wn, e) → P) : P := by
  by_cases h1 : (b.length : Int) + p.length > b.fileLimit
  · exact over h1 (by simp [Buf.write, hr, h1])
  have h1' : (b.length : Int) + p.length ≤ b.fileLimit := by omega
  cases hf : b.fileBuf with
  | some f0 =>
    rcases hw : f0.write p io.writeFail with ⟨f, wn, e⟩
    refine file f0 f wn e h1' hf hw ?_
    simp [Buf.write, hr, h1, hf, hw]
  | none =>
    by_cases h2 : (b.length : Int) + p.length > b.memLimit
    · by_cases h3 : b.memLimit - b.length < 0
      · exact pan h1' hf h3 h2 (by simp only [Buf.write, hr, h1, hf, h2, h3]; simp)
      have h3' : 0 ≤ b.memLimit - b.length := by omega
      by_cases h4 : io.tempFail = true
      · exact tmp h1' hf h3' h2 h4 (by simp only [Buf.write, hr, h1, hf, h2, h3, h4]; simp)
      have h4' : io.tempFail = false := by simpa using h4
      cases h5 : io.copyFail with
      | some k =>
        refine copy { content := writeAt [] 0 ((b.memBuf ++ p.take (b.memLimit - b.length).toNat).take k),
                      pos := ((b.memBuf ++ p.take (b.memLimit - b.length).toNat).take k).length }
          .io h1' hf h3' h2 h4' (by simp [h5]) ?_
        simp only [Buf.write, hr, h1, hf, h2, h3, h4, File.write, h5]; simp
      | none =>
        rcases hw : File.write (.at (b.memBuf ++ p.take (b.memLimit - b.length).toNat)) p io.writeFail with ⟨f, wn, e⟩
        refine spill f wn e h1' hf h3' h2 h4' h5 hw ?_
        have e1 : File.write { content := [], pos := 0 } (b.memBuf ++ p.take (b.memLimit - b.length).toNat) none =
            (.at (b.memBuf ++ p.take (b.memLimit - b.length).toNat),
             (b.memBuf ++ p.take (b.memLimit - b.length).toNat).length, none) := by
          simp [File.write, writeAt, File.at]
        simp only [Buf.write, hr, h1, hf, h2, h3, h4, h5, e1, hw]; simp
    · exact mem h1' hf (by omega) (by simp only [Buf.write, hr, h1, hf, h2]; simp)

/-- Reading never touches the content, the counters and the flag. -/
structure Buf.SameBody (b b' : Buf) : Prop where
  length : b'.length = b.length
  memLimit : b'.memLimit = b.memLimit
  fileLimit : b'.fileLimit = b.fileLimit
  memBuf : b'.memBuf = b.memBuf
  readed : b'.readed = b.readed
  file : b'.fileBuf.map File.content = b.fileBuf.map File.content

theorem Buf.initRead_same (b : Buf) : b.SameBody b.initRead := by
  simp only [Buf.initRead]
  split
  · refine ⟨rfl, rfl, rfl, rfl, rfl, ?_⟩
    cases b.fileBuf with
    | none => rfl
    | some f => by_cases h : f.closed = true <;> simp [h]
  · exact ⟨rfl, rfl, rfl, rfl, rfl, rfl⟩

theorem Buf.SameBody.withFile {b b1 : Buf} (h : b.SameBody b1) {f f' : File} (hf : b1.fileBuf = some f)
    (hc : f'.content = f.content) : b.SameBody { b1 with fileBuf := some f' } :=
  ⟨h.length, h.memLimit, h.fileLimit, h.memBuf, h.readed, by
    have := h.file
    rw [hf] at this
    simpa [hc] using this⟩

/-- Calls other than writes keep the body. -/
theorem Buf.step_same {b b' : Buf} {op : BufOp} (hop : ∀ p io, op ≠ .write p io) (h : b.step op = .ok b') :
    b.SameBody b' := by
  have hi := b.initRead_same
  cases op with
  | write p io => exact absurd rfl (hop p io)
  | string => simp only [Buf.step, Buf.string] at h; cases h; exact hi
  | bytes => simp only [Buf.step, Buf.string] at h; cases h; exact hi
  | read n =>
    simp only [Buf.step, Buf.read] at h
    split at h
    · split at h
      · cases h
      · cases h; exact ⟨hi.length, hi.memLimit, hi.fileLimit, hi.memBuf, hi.readed, hi.file⟩
    · rename_i f hf
      cases h
      refine hi.withFile hf ?_
      simp only [File.read]; split <;> rfl
  | writeTo =>
    simp only [Buf.step, Buf.writeTo] at h
    split at h
    · split at h
      · cases h
      · cases h; exact ⟨hi.length, hi.memLimit, hi.fileLimit, hi.memBuf, hi.readed, hi.file⟩
    · rename_i f hf
      split at h
      · cases h; exact hi
      · cases h; exact hi.withFile hf rfl
  | seek o w =>
    simp only [Buf.step, Buf.seek] at h
    split at h
    · split at h
      · cases h
      · split at h
        · cases h; exact hi
        · cases h; exact ⟨hi.length, hi.memLimit, hi.fileLimit, hi.memBuf, hi.readed, hi.file⟩
    · rename_i f hf
      split at h
      · cases h; exact hi
      · split at h
        · cases h; exact hi
        · cases h; exact hi.withFile hf rfl
  | close =>
    simp only [Buf.step, Buf.close] at h
    split at h
    · cases h
    · rename_i f hf
      cases h
      exact Buf.SameBody.withFile ⟨rfl, rfl, rfl, rfl, rfl, rfl⟩ hf rfl

theorem Buf.step_write {b b' : Buf} {p : Bytes} {io : IOFault} (h : b.step (.write p io) = .ok b') :
    ∃ n e, b.write p io = .ok (b', n, e) := by
  simp only [Buf.step] at h
  cases hw : b.write p io with
  | ok r => rw [hw] at h; cases h; exact ⟨_, _, rfl⟩
  | panic => rw [hw] at h; cases h
  | fuel => rw [hw] at h; cases h

theorem Buf.step_of_write {b b' : Buf} {p : Bytes} {io : IOFault} {n : Nat} {e : Option BufErr}
    (h : b.write p io = .ok (b', n, e)) : b.step (.write p io) = .ok b' := by
  simp only [Buf.step, h]; rfl

/-- Invariants along histories. -/
theorem Buf.steps_inv {I : Buf → Prop} {ok : BufOp → Prop}
    (step : ∀ b op b', I b → ok op → b.step op = .ok b' → I b') :
    ∀ (ops : List BufOp) (b b' : Buf), I b → (∀ op ∈ ops, ok op) → b.steps ops = .ok b' → I b' := by
  intro ops
  induction ops with
  | nil => intro b b' hb _ h; cases h; exact hb
  | cons op ops ih =>
    intro b b' hb hok h
    simp only [List.mem_cons, forall_eq_or_imp] at hok
    simp only [Buf.steps] at h
    cases hs : b.step op with
    | ok b1 => rw [hs] at h; exact ih b1 b' (step b op b1 hb hok.1 hs) hok.2 h
    | panic => rw [hs] at h; cases h
    | fuel => rw [hs] at h; cases h

/-- Limits, flag and recorded length of any reachable buffer. -/
structure Buf.Lim (m f : Int) (b : Buf) : Prop where
  readed : b.readed = false
  memLimit : b.memLimit = m
  fileLimit : b.fileLimit = f
  length : (b.length : Int) ≤ max 0 f
  mem : b.fileBuf = none → (b.length : Int) ≤ max 0 m

theorem Buf.Lim.new (m f : Int) : Buf.Lim m f (newBuffer m f) := by
  constructor <;> simp [newBuffer] <;> omega

theorem Buf.Lim.step {m f : Int} {b b' : Buf} {op : BufOp} (h : Buf.Lim m f b) (hs : b.step op = .ok b') :
    Buf.Lim m f b' := by
  by_cases hop : ∃ p io, op = .write p io
  · obtain ⟨p, io, rfl⟩ := hop
    obtain ⟨n, e, hw⟩ := Buf.step_write hs
    have hl := h.length; have hm := h.mem
    have e1 := h.memLimit; have e2 := h.fileLimit
    refine Buf.write_cases b p io h.readed ?_ ?_ ?_ ?_ ?_ ?_ ?_
    · intro _ hw'; rw [hw'] at hw; cases hw; exact h
    · intro _ _ _ _ hw'; rw [hw'] at hw; cases hw
    · intro _ hf _ _ _ hw'; rw [hw'] at hw; cases hw
      exact ⟨h.readed, h.memLimit, h.fileLimit, hl, hm⟩
    · intro f e _ hf _ _ _ _ hw'; rw [hw'] at hw; cases hw
      exact ⟨h.readed, h.memLimit, h.fileLimit, hl, by simp⟩
    · intro f' wn e hlim hf _ _ _ _ hfw hw'; rw [hw'] at hw; cases hw
      have := File.write_count (.at (b.memBuf ++ p.take (b.memLimit - b.length).toNat)) p io.writeFail
      rw [hfw] at this
      exact ⟨h.readed, h.memLimit, h.fileLimit, by simp only at *; omega, by simp⟩
    · intro hlim hf _ hw'; rw [hw'] at hw; cases hw
      exact ⟨h.readed, h.memLimit, h.fileLimit, by simp only; omega, by simp only; omega⟩
    · intro f0 f' wn e hlim hf hfw hw'; rw [hw'] at hw; cases hw
      have := File.write_count f0 p io.writeFail
      rw [hfw] at this
      exact ⟨h.readed, h.memLimit, h.fileLimit, by simp only at *; omega, by simp⟩
  · have hsame := Buf.step_same (fun p io he => hop ⟨p, io, he⟩) hs
    refine ⟨hsame.readed.trans h.readed, hsame.memLimit.trans h.memLimit, hsame.fileLimit.trans h.fileLimit,
      by rw [hsame.length]; exact h.length, ?_⟩
    intro hn
    rw [hsame.length]
    apply h.mem
    have := hsame.file
    rw [hn] at this
    cases hb : b.fileBuf with
    | none => rfl
    | some f => rw [hb] at this; simp at this

theorem Buf.Lim.steps {m f : Int} {b : Buf} {ops : List BufOp} (h : (newBuffer m f).steps ops = .ok b) :
    Buf.Lim m f b :=
  Buf.steps_inv (I := Buf.Lim m f) (ok := fun _ => True) (fun _ _ _ hb _ hs => hb.step hs) ops _ b
    (Buf.Lim.new m f) (by simp) h

theorem Buf.SameBody.none {b b' : Buf} (h : b.SameBody b') : b'.fileBuf = none ↔ b.fileBuf = none := by
  have := h.file
  cases hb : b.fileBuf <;> cases hb' : b'.fileBuf <;> simp_all

end Verif
