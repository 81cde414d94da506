import Verif.Props.Buffer
import Verif.Proofs.Rule
/-!
C89: seeking in a body.  C90: closing a body.
-/
namespace Verif
open Spec

/-! ### C89 -/

/-- The position `p` asked for by an offset and a base (0 the start, 1 the current
position, which is the start again at every call, 2 the end) in a body of length `len`. -/
def Spec.SeekTo (len : Nat) (offset whence : Int) (p : Nat) : Prop :=
  ((whence = 0 ∨ whence = 1) ∧ (p : Int) = offset) ∨ (whence = 2 ∧ (p : Int) = len + offset)

/-- The full claim C89: a read after a seek starts at the position. -/
def C89_statement : Prop :=
  ∀ (m f : Int) (ops : List BufOp) (b b1 b2 : Buf) (offset whence : Int) (p n : Nat) (out s : Bytes) (e : Option BufErr),
    (newBuffer m f).steps ops = .ok b → body b = some s → b.seek offset whence = .ok (b1, p, none) →
    b1.read n = .ok (b2, out, e) → out = (s.drop p).take n

/-- It is false of the code: a read goes back to the start. -/
theorem C89_refuted : ¬ C89_statement := by
  intro h
  have := h 8 8 [.write b!"ab" .none] _ _ _ 1 0 1 1 _ b!"ab" _ rfl (by decide) rfl rfl
  revert this; decide

theorem seekTarget_iff (offset whence : Int) (len : Nat) :
    (∃ p, SeekTo len offset whence p ∧ seekTarget offset whence 0 len = some p) ∨
    ((¬ ∃ p, SeekTo len offset whence p) ∧ seekTarget offset whence 0 len = none) := by
  have key : ∀ a : Int, (∀ p : Nat, SeekTo len offset whence p ↔ (p : Int) = a) →
      (∃ p, SeekTo len offset whence p ∧ (if a < 0 then none else some a.toNat) = some p) ∨
      ((¬ ∃ p, SeekTo len offset whence p) ∧ (if a < 0 then none else some a.toNat) = none) := by
    intro a ha
    by_cases h : a < 0
    · refine .inr ⟨fun ⟨p, hp⟩ => ?_, if_pos h⟩
      have := (ha p).1 hp
      omega
    · exact .inl ⟨a.toNat, (ha _).2 (by omega), if_neg h⟩
  simp only [seekTarget]
  by_cases h0 : whence = 0
  · rw [if_pos h0]; exact key offset fun p => by simp [SeekTo, h0]
  rw [if_neg h0]
  by_cases h1 : whence = 1
  · rw [if_pos h1]
    have := key (((0 : Nat) : Int) + offset) fun p => by simp [SeekTo, h1]
    exact this
  rw [if_neg h1]
  by_cases h2 : whence = 2
  · rw [if_pos h2]
    exact key (len + offset) fun p => by simp [SeekTo, h2]
  rw [if_neg h2]
  exact .inr ⟨by simp [SeekTo, h0, h1, h2], rfl⟩

/-- C89, what holds: `Seek` answers with the position asked for, refuses positions
before the start and unknown bases, and leaves the body as it is. -/
theorem C89_seek_partial (m f : Int) (ops : List BufOp) (b : Buf) (s : Bytes) (offset whence : Int)
    (h : (newBuffer m f).steps ops = .ok b) (hs : body b = some s) :
    ∃ b1, body b1 = some s ∧
      ((∃ p, SeekTo s.length offset whence p ∧ b.seek offset whence = .ok (b1, p, none)) ∨
       ((¬ ∃ p, SeekTo s.length offset whence p) ∧ b.seek offset whence = .ok (b1, 0, some .seek))) := by
  have hl := Buf.Lim.steps h
  cases hfb : b.fileBuf with
  | none =>
    simp [body, Buf.writeTo, Buf.initRead, hl.readed, hfb] at hs
    subst hs
    rcases seekTarget_iff offset whence b.memBuf.length with ⟨p, h1, h2⟩ | ⟨h1, h2⟩
    · refine ⟨{ b with memReader := some (b.memBuf, p) }, ?_, .inl ⟨p, h1, ?_⟩⟩
      · simp [body, Buf.writeTo, Buf.initRead, hl.readed, hfb]
      · simp [Buf.seek, Buf.initRead, hl.readed, hfb, h2]
    · refine ⟨{ b with memReader := some (b.memBuf, 0) }, ?_, .inr ⟨h1, ?_⟩⟩
      · simp [body, Buf.writeTo, Buf.initRead, hl.readed, hfb]
      · simp [Buf.seek, Buf.initRead, hl.readed, hfb, h2]
  | some fl =>
    simp only [body, Buf.writeTo, Buf.initRead, hl.readed, hfb] at hs
    by_cases hc : fl.closed = true
    · simp [hc] at hs
    have hc' : fl.closed = false := by simpa using hc
    simp [hc'] at hs
    subst hs
    rcases seekTarget_iff offset whence fl.content.length with ⟨p, h1, h2⟩ | ⟨h1, h2⟩
    · refine ⟨{ b with memReader := some (b.memBuf, 0), fileBuf := some { fl with pos := p } }, ?_, .inl ⟨p, h1, ?_⟩⟩
      · simp [body, Buf.writeTo, Buf.initRead, hl.readed, hc']
      · simp [Buf.seek, Buf.initRead, hl.readed, hfb, h2, hc']
    · refine ⟨{ b with memReader := some (b.memBuf, 0), fileBuf := some { fl with pos := 0 } }, ?_, .inr ⟨h1, ?_⟩⟩
      · simp [body, Buf.writeTo, Buf.initRead, hl.readed, hc']
      · simp [Buf.seek, Buf.initRead, hl.readed, hfb, h2, hc']

theorem Buf.steps_snoc {op : BufOp} : ∀ {ops : List BufOp} {b b' b'' : Buf}, b.steps ops = .ok b' → b'.step op = .ok b'' →
    b.steps (ops ++ [op]) = .ok b'' := by
  intro ops
  induction ops with
  | nil => intro b b' b'' h h'; cases h; simp [Buf.steps, h']
  | cons o ops ih =>
    intro b b' b'' h h'
    simp only [Buf.steps, List.cons_append] at h ⊢
    obtain ⟨c, g1, g2⟩ := Res.bind_eq_ok.1 h
    rw [g1]
    exact ih g2 h'

/-- The behaviour in place of C89: whatever the position sought, a read returns the
beginning of the body. -/
theorem C89_read_ignores (m f : Int) (ops : List BufOp) (b b1 : Buf) (s : Bytes) (offset whence : Int) (p n : Nat) (e : Option BufErr)
    (h : (newBuffer m f).steps ops = .ok b) (hs : body b = some s) (hk : b.seek offset whence = .ok (b1, p, e)) :
    ∃ b2 e', b1.read n = .ok (b2, s.take n, e') := by
  obtain ⟨b1', hb, hor⟩ := C89_seek_partial m f ops b s offset whence h hs
  have : b1' = b1 := by
    rcases hor with ⟨p, _, g⟩ | ⟨_, g⟩ <;> rw [hk] at g <;> cases g <;> rfl
  subst this
  obtain ⟨b2, e', g, _⟩ := C19_read_from_start_partial m f (ops ++ [.seek offset whence]) b1' s n
    (Buf.steps_snoc h (by simp only [Buf.step, hk, Res.bind_ok'])) hb
  exact ⟨b2, e', g⟩

/-- But a write after a seek does go to the position, once the body is in a file: it
overwrites what is there, after a gap of zeros if that is past the end; writing nothing
changes nothing. -/
theorem C89_write_at_position (m f : Int) (ops : List BufOp) (b b1 : Buf) (s : Bytes) (offset whence : Int) (p : Nat) (x : Bytes)
    (h : (newBuffer m f).steps ops = .ok b) (hs : body b = some s) (hfile : b.fileState = some false)
    (hk : b.seek offset whence = .ok (b1, p, none)) (hx : (b.len : Int) + x.length ≤ f) :
    ∃ b2, b1.write x .none = .ok (b2, x.length, none) ∧
      body b2 = some (if x = [] then s else s.take p ++ List.replicate (p - s.length) 0 ++ x ++ s.drop (p + x.length)) := by
  have hl := Buf.Lim.steps h
  have e2 := hl.fileLimit
  simp only [Buf.len] at hx
  cases hfb : b.fileBuf with
  | none => simp [Buf.fileState, hfb] at hfile
  | some fl =>
    have hc : fl.closed = false := by simpa [Buf.fileState, hfb] using hfile
    simp [body, Buf.writeTo, Buf.initRead, hl.readed, hfb, hc] at hs
    subst hs
    simp only [Buf.seek, Buf.initRead, hl.readed, hfb] at hk
    simp [hc] at hk
    split at hk
    · cases hk
    · rename_i q hq
      simp only [Res.ok.injEq, Prod.mk.injEq] at hk
      obtain ⟨rfl, rfl, _⟩ := hk
      have hlen : ¬ ((b.length : Int) + x.length > b.fileLimit) := by omega
      refine ⟨_, by simp [Buf.write, hl.readed, hlen, File.write, hc, IOFault.none]; rfl, ?_⟩
      simp [body, Buf.writeTo, Buf.initRead, hl.readed, hc, writeAt]

/-- A spilled body, a seek to its end, a seek back: the write lands in the middle. -/
example : ∃ b b1, (newBuffer 2 64).steps [.write b!"abcd" .none] = .ok b ∧ body b = some b!"ababcd" ∧ b.fileState = some false ∧
    b.seek (-3) 2 = .ok (b1, 3, none) ∧ ∃ b2, b1.write b!"XY" .none = .ok (b2, 2, none) ∧ body b2 = some b!"abaXYd" := by
  refine ⟨_, _, rfl, by decide, by decide, rfl, _, rfl, by decide⟩

/-! ### C90 -/

/-- The full claim C90: closing a body that is not closed succeeds. -/
def C90_statement : Prop :=
  ∀ (m f : Int) (ops : List BufOp) (b : Buf), (newBuffer m f).steps ops = .ok b → .close ∉ ops → ∃ b', b.close = .ok (b', none)

/-- It is false of the code: a body in memory has no file, and `Close` panics. -/
theorem C90_refuted : ¬ C90_statement := by
  intro h
  obtain ⟨b', h⟩ := h 8 8 [.write b!"ab" .none] _ rfl (by decide)
  cases h

/-- C90, what holds: `Close` panics exactly if the body is not in a file; an open file
is closed without error, and a closed one stays closed with an error. -/
theorem C90_close_partial (b : Buf) :
    (b.fileState = none ∧ b.close = .panic) ∨
    (b.fileState = some false ∧ ∃ b', b.close = .ok (b', none) ∧ b'.fileState = some true) ∨
    (b.fileState = some true ∧ ∃ b', b.close = .ok (b', some .io) ∧ b'.fileState = some true) := by
  cases hf : b.fileBuf with
  | none => exact .inl ⟨by simp [Buf.fileState, hf], by simp [Buf.close, hf]⟩
  | some fl =>
    cases hc : fl.closed with
    | false => exact .inr (.inl ⟨by simp [Buf.fileState, hf, hc], _, by simp [Buf.close, hf, hc]; rfl, rfl⟩)
    | true => exact .inr (.inr ⟨by simp [Buf.fileState, hf, hc], _, by simp [Buf.close, hf, hc]; rfl, rfl⟩)

theorem closed_step {b b' : Buf} {op : BufOp} (hc : b.fileState = some true) (h : b.step op = .ok b') : b'.fileState = some true := by
  cases hf : b.fileBuf with
  | none => simp [Buf.fileState, hf] at hc
  | some fl =>
    have hcl : fl.closed = true := by simpa [Buf.fileState, hf] using hc
    have hi : b.initRead.fileBuf = some fl := by
      simp only [Buf.initRead]
      split
      · simp [hf, hcl]
      · exact hf
    cases op with
    | write p io =>
      simp only [Buf.step, Buf.write, hf, File.write, hcl, if_true] at h
      split at h
      · cases h; exact hc
      · split at h
        · cases h; exact hc
        · cases h; simp [Buf.fileState, hcl]
    | string => cases h; exact (Buf.initRead_file b).trans hc
    | bytes => cases h; exact (Buf.initRead_file b).trans hc
    | read n => simp only [Buf.step, Buf.read, hi, File.read, hcl, if_true] at h; cases h; simp [Buf.fileState, hcl]
    | writeTo => simp only [Buf.step, Buf.writeTo, hi, hcl, if_true] at h; cases h; exact (Buf.initRead_file b).trans hc
    | seek o w => simp only [Buf.step, Buf.seek, hi, hcl, if_true] at h; cases h; exact (Buf.initRead_file b).trans hc
    | close => simp only [Buf.step, Buf.close, hf] at h; cases h; rfl

/-- A closed body stays closed: whatever is called afterwards, nothing is accepted, read
or sought any more. -/
theorem C90_closed_for_good {ops : List BufOp} {b b' : Buf} (hc : b.fileState = some true) (h : b.steps ops = .ok b') :
    b'.fileState = some true ∧ body b' = none ∧ accepted b ops = [] ∧
    (∀ n, ∃ b'', b'.read n = .ok (b'', [], some .io)) ∧ ∀ o w, ∃ b'', b'.seek o w = .ok (b'', 0, some .io) := by
  have hend : ∀ {b' : Buf}, b'.fileState = some true → body b' = none ∧
      (∀ n, ∃ b'', b'.read n = .ok (b'', [], some .io)) ∧ ∀ o w, ∃ b'', b'.seek o w = .ok (b'', 0, some .io) := by
    intro b' hc
    cases hf : b'.fileBuf with
    | none => simp [Buf.fileState, hf] at hc
    | some fl =>
      have hcl : fl.closed = true := by simpa [Buf.fileState, hf] using hc
      have hi : b'.initRead.fileBuf = some fl := by
        simp only [Buf.initRead]
        split
        · simp [hf, hcl]
        · exact hf
      refine ⟨?_, fun n => ?_, fun o w => ?_⟩
      · simp [body, Buf.writeTo, hi, hcl]
      · exact ⟨_, by simp only [Buf.read, hi, File.read, hcl, if_true]; rfl⟩
      · exact ⟨_, by simp only [Buf.seek, hi, hcl, if_true]; rfl⟩
  have hacc : ∀ {b : Buf} {op : BufOp}, b.fileState = some true → acceptedChunk b op = [] := by
    intro b op hc
    cases op with
    | write p io =>
      cases hf : b.fileBuf with
      | none => simp [Buf.fileState, hf] at hc
      | some fl =>
        have hcl : fl.closed = true := by simpa [Buf.fileState, hf] using hc
        simp only [acceptedChunk, Buf.write, hf, File.write, hcl, if_true]
        by_cases h1 : b.readed = true
        · rw [if_pos h1]
        · rw [if_neg h1]
          by_cases h2 : (b.length : Int) + p.length > b.fileLimit
          · rw [if_pos h2]
          · rw [if_neg h2]
    | _ => rfl
  induction ops generalizing b with
  | nil => cases h; exact ⟨hc, (hend hc).1, rfl, (hend hc).2⟩
  | cons op ops ih =>
    simp only [Buf.steps] at h
    obtain ⟨c, g1, g2⟩ := Res.bind_eq_ok.1 h
    obtain ⟨k1, k2, k3, k4⟩ := ih (closed_step hc g1) g2
    refine ⟨k1, k2, ?_, k4⟩
    simp only [accepted, hacc hc, g1, k3, List.append_nil]

/-- A spilled body that is closed. -/
example : ∃ b b', (newBuffer 2 64).steps [.write b!"abcd" .none] = .ok b ∧ b.fileState = some false ∧ b.close = .ok (b', none) ∧
    b'.fileState = some true := ⟨_, _, rfl, by decide, rfl, by decide⟩

end Verif
