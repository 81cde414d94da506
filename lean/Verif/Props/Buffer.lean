import Verif.Proofs.Buffer
import Verif.Spec.Buffer
/-! C14-C19: the body buffer (modsecurity/buffer.go). -/
namespace Verif
open Spec

/-! ### C14 -/

/-- C14: after any history (including I/O failures) the recorded length is within the file limit. -/
theorem C14_length_within_limit (m f : Int) (hf : 0 ≤ f) (ops : List BufOp) (b : Buf)
    (h : (newBuffer m f).steps ops = .ok b) : (b.len : Int) ≤ f := by
  have := (Buf.Lim.steps h).length
  simp only [Buf.len]; omega

/-- C14: a write that would exceed the limit is refused and changes nothing. -/
theorem C14_over_limit_refused (m f : Int) (ops : List BufOp) (b : Buf)
    (h : (newBuffer m f).steps ops = .ok b) (p : Bytes) (io : IOFault) (hp : (b.len : Int) + p.length > f) :
    b.write p io = .ok (b, 0, some .outOfFileLimit) := by
  have hl := Buf.Lim.steps h
  simp only [Buf.len] at hp
  simp only [Buf.write, hl.readed, hl.fileLimit]
  simp [hp]

/-- C14: without I/O failures and before `Close`, a write within the limit is accepted entirely. -/
theorem C14_within_limit_accepted (m f : Int) (hm : 0 ≤ m) (ops : List BufOp) (hc : BufOp.close ∉ ops)
    (hok : ∀ op ∈ ops, Faultless op) (b : Buf) (h : (newBuffer m f).steps ops = .ok b) (p : Bytes)
    (hp : (b.len : Int) + p.length ≤ f) :
    ∃ b', b.write p IOFault.none = .ok (b', p.length, none) ∧ b'.len = b.len + p.length := by
  have hl := Buf.Lim.steps h
  have hopen : ∀ fl, b.fileBuf = some fl → fl.closed = false := by
    refine Buf.steps_inv (I := fun b => b.readed = false ∧ ∀ fl, b.fileBuf = some fl → fl.closed = false)
      (ok := fun op => op ≠ .close ∧ Faultless op) ?_ ops (newBuffer m f) b (by simp [newBuffer])
      (fun op hop => ⟨fun he => hc (he ▸ hop), hok op hop⟩) h |>.2
    intro b op b' hI hop hs
    by_cases hw : ∃ p io, op = .write p io
    · obtain ⟨p, io, rfl⟩ := hw
      have hio := hop.2 p io rfl
      subst hio
      obtain ⟨n, e, hw⟩ := Buf.step_write hs
      refine Buf.write_cases b p IOFault.none hI.1 ?_ ?_ ?_ ?_ ?_ ?_ ?_
      · intro _ hw'; rw [hw'] at hw; cases hw; exact hI
      · intro _ _ _ _ hw'; rw [hw'] at hw; cases hw
      · intro _ _ _ _ ht; cases ht
      · intro _ _ _ _ _ _ _ ht; exact absurd rfl ht
      · intro fl wn e _ _ _ _ _ _ hfw hw'; rw [hw'] at hw; cases hw
        refine ⟨hI.1, fun fl' hfl => ?_⟩
        cases hfl
        simp [File.write, File.at, IOFault.none] at hfw
        rw [← hfw.1]
      · intro _ hn _ hw'; rw [hw'] at hw; cases hw
        exact ⟨hI.1, by simp [hn]⟩
      · intro f0 fl wn e _ hf0 hfw hw'; rw [hw'] at hw; cases hw
        refine ⟨hI.1, fun fl' hfl => ?_⟩
        cases hfl
        have := hI.2 f0 hf0
        simp [File.write, this, IOFault.none] at hfw
        rw [← hfw.1]
    · have hsame := Buf.step_same (fun p io he => hw ⟨p, io, he⟩) hs
      refine ⟨hsame.readed.trans hI.1, ?_⟩
      have hinit : ∀ fl, b.initRead.fileBuf = some fl → fl.closed = false := by
        intro fl hfl
        simp only [Buf.initRead, hI.1] at hfl
        simp only [Bool.not_false, if_true] at hfl
        cases hb : b.fileBuf with
        | none => rw [hb] at hfl; cases hfl
        | some f0 =>
          have h0 := hI.2 f0 hb
          rw [hb] at hfl
          simp [h0] at hfl
          rw [← hfl]; first | done | exact h0
      cases op with
      | write p io => exact absurd ⟨p, io, rfl⟩ hw
      | string => simp only [Buf.step, Buf.string] at hs; cases hs; exact hinit
      | bytes => simp only [Buf.step, Buf.string] at hs; cases hs; exact hinit
      | read n =>
        simp only [Buf.step, Buf.read] at hs
        split at hs
        · split at hs <;> cases hs
          exact hinit
        · rename_i f0 hf0
          cases hs
          intro fl hfl
          have h0 := hinit f0 hf0
          simp [File.read, h0] at hfl
          rw [← hfl]
      | writeTo =>
        simp only [Buf.step, Buf.writeTo] at hs
        split at hs
        · split at hs <;> cases hs
          exact hinit
        · rename_i f0 hf0
          have h0 := hinit f0 hf0
          simp [h0] at hs
          subst hs
          intro fl hfl
          simp at hfl
          rw [← hfl]; first | done | exact h0
      | seek o w =>
        simp only [Buf.step, Buf.seek] at hs
        split at hs
        · split at hs
          · cases hs
          · split at hs <;> cases hs <;> exact hinit
        · rename_i f0 hf0
          have h0 := hinit f0 hf0
          simp only [h0, Bool.false_eq_true, if_false] at hs
          split at hs <;> cases hs
          · exact hinit
          · intro fl hfl
            simp at hfl
            rw [← hfl]; first | done | exact h0
      | close => exact absurd rfl hop.1
  have e1 := hl.memLimit; have e2 := hl.fileLimit; have e3 := hl.mem
  simp only [Buf.len] at hp
  refine Buf.write_cases b p IOFault.none hl.readed ?_ ?_ ?_ ?_ ?_ ?_ ?_
  · intro h1 _; omega
  · intro _ hn h1 _ _; have := e3 hn; omega
  · intro _ _ _ _ ht; cases ht
  · intro _ _ _ _ _ _ _ ht; exact absurd rfl ht
  · intro fl wn e _ _ _ _ _ _ hfw hw
    simp [File.write, File.at, IOFault.none] at hfw
    obtain ⟨_, rfl, rfl⟩ := hfw
    exact ⟨_, hw, rfl⟩
  · intro _ _ _ hw; exact ⟨_, hw, rfl⟩
  · intro f0 fl wn e _ hf0 hfw hw
    simp [File.write, hopen f0 hf0, IOFault.none] at hfw
    obtain ⟨_, rfl, rfl⟩ := hfw
    exact ⟨_, hw, rfl⟩

-- a history with an interleaved read, a refused write, and an accepted one
example : ∃ b, (newBuffer 4 6).steps [.write b!"abc" .none, .string, .write b!"defg" .none, .write b!"de" .none] = .ok b ∧
    b.len = 5 ∧ b.write b!"xy" .none = .ok (b, 0, some .outOfFileLimit) :=
  ⟨_, rfl, by decide, by decide⟩

/-! ### C15 -/

/-- The full claim C15. -/
def C15_statement : Prop :=
  ∀ (m f : Int), 0 ≤ m → 0 ≤ f → ∀ (ops : List BufOp) (b : Buf), (newBuffer m f).steps ops = .ok b →
    (b.memBuf.length : Int) ≤ m ∧ ∀ p io, b.write p io ≠ .panic

/-- C15: `Write` never panics, whatever happened before (including I/O failures). -/
theorem C15_write_never_panics (m f : Int) (hm : 0 ≤ m) (ops : List BufOp) (b : Buf)
    (h : (newBuffer m f).steps ops = .ok b) (p : Bytes) (io : IOFault) : b.write p io ≠ .panic := by
  have hl := Buf.Lim.steps h
  have e1 := hl.memLimit; have e3 := hl.mem
  refine Buf.write_cases b p io hl.readed ?_ ?_ ?_ ?_ ?_ ?_ ?_
  · intro _ hw; rw [hw]; simp
  · intro _ hn h1 _ _; have := e3 hn; omega
  · intro _ _ _ _ _ hw; rw [hw]; simp
  · intro _ _ _ _ _ _ _ _ hw; rw [hw]; simp
  · intro _ _ _ _ _ _ _ _ _ _ hw; rw [hw]; simp
  · intro _ _ _ hw; rw [hw]; simp
  · intro _ _ _ _ _ _ _ hw; rw [hw]; simp

/-- C15, with the operating system able to create temporary files: the bytes held
in memory never exceed the memory limit. -/
theorem C15_memory_within_limit_partial (m f : Int) (hm : 0 ≤ m) (ops : List BufOp)
    (hok : ∀ op ∈ ops, TempWorks op) (b : Buf) (h : (newBuffer m f).steps ops = .ok b) :
    (b.memBuf.length : Int) ≤ m := by
  refine Buf.steps_inv (I := fun b => b.readed = false ∧ b.memLimit = m ∧ (b.memBuf.length : Int) ≤ m ∧
    (b.fileBuf = none → b.memBuf.length = b.length)) (ok := TempWorks) ?_ ops (newBuffer m f) b
    (by simpa [newBuffer] using hm) hok h |>.2.2.1
  intro b op b' ⟨h1, h2, h3, h4⟩ hop hs
  by_cases hw : ∃ p io, op = .write p io
  · obtain ⟨p, io, rfl⟩ := hw
    have hio := hop p io rfl
    obtain ⟨n, e, hw⟩ := Buf.step_write hs
    refine Buf.write_cases b p io h1 ?_ ?_ ?_ ?_ ?_ ?_ ?_
    · intro _ hw'; rw [hw'] at hw; cases hw; exact ⟨h1, h2, h3, h4⟩
    · intro _ _ _ _ hw'; rw [hw'] at hw; cases hw
    · intro _ _ _ _ ht; rw [hio] at ht; cases ht
    · intro fl e _ hn _ _ _ _ hw'; rw [hw'] at hw; cases hw
      have := h4 hn
      refine ⟨h1, h2, ?_, by simp⟩
      simp only [List.length_append, List.length_take]; omega
    · intro fl wn e _ hn _ _ _ _ _ hw'; rw [hw'] at hw; cases hw
      have := h4 hn
      refine ⟨h1, h2, ?_, by simp⟩
      simp only [List.length_append, List.length_take]; omega
    · intro _ hn _ hw'; rw [hw'] at hw; cases hw
      have := h4 hn
      refine ⟨h1, h2, ?_, ?_⟩
      · simp only [List.length_append]; omega
      · intro _; simp only [List.length_append]; omega
    · intro f0 fl wn e _ _ _ hw'; rw [hw'] at hw; cases hw
      exact ⟨h1, h2, h3, by simp⟩
  · have hsame := Buf.step_same (fun p io he => hw ⟨p, io, he⟩) hs
    refine ⟨hsame.readed.trans h1, hsame.memLimit.trans h2, by rw [hsame.memBuf]; exact h3, ?_⟩
    intro hn
    rw [hsame.memBuf, hsame.length]
    exact h4 (hsame.none.1 hn)

example : ∃ b, (newBuffer 4 100).steps [.write b!"abc" .none, .write b!"defg" .none] = .ok b ∧
    b.memBuf.length = 4 := ⟨_, rfl, by decide⟩

/-- The writes for which no temporary file could be created. -/
def Spec.unspilled (ops : List BufOp) : Nat :=
  (ops.filter fun | .write _ io => io.tempFail | _ => false).length

/-- C15 without any assumption: each write for which no temporary file could be created
leaves at most the limit in memory once more, nothing else does. -/
theorem C15_memory_growth (m f : Int) (hm : 0 ≤ m) (ops : List BufOp) (b : Buf) (h : (newBuffer m f).steps ops = .ok b) :
    (b.memBuf.length : Int) ≤ m * (1 + Spec.unspilled ops) := by
  have go : ∀ (ops : List BufOp) (b b' : Buf) (x : Int), 0 ≤ x → b.readed = false → b.memLimit = m → (b.memBuf.length : Int) ≤ m + x →
      (b.fileBuf = none → (b.memBuf.length : Int) ≤ b.length + x ∧ (b.length : Int) ≤ m) → b.steps ops = .ok b' →
      (b'.memBuf.length : Int) ≤ m + (x + m * Spec.unspilled ops) := by
    intro ops
    induction ops with
    | nil => intro b b' x hx h1 h2 h3 h4 h; cases h; simp [Spec.unspilled]; omega
    | cons op ops ih =>
      intro b b' x hx h1 h2 h3 h4 h
      simp only [Buf.steps] at h
      obtain ⟨c, hs, hc⟩ : ∃ c, b.step op = .ok c ∧ c.steps ops = .ok b' := by
        cases hs : b.step op with
        | ok c => rw [hs] at h; exact ⟨c, rfl, h⟩
        | panic => rw [hs] at h; cases h
        | fuel => rw [hs] at h; cases h
      by_cases hw : ∃ p io, op = .write p io
      · obtain ⟨p, io, rfl⟩ := hw
        obtain ⟨n, e, hw⟩ := Buf.step_write hs
        have more : Spec.unspilled (.write p io :: ops) = (if io.tempFail then 1 else 0) + Spec.unspilled ops := by
          simp only [Spec.unspilled, List.filter_cons]
          split <;> simp_all <;> omega
        have le : m * (Spec.unspilled ops : Int) ≤ m * (Spec.unspilled (.write p io :: ops) : Int) := by
          refine Int.mul_le_mul_of_nonneg_left ?_ hm
          rw [more]; omega
        have done : c.readed = false → c.memLimit = m → (c.memBuf.length : Int) ≤ m + x →
            (c.fileBuf = none → (c.memBuf.length : Int) ≤ c.length + x ∧ (c.length : Int) ≤ m) →
            (b'.memBuf.length : Int) ≤ m + (x + m * Spec.unspilled (.write p io :: ops)) := by
          intro g1 g2 g3 g4
          have := ih c b' x hx g1 g2 g3 g4 hc
          omega
        refine Buf.write_cases b p io h1 ?_ ?_ ?_ ?_ ?_ ?_ ?_
        · intro _ hw'; rw [hw'] at hw; cases hw; exact done h1 h2 h3 h4
        · intro _ _ _ _ hw'; rw [hw'] at hw; cases hw
        · intro _ hn _ _ ht hw'; rw [hw'] at hw; cases hw
          have k := h4 hn
          have := ih { b with memBuf := b.memBuf ++ p.take (b.memLimit - b.length).toNat } b' (x + m) (by omega) h1 h2 (by simp only [List.length_append, List.length_take]; omega)
            (fun _ => by constructor <;> simp only [List.length_append, List.length_take] <;> omega) hc
          rw [more, if_pos ht, Int.natCast_add, Int.mul_add]
          simp only [Int.natCast_one, Int.mul_one]; omega
        · intro fl e _ hn _ _ _ _ hw'; rw [hw'] at hw; cases hw
          have k := h4 hn
          exact done h1 h2 (by simp only [List.length_append, List.length_take]; omega) (by simp)
        · intro fl wn e _ hn _ _ _ _ _ hw'; rw [hw'] at hw; cases hw
          have k := h4 hn
          exact done h1 h2 (by simp only [List.length_append, List.length_take]; omega) (by simp)
        · intro _ hn _ hw'; rw [hw'] at hw; cases hw
          have k := h4 hn
          exact done h1 h2 (by simp only [List.length_append]; omega)
            (fun _ => by constructor <;> simp only [List.length_append] <;> omega)
        · intro f0 fl wn e _ _ _ hw'; rw [hw'] at hw; cases hw
          exact done h1 h2 h3 (by simp)
      · have hsame := Buf.step_same (fun p io he => hw ⟨p, io, he⟩) hs
        have more : Spec.unspilled (op :: ops) = Spec.unspilled ops := by
          simp only [Spec.unspilled, List.filter_cons]
          cases op with
          | write p io => exact absurd ⟨p, io, rfl⟩ hw
          | _ => simp
        rw [more]
        refine ih c b' x hx (hsame.readed.trans h1) (hsame.memLimit.trans h2) (by rw [hsame.memBuf]; exact h3) (fun hn => ?_) hc
        rw [hsame.memBuf, hsame.length]
        exact h4 (hsame.none.1 hn)
  have := go ops (newBuffer m f) b 0 (Int.le_refl 0) rfl rfl (by simp [newBuffer]; omega) (fun _ => by simp [newBuffer]; omega) h
  rw [Int.mul_add]; simp at this ⊢; omega

-- the bound is reached
example : ∃ b, (newBuffer 4 100).steps [.write b!"hello" { tempFail := true }, .write b!"world" { tempFail := true }, .write b!"again" {}] = .ok b ∧
    b.memBuf = b!"hellworlagai" := ⟨_, rfl, by decide⟩

/-- C15 is false when temporary files cannot be created: each failing write adds
its head to the memory buffer again. -/
theorem C15_refuted : ¬ C15_statement := by
  intro h
  have := (h 4 100 (by decide) (by decide)
    [.write b!"hello" { tempFail := true }, .write b!"hello" { tempFail := true }]
    { newBuffer 4 100 with memBuf := b!"hellhell" } (by decide)).1
  revert this; decide

/-! ### C16 -/

/-- Fault-free histories: the recorded length is the number of accepted bytes,
and until the spill the memory holds exactly them. -/
structure Buf.Acc (m f : Int) (b : Buf) (acc : Bytes) : Prop where
  readed : b.readed = false
  memLimit : b.memLimit = m
  fileLimit : b.fileLimit = f
  length : b.length = acc.length
  mem : b.fileBuf = none → b.memBuf = acc
  file : b.fileBuf ≠ none → m < acc.length

theorem Buf.Acc.step {m f : Int} {b b' : Buf} {acc : Bytes} {op : BufOp} (h : Buf.Acc m f b acc)
    (hop : Faultless op) (hs : b.step op = .ok b') : Buf.Acc m f b' (acc ++ acceptedChunk b op) := by
  have e0 := h.length; have e1 := h.memLimit
  by_cases hw : ∃ p io, op = .write p io
  · obtain ⟨p, io, rfl⟩ := hw
    have hio := hop p io rfl
    subst hio
    obtain ⟨n, e, hw⟩ := Buf.step_write hs
    refine Buf.write_cases b p IOFault.none h.readed ?_ ?_ ?_ ?_ ?_ ?_ ?_
    · intro _ hw'; simp only [acceptedChunk, hw']; rw [hw'] at hw; cases hw; simpa using h
    · intro _ _ _ _ hw'; rw [hw'] at hw; cases hw
    · intro _ _ _ _ ht; cases ht
    · intro _ _ _ _ _ _ _ ht; exact absurd rfl ht
    · intro fl wn e _ hn _ _ _ _ hfw hw'
      simp [File.write, File.at, IOFault.none] at hfw
      obtain ⟨_, rfl, rfl⟩ := hfw
      simp only [acceptedChunk, hw']
      rw [hw'] at hw; cases hw
      refine ⟨h.readed, h.memLimit, h.fileLimit, by simp [e0], by simp, fun _ => ?_⟩
      simp only [List.length_append]; omega
    · intro _ hn _ hw'
      simp only [acceptedChunk, hw']
      rw [hw'] at hw; cases hw
      exact ⟨h.readed, h.memLimit, h.fileLimit, by simp [e0], fun _ => by simp [h.mem hn], fun hc => absurd hn hc⟩
    · intro f0 fl wn e _ hf0 hfw hw'
      have e2 := h.file (by simp [hf0])
      cases e with
      | none =>
        have := File.write_ok hfw
        subst this
        simp only [acceptedChunk, hw']
        rw [hw'] at hw; cases hw
        refine ⟨h.readed, h.memLimit, h.fileLimit, by simp [e0], by simp, fun _ => ?_⟩
        simp only [List.length_append]; omega
      | some e =>
        obtain ⟨rfl, rfl⟩ := File.write_err hfw
        simp only [acceptedChunk, hw']
        rw [hw'] at hw; cases hw
        exact ⟨h.readed, h.memLimit, h.fileLimit, by simp [e0], by simp, fun _ => by simpa using e2⟩
  · have hsame := Buf.step_same (fun p io he => hw ⟨p, io, he⟩) hs
    have : acceptedChunk b op = [] := by
      cases op with
      | write p io => exact absurd ⟨p, io, rfl⟩ hw
      | _ => rfl
    rw [this, List.append_nil]
    exact ⟨hsame.readed.trans h.readed, hsame.memLimit.trans h.memLimit, hsame.fileLimit.trans h.fileLimit,
      hsame.length.trans h.length, fun hn => hsame.memBuf.trans (h.mem (hsame.none.1 hn)),
      fun hn => h.file (fun hc => hn (hsame.none.2 hc))⟩

theorem Buf.Acc.steps {m f : Int} {b' : Buf} {ops : List BufOp} : ∀ {b : Buf} {acc : Bytes}, Buf.Acc m f b acc →
    (∀ op ∈ ops, Faultless op) → b.steps ops = .ok b' → Buf.Acc m f b' (acc ++ accepted b ops) := by
  induction ops with
  | nil => intro b acc h _ hs; cases hs; simpa [accepted] using h
  | cons op ops ih =>
    intro b acc h hok hs
    simp only [List.mem_cons, forall_eq_or_imp] at hok
    simp only [Buf.steps] at hs
    cases hs1 : b.step op with
    | ok b1 =>
      rw [hs1] at hs
      have := ih (h.step hok.1 hs1) hok.2 hs
      simpa [accepted, hs1] using this
    | panic => rw [hs1] at hs; cases hs
    | fuel => rw [hs1] at hs; cases hs

theorem Buf.Acc.new (m f : Int) : Buf.Acc m f (newBuffer m f) [] := by
  constructor <;> simp [newBuffer]

/-- C16: while the accepted chunks fit the memory limit, `String` and `Bytes`
return exactly their concatenation, `Len` its length, and `WriteTo` copies it out. -/
theorem C16_memory_body_exact (m f : Int) (ops : List BufOp) (hok : ∀ op ∈ ops, Faultless op) (b : Buf)
    (h : (newBuffer m f).steps ops = .ok b)
    (hfit : ((accepted (newBuffer m f) ops).length : Int) ≤ m) :
    b.string.2 = (accepted (newBuffer m f) ops, none) ∧ b.len = (accepted (newBuffer m f) ops).length ∧
      body b = some (accepted (newBuffer m f) ops) := by
  have ha := (Buf.Acc.new m f).steps hok h
  rw [List.nil_append] at ha
  have hn : b.fileBuf = none := by
    cases hb : b.fileBuf with
    | none => rfl
    | some fl => have := ha.file (by simp [hb]); omega
  have hm := ha.mem hn
  refine ⟨?_, ha.length, ?_⟩
  · simp [Buf.string, Buf.initRead, ha.readed, hn, hm]
  · simp [body, Buf.writeTo, Buf.initRead, ha.readed, hn, hm]

example : accepted (newBuffer 8 10) [.write b!"abc" .none, .read 2, .write b!"0123456789" .none, .write b!"de" .none] =
    b!"abcde" := by decide

/-! ### C17 -/

/-- The full claim C17: a body made of accepted writes reads back as their concatenation. -/
def C17_statement : Prop :=
  ∀ (m f : Int), 0 ≤ m → ∀ (ps : List Bytes) (b : Buf),
    (newBuffer m f).steps (ps.map fun p => .write p .none) = .ok b → (ps.flatten.length : Int) ≤ f →
    body b = some ps.flatten

/-- C17: exact content of a spilled body.  After a fault-free history that fits
in memory, a write `p` crossing the memory limit and further writes `qs`, the
body is the concatenation, except that the first `m - |acc|` bytes of `p` occur
twice.  What is missing from the claim: those bytes. -/
theorem C17_spilled_content_partial (m f : Int) (ops : List BufOp) (hok : ∀ op ∈ ops, Faultless op) (b b' : Buf)
    (p : Bytes) (qs : List Bytes) (h : (newBuffer m f).steps ops = .ok b) (acc : Bytes)
    (hacc : accepted (newBuffer m f) ops = acc) (hfit : (acc.length : Int) ≤ m)
    (hcross : (acc.length : Int) + p.length > m) (hlim : (acc.length : Int) + p.length + qs.flatten.length ≤ f)
    (h' : b.steps (.write p .none :: qs.map fun q => .write q .none) = .ok b') :
    body b' = some (acc ++ p.take (m - acc.length).toNat ++ p ++ qs.flatten) ∧
    b'.len = acc.length + p.length + qs.flatten.length := by
  have ha := (Buf.Acc.new m f).steps hok h
  rw [List.nil_append, hacc] at ha
  have e0 := ha.length; have e1 := ha.memLimit; have e2 := ha.fileLimit
  have hn : b.fileBuf = none := by
    cases hb : b.fileBuf with
    | none => rfl
    | some fl => have := ha.file (by simp [hb]); omega
  have hm := ha.mem hn
  have fw : ∀ (c q : Bytes), File.write (.at c) q none = (.at (c ++ q), q.length, none) := by
    intro c q; cases q <;> simp [File.write, File.at, writeAt]
  have first : ∃ b1, b.step (.write p .none) = .ok b1 ∧ b1.readed = false ∧ b1.fileLimit = f ∧
      b1.length = acc.length + p.length ∧
      b1.fileBuf = some (.at (acc ++ p.take (m - acc.length).toNat ++ p)) := by
    refine Buf.write_cases b p IOFault.none ha.readed ?_ ?_ ?_ ?_ ?_ ?_ ?_
    · intro _ _; omega
    · intro _ _ _ _ _; omega
    · intro _ _ _ _ ht; cases ht
    · intro _ _ _ _ _ _ _ ht; exact absurd rfl ht
    · intro fl wn e _ _ _ _ _ _ hfw hw
      rw [show IOFault.none.writeFail = none from rfl, fw] at hfw
      cases hfw
      refine ⟨_, Buf.step_of_write hw, ha.readed, e2, by simp [e0], ?_⟩
      simp [hm, e0, e1]
    · intro _ _ _ _; omega
    · intro f0 _ _ _ _ hf0; rw [hn] at hf0; cases hf0
  have rest : ∀ (qs : List Bytes) (b1 : Buf) (c : Bytes), b1.readed = false → b1.fileLimit = f →
      b1.fileBuf = some (.at c) → (b1.length : Int) + qs.flatten.length ≤ f →
      b1.steps (qs.map fun q => .write q .none) = .ok b' →
      b'.readed = false ∧ b'.fileBuf = some (.at (c ++ qs.flatten)) ∧ b'.length = b1.length + qs.flatten.length := by
    intro qs
    induction qs with
    | nil => intro b1 c hr _ hfb _ hs; cases hs; simpa using ⟨hr, hfb⟩
    | cons q qs ih =>
      intro b1 c hr hfl hfb hlim hs
      simp only [List.flatten_cons, List.length_append] at hlim
      simp only [List.map_cons, Buf.steps] at hs
      have hst : b1.step (.write q .none) = .ok { b1 with fileBuf := some (.at (c ++ q)), length := b1.length + q.length } := by
        refine Buf.write_cases b1 q IOFault.none hr ?_ ?_ ?_ ?_ ?_ ?_ ?_
        · intro _ _; omega
        · intro _ hc; rw [hfb] at hc; cases hc
        · intro _ hc; rw [hfb] at hc; cases hc
        · intro _ _ _ hc; rw [hfb] at hc; cases hc
        · intro _ _ _ _ hc; rw [hfb] at hc; cases hc
        · intro _ hc; rw [hfb] at hc; cases hc
        · intro f0 fl wn e _ hf0 hfw hw
          rw [hfb] at hf0; cases hf0
          rw [show IOFault.none.writeFail = none from rfl, fw] at hfw
          cases hfw
          exact Buf.step_of_write hw
      rw [hst] at hs
      obtain ⟨i1, i2, i3⟩ := ih _ (c ++ q) (by exact hr) (by exact hfl) rfl (by simp only; omega) hs
      refine ⟨i1, by rw [i2]; simp, by rw [i3]; simp; omega⟩
  obtain ⟨b1, hs1, hr1, hfl1, hlen1, hfb1⟩ := first
  simp only [Buf.steps, hs1] at h'
  obtain ⟨i1, i2, i3⟩ := rest qs b1 _ hr1 hfl1 hfb1 (by omega) h'
  refine ⟨?_, by simp only [Buf.len, i3, hlen1]⟩
  simp [body, Buf.writeTo, Buf.initRead, i1, i2, File.at]

/-- C17: the claim holds when the memory is exactly full before the spilling write. -/
theorem C17_aligned_partial (m f : Int) (ops : List BufOp) (hok : ∀ op ∈ ops, Faultless op) (b b' : Buf)
    (p : Bytes) (qs : List Bytes) (h : (newBuffer m f).steps ops = .ok b) (acc : Bytes)
    (hacc : accepted (newBuffer m f) ops = acc) (hfull : (acc.length : Int) = m) (hp : p ≠ [])
    (hlim : (acc.length : Int) + p.length + qs.flatten.length ≤ f)
    (h' : b.steps (.write p .none :: qs.map fun q => .write q .none) = .ok b') :
    body b' = some (acc ++ p ++ qs.flatten) := by
  have hpl := List.length_pos_iff.2 hp
  have := (C17_spilled_content_partial m f ops hok b b' p qs h acc hacc (by omega) (by omega) hlim h').1
  rw [this, show (m - acc.length).toNat = 0 by omega]
  simp

/-- Some of the first writes fill the memory exactly. -/
def FillsExactly (m : Int) (ps : List Bytes) : Prop := ∃ a c, ps = a ++ c ∧ (a.flatten.length : Int) = m

theorem Buf.Acc.accepts {m f : Int} {ps : List Bytes} : ∀ {b b' : Buf} {acc : Bytes}, Buf.Acc m f b acc →
    b.steps (ps.map fun p => .write p .none) = .ok b' → (acc.length : Int) + ps.flatten.length ≤ f →
    (acc.length : Int) + ps.flatten.length ≤ m → accepted b (ps.map fun p => .write p .none) = ps.flatten := by
  induction ps with
  | nil => intros; rfl
  | cons p ps ih =>
    intro b b' acc h hs hf hm
    simp only [List.flatten_cons, List.length_append] at hf hm
    have e0 := h.length; have e1 := h.memLimit; have e2 := h.fileLimit
    simp only [List.map_cons, Buf.steps] at hs
    cases hs1 : b.step (.write p .none) with
    | panic => rw [hs1] at hs; cases hs
    | fuel => rw [hs1] at hs; cases hs
    | ok b1 =>
      rw [hs1] at hs
      have hc : acceptedChunk b (.write p .none) = p := by
        obtain ⟨n, e, hw⟩ := Buf.step_write hs1
        refine Buf.write_cases b p IOFault.none h.readed ?_ ?_ ?_ ?_ ?_ ?_ ?_
        · intro _ _; omega
        · intro _ _ _ _ hw'; rw [hw'] at hw; cases hw
        · intro _ _ _ _ ht; cases ht
        · intro _ _ _ _ _ _ _ ht; exact absurd rfl ht
        · intro fl wn e _ _ _ _ _ _ hfw hw'
          simp [File.write, File.at, IOFault.none] at hfw
          obtain ⟨_, rfl, rfl⟩ := hfw
          simp only [acceptedChunk, hw']
        · intro _ hn _ hw'
          simp only [acceptedChunk, hw']
        · intro f0 fl wn e _ hf0 hfw hw'
          have := h.file (by simp [hf0])
          omega
      have h1 := h.step (fun _ _ he => by cases he; rfl) hs1
      rw [hc] at h1
      have := ih h1 hs (by rw [List.length_append]; omega) (by rw [List.length_append]; omega)
      simp [accepted, hs1, hc, this]

theorem Buf.steps_split {ops ops' : List BufOp} {b' : Buf} : ∀ {b : Buf}, b.steps (ops ++ ops') = .ok b' →
    ∃ b1, b.steps ops = .ok b1 ∧ b1.steps ops' = .ok b' := by
  induction ops with
  | nil => intro b h; exact ⟨b, rfl, h⟩
  | cons op ops ih =>
    intro b h
    simp only [List.cons_append, Buf.steps] at h ⊢
    cases hs : b.step op with
    | ok b1 => rw [hs] at h; exact ih h
    | panic => rw [hs] at h; cases h
    | fuel => rw [hs] at h; cases h

theorem crossing (m : Int) (hm : 0 ≤ m) : ∀ ps : List Bytes, (ps.flatten.length : Int) ≤ m ∨
    ∃ a p qs, ps = a ++ p :: qs ∧ (a.flatten.length : Int) ≤ m ∧ (a.flatten.length : Int) + p.length > m := by
  intro ps
  induction ps generalizing m with
  | nil => left; simpa using hm
  | cons p ps ih =>
    by_cases hp : (p.length : Int) > m
    · exact .inr ⟨[], p, ps, rfl, by simpa using hm, by simpa using hp⟩
    · rcases ih (m - p.length) (by omega) with h | ⟨a, q, qs, rfl, h1, h2⟩
      · left; simp only [List.flatten_cons, List.length_append]; omega
      · refine .inr ⟨p :: a, q, qs, rfl, ?_, ?_⟩ <;> simp only [List.flatten_cons, List.length_append] <;> omega

/-- C17, exactly: writes within the file limit read back as their concatenation iff they fit in
the memory or some of the first ones fill it exactly. -/
theorem C17_exact (m f : Int) (hm : 0 ≤ m) (ps : List Bytes) (b : Buf)
    (h : (newBuffer m f).steps (ps.map fun p => .write p .none) = .ok b) (hf : (ps.flatten.length : Int) ≤ f) :
    body b = some ps.flatten ↔ (ps.flatten.length : Int) ≤ m ∨ FillsExactly m ps := by
  have hok : ∀ qs : List Bytes, ∀ op ∈ qs.map (fun p => BufOp.write p .none), Faultless op := by
    intro qs op hop p io he
    obtain ⟨q, _, rfl⟩ := List.mem_map.1 hop
    cases he; rfl
  rcases crossing m hm ps with hfit | ⟨a, p, qs, rfl, h1, h2⟩
  · have ha := (Buf.Acc.new m f).accepts h (by simpa using hf) (by simpa using hfit)
    have := (C16_memory_body_exact m f _ (hok ps) b h (by rw [ha]; exact hfit)).2.2
    rw [ha] at this
    exact ⟨fun _ => .inl hfit, fun _ => this⟩
  · rw [List.map_append] at h
    simp only [List.flatten_append, List.flatten_cons, List.length_append] at hf
    obtain ⟨b1, s1, s2⟩ := Buf.steps_split h
    have ha := (Buf.Acc.new m f).accepts s1 (by simp only [List.length_nil]; omega) (by simp only [List.length_nil]; omega)
    have := (C17_spilled_content_partial m f _ (hok a) b1 b p qs s1 _ ha h1 h2 (by omega) s2).1
    rw [this]
    simp only [List.flatten_append, List.flatten_cons, List.length_append, Option.some.injEq]
    constructor
    · intro e
      have := congrArg List.length e
      simp only [List.length_append, List.length_take] at this
      exact .inr ⟨a, p :: qs, rfl, by omega⟩
    · rintro (h | ⟨a', c', e, h⟩)
      · omega
      · have : (m - a.flatten.length).toNat = 0 := by
          rcases List.append_eq_append_iff.1 e.symm with ⟨x, hx, _⟩ | ⟨x, hx, hx'⟩
          · have hl := congrArg (fun l => l.flatten.length) hx
            simp only [List.flatten_append, List.length_append] at hl
            omega
          · cases x with
            | nil => rw [List.append_nil] at hx; subst hx; omega
            | cons y x =>
              simp only [List.cons_append, List.cons.injEq] at hx'
              obtain ⟨rfl, _⟩ := hx'
              have hl := congrArg (fun l => l.flatten.length) hx
              simp only [List.flatten_append, List.flatten_cons, List.length_append] at hl
              omega
        rw [this]
        simp

-- "abc" then "de" over a memory limit of 4 reads back as "abcdde"
example : ∃ b', (newBuffer 4 100).steps [.write b!"abc" .none, .write b!"de" .none] = .ok b' ∧
    body b' = some b!"abcdde" := ⟨_, rfl, by decide⟩

/-- C17 is false: the head of the spilling chunk is duplicated. -/
theorem C17_refuted : ¬ C17_statement := by
  intro h
  have := h 4 100 (by decide) [b!"abc", b!"de"] _ rfl (by decide)
  revert this
  decide

/-! ### C18 -/

/-- The full claim C18: after a read, a write is refused and the body is unchanged. -/
def C18_statement : Prop :=
  ∀ (m f : Int) (ops : List BufOp) (n : Nat) (b b1 b2 : Buf) (out : Bytes) (e e' : Option BufErr) (p : Bytes) (k : Nat),
    (newBuffer m f).steps ops = .ok b → b.read n = .ok (b1, out, e) → b1.write p .none = .ok (b2, k, e') →
    e' = some .bufferReaded ∧ body b2 = body b1

/-- C18 is false: the write is accepted and alters the body. -/
theorem C18_refuted : ¬ C18_statement := by
  intro h
  have := (h 8 8 [.write b!"ab" .none] 2 _ _ _ _ _ _ b!"c" _ rfl rfl rfl).1
  revert this; decide

/-- The behaviour in place of C18: no write is ever refused because of a read. -/
theorem C18_write_never_refused_for_read (m f : Int) (ops : List BufOp) (b : Buf)
    (h : (newBuffer m f).steps ops = .ok b) (p : Bytes) (io : IOFault) (b' : Buf) (n : Nat) :
    b.write p io ≠ .ok (b', n, some .bufferReaded) := by
  have hl := Buf.Lim.steps h
  have fe : ∀ (f0 fl : File) (wn : Nat) (e : Option BufErr), f0.write p io.writeFail = (fl, wn, e) →
      e ≠ some .bufferReaded := by
    intro f0 fl wn e hfw
    simp only [File.write] at hfw
    split at hfw
    · cases hfw; simp
    · split at hfw <;> cases hfw <;> simp
  simp only [Buf.write, hl.readed]
  simp only [Bool.false_eq_true, if_false]
  split
  · simp
  · split
    · split
      · split
        · simp
        · split
          · simp
          · rename_i hw _ _ hcond
            split
            · rename_i e he
              intro hc; cases hc
              have := he
              simp only [File.write] at this
              split at this
              · simp at this
              · split at this <;> simp at this
            · intro hc
              simp only [Res.ok.injEq, Prod.mk.injEq] at hc
              exact fe _ _ _ _ rfl hc.2.2
      · simp
    · intro hc
      simp only [Res.ok.injEq, Prod.mk.injEq] at hc
      exact fe _ _ _ _ rfl hc.2.2

/-- The behaviour in place of C18: after reading `n` bytes of a spilled body the
next write lands inside the body, overwriting what is there. -/
theorem C18_spilled_body_overwritten (m f : Int) (ops : List BufOp) (b b1 : Buf) (out : Bytes) (e : Option BufErr)
    (h : (newBuffer m f).steps ops = .ok b) (fl : File) (hfl : b.fileBuf = some fl) (hopen : fl.closed = false)
    (n : Nat) (hn : n ≤ fl.content.length) (hr : b.read n = .ok (b1, out, e)) (p : Bytes)
    (hp : (b.len : Int) + p.length ≤ f) :
    ∃ b2, b1.write p .none = .ok (b2, p.length, none) ∧
      body b2 = some (fl.content.take n ++ p ++ fl.content.drop (n + p.length)) := by
  have hl := Buf.Lim.steps h
  have e2 := hl.fileLimit
  simp only [Buf.len] at hp
  simp only [Buf.read, Buf.initRead, hl.readed, hfl, File.read] at hr
  simp at hr
  obtain ⟨rfl, _, _⟩ := hr
  have hlen : ¬ ((b.length : Int) + p.length > b.fileLimit) := by omega
  have hmin : min n fl.content.length = n := by omega
  have hz : n - fl.content.length = 0 := by omega
  refine ⟨{ b with memReader := some (b.memBuf, 0),
                   fileBuf := some { fl with content := writeAt fl.content n p, pos := n + p.length },
                   length := b.length + p.length }, ?_, ?_⟩
  · simp only [Buf.write, hl.readed, hlen, File.write, hopen, IOFault.none]
    simp [hmin]
  · cases p <;> simp [body, Buf.writeTo, Buf.initRead, hl.readed, hopen, writeAt, hz]

example : ∃ b b1 b2, (newBuffer 0 100).steps [.write b!"password" .none] = .ok b ∧ b.read 0 = .ok (b1, [], none) ∧
    b1.write b!"xx" .none = .ok (b2, 2, none) ∧ body b2 = some b!"xxssword" := by
  refine ⟨_, _, _, rfl, rfl, rfl, ?_⟩
  decide

/-! ### C19 -/

/-- The full claim C19: two successive reads advance through the body. -/
def C19_statement : Prop :=
  ∀ (m f : Int) (ops : List BufOp) (b b1 b2 : Buf) (n k : Nat) (out1 out2 s : Bytes) (e1 e2 : Option BufErr),
    (newBuffer m f).steps ops = .ok b → body b = some s → b.read n = .ok (b1, out1, e1) →
    b1.read k = .ok (b2, out2, e2) → out1 ++ out2 = s.take (n + k)

/-- C19, one read: it returns the beginning of the body. -/
theorem C19_read_from_start_partial (m f : Int) (ops : List BufOp) (b : Buf) (s : Bytes) (n : Nat)
    (h : (newBuffer m f).steps ops = .ok b) (hs : body b = some s) :
    ∃ b1 e, b.read n = .ok (b1, s.take n, e) ∧ body b1 = some s ∧
      (e = some .eof ↔ s = [] ∧ (b.fileBuf = none ∨ 0 < n)) := by
  have hl := Buf.Lim.steps h
  cases hfb : b.fileBuf with
  | none =>
    simp [body, Buf.writeTo, Buf.initRead, hl.readed, hfb] at hs
    subst hs
    by_cases hnil : b.memBuf = []
    · refine ⟨{ b with memReader := some ([], 0) }, some .eof, ?_, ?_, ?_⟩
      · simp [Buf.read, Buf.initRead, hl.readed, hfb, memRead, hnil]
      · simp [body, Buf.writeTo, Buf.initRead, hl.readed, hfb, hnil]
      · simp [hnil]
    · refine ⟨{ b with memReader := some (b.memBuf, (b.memBuf.take n).length) }, none, ?_, ?_, ?_⟩
      · simp [Buf.read, Buf.initRead, hl.readed, hfb, memRead, hnil]
      · simp [body, Buf.writeTo, Buf.initRead, hl.readed, hfb]
      · simp [hnil]
  | some fl =>
    simp only [body, Buf.writeTo, Buf.initRead, hl.readed, hfb] at hs
    by_cases hc : fl.closed = true
    · simp [hc] at hs
    have hc' : fl.closed = false := by simpa using hc
    simp [hc'] at hs
    subst hs
    refine ⟨{ b with memReader := some (b.memBuf, 0), fileBuf := some { fl with pos := (fl.content.take n).length } },
      if (fl.content.take n).length = 0 ∧ 0 < n then some .eof else none, ?_, ?_, ?_⟩
    · simp [Buf.read, Buf.initRead, hl.readed, hfb, File.read, hc']
    · simp [body, Buf.writeTo, Buf.initRead, hl.readed, hc']
    · simp only [reduceCtorEq, false_or]
      split
      · rename_i h0
        simp only [List.length_take] at h0
        refine ⟨fun _ => ⟨?_, h0.2⟩, fun _ => rfl⟩
        apply List.eq_nil_of_length_eq_zero; omega
      · rename_i h0
        constructor
        · intro hc; cases hc
        · rintro ⟨hn, h1⟩; exact absurd ⟨by simp [hn], h1⟩ h0

/-- The behaviour in place of C19: reading again returns the same bytes, so a
non-empty body never reports its end. -/
theorem C19_read_restarts (m f : Int) (ops : List BufOp) (b b1 : Buf) (s out : Bytes) (n k : Nat) (e : Option BufErr)
    (h : (newBuffer m f).steps ops = .ok b) (hs : body b = some s) (hne : s ≠ [])
    (hr : b.read n = .ok (b1, out, e)) : ∃ b2, b1.read k = .ok (b2, s.take k, none) := by
  obtain ⟨b1', e1, hr1, hb1, _⟩ := C19_read_from_start_partial m f ops b s n h hs
  rw [hr] at hr1
  obtain ⟨rfl, _, _⟩ := by simpa using hr1
  have hreach : (newBuffer m f).steps (ops ++ [.read n]) = .ok b1 := by
    have app : ∀ (xs : List BufOp) (c d : Buf) (ys : List BufOp), c.steps xs = .ok d → c.steps (xs ++ ys) = d.steps ys := by
      intro xs
      induction xs with
      | nil => intro c d ys hc; cases hc; rfl
      | cons x xs ih =>
        intro c d ys hc
        simp only [Buf.steps, List.cons_append] at *
        cases hx : c.step x with
        | ok c1 => rw [hx] at hc; exact ih c1 d ys hc
        | panic => rw [hx] at hc; cases hc
        | fuel => rw [hx] at hc; cases hc
    rw [app _ _ _ _ h]
    simp [Buf.steps, Buf.step, hr]
  obtain ⟨b2, e2, hr2, _, he2⟩ := C19_read_from_start_partial m f _ b1 s k hreach hb1
  cases e2 with
  | none => exact ⟨b2, hr2⟩
  | some e' =>
    exfalso
    have hl := Buf.Lim.steps hreach
    simp only [Buf.read, Buf.initRead, hl.readed] at hr2
    simp only [Bool.not_false, if_true] at hr2
    cases hfb : b1.fileBuf with
    | none =>
      simp only [hfb, Option.map_none, memRead] at hr2
      split at hr2 <;> simp at hr2
      have := he2.1 (by rw [← hr2.2.2])
      exact hne this.1
    | some fl =>
      simp only [hfb, Option.map_some, File.read] at hr2
      by_cases hc : fl.closed = true
      · simp only [body, Buf.writeTo, Buf.initRead, hl.readed, hfb] at hb1
        simp [hc] at hb1
      · simp [hc] at hr2
        have := he2.1 (by rw [← hr2.2.2.2])
        exact hne this.1

example : ∃ b, (newBuffer 8 8).steps [.write b!"ab" .none] = .ok b ∧ body b = some b!"ab" := ⟨_, rfl, by decide⟩

/-- C19 is false: reading "ab" one byte at a time gives "aa". -/
theorem C19_refuted : ¬ C19_statement := by
  intro h
  have := h 8 8 [.write b!"ab" .none] _ _ _ 1 1 _ _ b!"ab" _ _ rfl (by decide) rfl rfl
  revert this; decide

/-! ### C20, buffer part -/

/-- With equal limits (as the response body has) nothing ever spills and the body
is exactly the accepted chunks, even under I/O failures. -/
theorem C20_equal_limits (m : Int) (ops : List BufOp) (b : Buf) (h : (newBuffer m m).steps ops = .ok b) :
    b.string.2 = (accepted (newBuffer m m) ops, none) ∧ b.len = (accepted (newBuffer m m) ops).length ∧
    b.fileBuf = none := by
  have key : ∀ (ops : List BufOp) (c : Buf) (acc : Bytes), c.readed = false → c.memLimit = m → c.fileLimit = m →
      c.fileBuf = none → c.memBuf = acc → c.length = acc.length → c.steps ops = .ok b →
      b.readed = false ∧ b.fileBuf = none ∧ b.memBuf = acc ++ accepted c ops ∧
        b.length = (acc ++ accepted c ops).length := by
    intro ops
    induction ops with
    | nil => intro c acc h1 h2 h3 h4 h5 h6 hs; cases hs; simp [accepted, h1, h4, h5, h6]
    | cons op ops ih =>
      intro c acc h1 h2 h3 h4 h5 h6 hs
      simp only [Buf.steps] at hs
      cases hs1 : c.step op with
      | panic => rw [hs1] at hs; cases hs
      | fuel => rw [hs1] at hs; cases hs
      | ok c1 =>
        rw [hs1] at hs
        have hstep : c1.readed = false ∧ c1.memLimit = m ∧ c1.fileLimit = m ∧ c1.fileBuf = none ∧
            c1.memBuf = acc ++ acceptedChunk c op ∧ c1.length = (acc ++ acceptedChunk c op).length := by
          by_cases hw : ∃ p io, op = .write p io
          · obtain ⟨p, io, rfl⟩ := hw
            obtain ⟨n, e, hw⟩ := Buf.step_write hs1
            refine Buf.write_cases c p io h1 ?_ ?_ ?_ ?_ ?_ ?_ ?_
            · intro _ hw'; simp only [acceptedChunk, hw']; rw [hw'] at hw; cases hw
              simp [h1, h2, h3, h4, h5, h6]
            · intro _ _ _ _ hw'; rw [hw'] at hw; cases hw
            · intro _ _ _ _; omega
            · intro _ _ _ _ _ _; omega
            · intro _ _ _ _ _ _ _; omega
            · intro _ _ _ hw'; simp only [acceptedChunk, hw']; rw [hw'] at hw; cases hw
              simp [h1, h2, h3, h4, h5, h6]
            · intro f0 _ _ _ _ hf0; rw [h4] at hf0; cases hf0
          · have hsame := Buf.step_same (fun p io he => hw ⟨p, io, he⟩) hs1
            have : acceptedChunk c op = [] := by
              cases op with
              | write p io => exact absurd ⟨p, io, rfl⟩ hw
              | _ => rfl
            rw [this, List.append_nil]
            exact ⟨hsame.readed.trans h1, hsame.memLimit.trans h2, hsame.fileLimit.trans h3, hsame.none.2 h4,
              hsame.memBuf.trans h5, hsame.length.trans h6⟩
        obtain ⟨g1, g2, g3, g4, g5, g6⟩ := hstep
        have := ih c1 _ g1 g2 g3 g4 g5 g6 hs
        simpa [accepted, hs1] using this
  obtain ⟨h1, h2, h3, h4⟩ := key ops (newBuffer m m) [] rfl rfl rfl rfl rfl rfl h
  simp only [List.nil_append] at h3 h4
  exact ⟨by simp [Buf.string, Buf.initRead, h1, h2, h3], h4, h2⟩

end Verif
