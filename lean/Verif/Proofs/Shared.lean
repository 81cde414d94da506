import Verif.Model.Shared
import Verif.Proofs.Rule
/-! Lemmas for C135 and C136. -/
namespace Verif

theorem write_grows {b b' : Buf} {p : Bytes} {io : IOFault} {n : Nat} {e : Option BufErr} (h : b.write p io = .ok (b', n, e)) :
    ∃ w, b'.memBuf = b.memBuf ++ w := by
  rw [Buf.write] at h
  split at h
  · cases h; exact ⟨[], (List.append_nil _).symm⟩
  split at h
  · cases h; exact ⟨[], (List.append_nil _).symm⟩
  split at h
  · split at h
    · split at h
      · cases h
      · simp only at h
        split at h
        · cases h; exact ⟨_, rfl⟩
        · split at h <;> cases h <;> exact ⟨_, rfl⟩
    · cases h; exact ⟨_, rfl⟩
  · cases h; exact ⟨[], (List.append_nil _).symm⟩

theorem initRead_mem (b : Buf) : b.initRead.memBuf = b.memBuf := by
  rw [Buf.initRead]; split <;> rfl

theorem call_grows {b b' : Buf} {op : BufOp} {a : BufAns} (h : b.ask op = .ok (b', a)) : ∃ w, b'.memBuf = b.memBuf ++ w := by
  cases op with
  | write p io =>
    rw [Buf.ask] at h
    cases k : b.write p io with
    | ok r => rw [k] at h; cases h; exact write_grows k
    | panic => rw [k] at h; cases h
    | fuel => rw [k] at h; cases h
  | string => cases h; exact ⟨[], by simp [Buf.string, initRead_mem]⟩
  | bytes => cases h; exact ⟨[], by simp [Buf.string, initRead_mem]⟩
  | read n =>
    refine ⟨[], ?_⟩
    rw [Buf.ask, Buf.read] at h
    rw [← initRead_mem b]
    generalize b.initRead = b at h ⊢
    try simp only at h
    repeat' split at h
    all_goals (try cases h)
    all_goals simp
  | writeTo =>
    refine ⟨[], ?_⟩
    rw [Buf.ask, Buf.writeTo] at h
    rw [← initRead_mem b]
    generalize b.initRead = b at h ⊢
    try simp only at h
    repeat' split at h
    all_goals (try cases h)
    all_goals simp
  | seek o w =>
    refine ⟨[], ?_⟩
    rw [Buf.ask, Buf.seek] at h
    rw [← initRead_mem b]
    generalize b.initRead = b at h ⊢
    try simp only at h
    repeat' split at h
    all_goals (try cases h)
    all_goals simp
  | close =>
    refine ⟨[], ?_⟩
    rw [Buf.ask, Buf.close] at h
    split at h
    all_goals (try cases h)
    simp

/-- The array of a buffer has room for what is in it. -/
structure ShBuf.Sound (m : ShBuf) : Prop where
  fits : m.len ≤ (m.arrays m.arr).length
  made : m.arr < m.count

theorem newShBuf_sound (x y : Int) : (newShBuf x y).Sound := ⟨by simp [newShBuf], by simp [newShBuf]⟩

theorem store_sound {room : Nat → Nat → Nat} {m : ShBuf} (h : m.Sound) (p : Bytes) : (m.store room p).Sound := by
  have h1 := h.fits
  rw [ShBuf.store]
  split <;> constructor <;> simp <;> first | omega | exact h.made

theorem store_look {room : Nat → Nat → Nat} {m : ShBuf} (h : m.Sound) (p : Bytes) :
    (m.store room p).look ⟨(m.store room p).arr, (m.store room p).len⟩ = m.look ⟨m.arr, m.len⟩ ++ p := by
  have h1 := h.fits
  rw [ShBuf.store]
  split
  · simp only [ShBuf.look, if_true]
    rw [List.take_append_of_le_length (by simp; omega), List.take_of_length_le (by simp; omega)]
  · simp only [ShBuf.look, if_true]
    rw [List.take_append_of_le_length (by simp; omega), List.take_of_length_le (by simp; omega)]

/-- A slice that was made of the buffer at some time. -/
def ShBuf.Old (m : ShBuf) (s : BSlice) : Prop := s.arr < m.count ∧ (s.arr = m.arr → s.len ≤ m.len)

theorem store_old {room : Nat → Nat → Nat} {m : ShBuf} (h : m.Sound) (p : Bytes) {s : BSlice} (hs : m.Old s) :
    (m.store room p).Old s ∧ (m.store room p).look s = m.look s := by
  obtain ⟨h2, h3⟩ := hs
  have h1 := h.fits
  rw [ShBuf.store]
  split
  · refine ⟨⟨h2, fun e => Nat.le_trans (h3 e) (Nat.le_add_right _ _)⟩, ?_⟩
    simp only [ShBuf.look]
    split
    · rename_i e
      have := h3 e
      rw [e, List.append_assoc, List.take_append_of_le_length (by simp; omega), List.take_take]
      congr 1; omega
    · rfl
  · refine ⟨⟨by simp only; omega, fun e => by simp only at e; omega⟩, ?_⟩
    simp only [ShBuf.look]
    rw [if_neg (by omega)]

theorem view_call {room : Nat → Nat → Nat} {m : ShBuf} (hm : m.Sound) {op : BufOp} {m' : ShBuf} {a : BufAns} (h : m.call room op = .ok (m', a)) :
    m.view.ask op = .ok (m'.view, a) ∧ m'.Sound ∧ (∀ s, m.Old s → m'.Old s ∧ m'.look s = m.look s) ∧ m'.Old ⟨m'.arr, m'.len⟩ := by
  rw [ShBuf.call] at h
  cases k : m.view.ask op with
  | panic => rw [k] at h; cases h
  | fuel => rw [k] at h; cases h
  | ok r =>
    rw [k] at h; cases h
    obtain ⟨w, e⟩ := call_grows (b' := r.1) (a := r.2) k
    have hl : m.view.memBuf.length = m.len := by
      have := hm.fits
      simp [ShBuf.view, ShBuf.look]; omega
    have hd : r.1.memBuf.drop m.len = w := by rw [e, ← hl]; simp
    rw [hd]
    have ss := store_sound (room := room) hm w
    refine ⟨?_, ⟨ss.fits, ss.made⟩, fun s hs => store_old hm w hs, ⟨ss.made, fun _ => Nat.le_refl _⟩⟩
    have : (ShBuf.view { m.store room w with buf := r.1 }) = r.1 := by
      have e' : (m.store room w).look ⟨(m.store room w).arr, (m.store room w).len⟩ = r.1.memBuf := by
        rw [store_look hm, e]; rfl
      simp only [ShBuf.view, ShBuf.look] at e' ⊢
      rw [e']
    rw [this]

end Verif
