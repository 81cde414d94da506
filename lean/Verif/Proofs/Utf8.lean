import Verif.Model.Utf8
import Verif.Proofs.UrlDecode
namespace Verif

theorem segs_nil : segs [] = [] := by simp [segs]

theorem segs_ascii {b : UInt8} (h : b < 0x80) (r : Bytes) : segs (b :: r) = ⟨b.toNat, [b]⟩ :: segs r := by
  rw [segs.eq_def]; simp [h]

theorem segs_two {b0 b1 : UInt8} (h0 : isLead2 b0 = true) (h1 : isCont b1 = true) (r : Bytes) :
    segs (b0 :: b1 :: r) = ⟨(b0.toNat - 0xC0) * 64 + (b1.toNat - 0x80), [b0, b1]⟩ :: segs r := by
  have : ¬ b0 < 0x80 := by
    simp only [isLead2, Bool.and_eq_true, decide_eq_true_eq, UInt8.le_iff_toNat_le, UInt8.lt_iff_toNat_lt] at *
    simp at *; omega
  rw [segs.eq_def]; simp [this, h0, h1]

theorem segs_three {b0 b1 b2 : UInt8} (h0 : isLead3 b0 b1 = true) (h2 : isCont b2 = true) (r : Bytes) :
    segs (b0 :: b1 :: b2 :: r) =
      ⟨(b0.toNat - 0xE0) * 4096 + (b1.toNat - 0x80) * 64 + (b2.toNat - 0x80), [b0, b1, b2]⟩ :: segs r := by
  have h : 0xE0 ≤ b0.toNat := by
    simp only [isLead3, isCont, Bool.and_eq_true, Bool.or_eq_true, decide_eq_true_eq, beq_iff_eq,
      UInt8.le_iff_toNat_le, ← UInt8.toNat_inj] at *
    simp at *; omega
  have h1 : ¬ b0 < 0x80 := by simp only [UInt8.lt_iff_toNat_lt]; simp; omega
  have h3 : isLead2 b0 = false := by simp [isLead2, UInt8.le_iff_toNat_le]; omega
  rw [segs.eq_def]; simp [h1, h3, h0, h2]

theorem segs_four {b0 b1 b2 b3 : UInt8} (h0 : isLead4 b0 b1 = true) (h2 : isCont b2 = true)
    (h3 : isCont b3 = true) (r : Bytes) :
    segs (b0 :: b1 :: b2 :: b3 :: r) =
      ⟨(b0.toNat - 0xF0) * 262144 + (b1.toNat - 0x80) * 4096 + (b2.toNat - 0x80) * 64 + (b3.toNat - 0x80),
        [b0, b1, b2, b3]⟩ :: segs r := by
  have h : 0xF0 ≤ b0.toNat := by
    simp only [isLead4, isCont, Bool.and_eq_true, Bool.or_eq_true, decide_eq_true_eq, beq_iff_eq,
      UInt8.le_iff_toNat_le, ← UInt8.toNat_inj] at *
    simp at *; omega
  have h1 : ¬ b0 < 0x80 := by simp only [UInt8.lt_iff_toNat_lt]; simp; omega
  have h4 : isLead2 b0 = false := by simp [isLead2, UInt8.le_iff_toNat_le]; omega
  have h5 : isLead3 b0 b1 = false := by
    simp [isLead3, isCont, UInt8.le_iff_toNat_le, ← UInt8.toNat_inj]; omega
  rw [segs.eq_def]; simp [h1, h4, h5, h0, h2, h3]

/-- A well-formed unit: the encoding of a scalar value. -/
def Seg.Good (c : Seg) : Prop := c.rune.isValidChar ∧ c.bytes = encodeRune c.rune

/-- The first unit of a non-empty string. -/
theorem segs_step {s : Bytes} (hs : s ≠ []) :
    ∃ c t, segs s = c :: segs t ∧ s = c.bytes ++ t ∧ c.bytes ≠ [] ∧
      (c.Good ∨ (c.rune = runeError ∧ ∃ b, c.bytes = [b] ∧ 0x80 ≤ b)) := by
  rcases s with _ | ⟨b0, r0⟩
  · exact absurd rfl hs
  by_cases h0 : b0 < 0x80
  · refine ⟨⟨b0.toNat, [b0]⟩, r0, segs_ascii h0 r0, rfl, by simp, .inl ?_⟩
    have : b0.toNat < 128 := by simpa [UInt8.lt_iff_toNat_lt] using h0
    refine ⟨?_, ?_⟩
    · simp only [Nat.isValidChar]; omega
    · simp [encodeRune, show b0.toNat ≤ 127 by omega]
  have hb0 : (0x80 : UInt8) ≤ b0 := by simpa [UInt8.lt_iff_toNat_lt, UInt8.le_iff_toNat_le] using h0
  have err : ∀ t, r0 = t → segs (b0 :: r0) = ⟨runeError, [b0]⟩ :: segs t →
      ∃ c t, segs (b0 :: r0) = c :: segs t ∧ b0 :: r0 = c.bytes ++ t ∧ c.bytes ≠ [] ∧
      (c.Good ∨ (c.rune = runeError ∧ ∃ b, c.bytes = [b] ∧ 0x80 ≤ b)) := by
    rintro t rfl h
    exact ⟨_, _, h, rfl, by simp, .inr ⟨rfl, b0, rfl, hb0⟩⟩
  rcases r0 with _ | ⟨b1, r1⟩
  · exact err [] rfl (by rw [segs.eq_def]; simp [h0, segs_nil])
  by_cases h1 : isLead2 b0 && isCont b1
  · simp only [Bool.and_eq_true] at h1
    refine ⟨_, r1, segs_two h1.1 h1.2 r1, rfl, by simp, .inl ?_⟩
    simp only [isLead2, isCont, Bool.and_eq_true, decide_eq_true_eq, UInt8.le_iff_toNat_le] at h1
    simp at h1
    refine ⟨?_, ?_⟩
    · simp only [Nat.isValidChar]; omega
    · have hr : ¬ (b0.toNat - 0xC0) * 64 + (b1.toNat - 0x80) ≤ 0x7F := by omega
      have hr2 : (b0.toNat - 0xC0) * 64 + (b1.toNat - 0x80) ≤ 0x7FF := by omega
      simp only [encodeRune, hr, hr2, if_true, if_false]
      rw [show 0xC0 + ((b0.toNat - 0xC0) * 64 + (b1.toNat - 0x80)) / 64 = b0.toNat by omega,
        show 0x80 + ((b0.toNat - 0xC0) * 64 + (b1.toNat - 0x80)) % 64 = b1.toNat by omega]
      simp
  rcases r1 with _ | ⟨b2, r2⟩
  · exact err _ rfl (by rw [segs.eq_def]; simp only [h0, h1]; simp)
  by_cases h2 : isLead3 b0 b1 && isCont b2
  · simp only [Bool.and_eq_true] at h2
    refine ⟨_, r2, segs_three h2.1 h2.2 r2, rfl, by simp, .inl ?_⟩
    simp only [isLead3, isCont, Bool.and_eq_true, Bool.or_eq_true, decide_eq_true_eq, beq_iff_eq, bne_iff_ne,
      UInt8.le_iff_toNat_le, ← UInt8.toNat_inj, ne_eq] at h2
    simp at h2
    refine ⟨?_, ?_⟩
    · simp only [Nat.isValidChar]; omega
    · have e1 : ¬ (b0.toNat - 0xE0) * 4096 + (b1.toNat - 0x80) * 64 + (b2.toNat - 0x80) ≤ 0x7F := by omega
      have e2 : ¬ (b0.toNat - 0xE0) * 4096 + (b1.toNat - 0x80) * 64 + (b2.toNat - 0x80) ≤ 0x7FF := by omega
      have e3 : ¬ ((b0.toNat - 0xE0) * 4096 + (b1.toNat - 0x80) * 64 + (b2.toNat - 0x80) > 0x10FFFF ∨
        (0xD800 ≤ (b0.toNat - 0xE0) * 4096 + (b1.toNat - 0x80) * 64 + (b2.toNat - 0x80) ∧
         (b0.toNat - 0xE0) * 4096 + (b1.toNat - 0x80) * 64 + (b2.toNat - 0x80) ≤ 0xDFFF)) := by omega
      have e4 : (b0.toNat - 0xE0) * 4096 + (b1.toNat - 0x80) * 64 + (b2.toNat - 0x80) ≤ 0xFFFF := by omega
      simp only [encodeRune, e1, e2, e3, e4, if_true, if_false]
      rw [show 0xE0 + ((b0.toNat - 0xE0) * 4096 + (b1.toNat - 0x80) * 64 + (b2.toNat - 0x80)) / 4096 = b0.toNat by omega,
        show 0x80 + ((b0.toNat - 0xE0) * 4096 + (b1.toNat - 0x80) * 64 + (b2.toNat - 0x80)) / 64 % 64 = b1.toNat by omega,
        show 0x80 + ((b0.toNat - 0xE0) * 4096 + (b1.toNat - 0x80) * 64 + (b2.toNat - 0x80)) % 64 = b2.toNat by omega]
      simp
  rcases r2 with _ | ⟨b3, r3⟩
  · exact err _ rfl (by rw [segs.eq_def]; simp only [h0, h1, h2]; simp)
  by_cases h3 : isLead4 b0 b1 && isCont b2 && isCont b3
  · simp only [Bool.and_eq_true] at h3
    refine ⟨_, r3, segs_four h3.1.1 h3.1.2 h3.2 r3, rfl, by simp, .inl ?_⟩
    simp only [isLead4, isCont, Bool.and_eq_true, Bool.or_eq_true, decide_eq_true_eq, beq_iff_eq,
      UInt8.le_iff_toNat_le, ← UInt8.toNat_inj] at h3
    simp at h3
    generalize hr : (b0.toNat - 0xF0) * 262144 + (b1.toNat - 0x80) * 4096 + (b2.toNat - 0x80) * 64 + (b3.toNat - 0x80) = r
    refine ⟨?_, ?_⟩
    · simp only [Nat.isValidChar]; omega
    · have e1 : ¬ r ≤ 0x7F := by omega
      have e2 : ¬ r ≤ 0x7FF := by omega
      have e3 : ¬ (r > 0x10FFFF ∨ (0xD800 ≤ r ∧ r ≤ 0xDFFF)) := by omega
      have e4 : ¬ r ≤ 0xFFFF := by omega
      simp only [encodeRune, e1, e2, e3, e4, if_false]
      rw [show 0xF0 + r / 262144 = b0.toNat by omega, show 0x80 + r / 4096 % 64 = b1.toNat by omega,
        show 0x80 + r / 64 % 64 = b2.toNat by omega, show 0x80 + r % 64 = b3.toNat by omega]
      simp
  · exact err _ rfl (by rw [segs.eq_def]; simp only [h0, h1, h2, h3]; simp)

theorem u8_toNat_ofNat {n : Nat} (h : n < 256) : (UInt8.ofNat n).toNat = n := by simp; omega

/-- Decoding an encoded scalar value. -/
theorem segs_encode {r : Nat} (h : r.isValidChar) (t : Bytes) :
    segs (encodeRune r ++ t) = ⟨r, encodeRune r⟩ :: segs t := by
  have hv : r < 0xd800 ∨ (0xdfff < r ∧ r < 0x110000) := h
  by_cases h1 : r ≤ 0x7F
  · have e : encodeRune r = [UInt8.ofNat r] := by simp [encodeRune, h1]
    rw [e]
    have := segs_ascii (b := UInt8.ofNat r) (by rw [UInt8.lt_iff_toNat_lt, u8_toNat_ofNat (by omega)]; simp; omega) t
    rw [u8_toNat_ofNat (by omega)] at this
    exact this
  by_cases h2 : r ≤ 0x7FF
  · have e : encodeRune r = [UInt8.ofNat (0xC0 + r / 64), UInt8.ofNat (0x80 + r % 64)] := by simp [encodeRune, h1, h2]
    rw [e]
    have n0 := u8_toNat_ofNat (n := 0xC0 + r / 64) (by omega)
    have n1 := u8_toNat_ofNat (n := 0x80 + r % 64) (by omega)
    have := segs_two (b0 := UInt8.ofNat (0xC0 + r / 64)) (b1 := UInt8.ofNat (0x80 + r % 64))
      (by simp only [isLead2, UInt8.le_iff_toNat_le, n0]; simp; omega)
      (by simp only [isCont, UInt8.le_iff_toNat_le, n1]; simp; omega) t
    rw [n0, n1, show (0xC0 + r / 64 - 0xC0) * 64 + (0x80 + r % 64 - 0x80) = r by omega] at this
    rw [List.cons_append, List.cons_append, List.nil_append, this]
  have h3 : ¬ (r > 0x10FFFF ∨ (0xD800 ≤ r ∧ r ≤ 0xDFFF)) := by omega
  by_cases h4 : r ≤ 0xFFFF
  · have e : encodeRune r = [UInt8.ofNat (0xE0 + r / 4096), UInt8.ofNat (0x80 + r / 64 % 64), UInt8.ofNat (0x80 + r % 64)] := by
      simp only [encodeRune, h1, h2, h3, h4, if_true, if_false]
    rw [e]
    have n0 := u8_toNat_ofNat (n := 0xE0 + r / 4096) (by omega)
    have n1 := u8_toNat_ofNat (n := 0x80 + r / 64 % 64) (by omega)
    have n2 := u8_toNat_ofNat (n := 0x80 + r % 64) (by omega)
    have := segs_three (b0 := UInt8.ofNat (0xE0 + r / 4096)) (b1 := UInt8.ofNat (0x80 + r / 64 % 64))
      (b2 := UInt8.ofNat (0x80 + r % 64))
      (by
        simp only [isLead3, isCont, UInt8.le_iff_toNat_le, Bool.and_eq_true, Bool.or_eq_true, decide_eq_true_eq,
          beq_iff_eq, bne_iff_ne, ne_eq, ← UInt8.toNat_inj, n0, n1]
        simp; omega)
      (by simp only [isCont, UInt8.le_iff_toNat_le, n2]; simp; omega) t
    rw [n0, n1, n2, show (0xE0 + r / 4096 - 0xE0) * 4096 + (0x80 + r / 64 % 64 - 0x80) * 64 +
      (0x80 + r % 64 - 0x80) = r by omega] at this
    rw [List.cons_append, List.cons_append, List.cons_append, List.nil_append, this]
  · have e : encodeRune r = [UInt8.ofNat (0xF0 + r / 262144), UInt8.ofNat (0x80 + r / 4096 % 64),
        UInt8.ofNat (0x80 + r / 64 % 64), UInt8.ofNat (0x80 + r % 64)] := by
      simp only [encodeRune, h1, h2, h3, h4, if_false]
    rw [e]
    have n0 := u8_toNat_ofNat (n := 0xF0 + r / 262144) (by omega)
    have n1 := u8_toNat_ofNat (n := 0x80 + r / 4096 % 64) (by omega)
    have n2 := u8_toNat_ofNat (n := 0x80 + r / 64 % 64) (by omega)
    have n3 := u8_toNat_ofNat (n := 0x80 + r % 64) (by omega)
    have := segs_four (b0 := UInt8.ofNat (0xF0 + r / 262144)) (b1 := UInt8.ofNat (0x80 + r / 4096 % 64))
      (b2 := UInt8.ofNat (0x80 + r / 64 % 64)) (b3 := UInt8.ofNat (0x80 + r % 64))
      (by
        simp only [isLead4, isCont, UInt8.le_iff_toNat_le, Bool.and_eq_true, Bool.or_eq_true, decide_eq_true_eq,
          beq_iff_eq, ← UInt8.toNat_inj, n0, n1]
        simp; omega)
      (by simp only [isCont, UInt8.le_iff_toNat_le, n2]; simp; omega)
      (by simp only [isCont, UInt8.le_iff_toNat_le, n3]; simp; omega) t
    rw [n0, n1, n2, n3, show (0xF0 + r / 262144 - 0xF0) * 262144 + (0x80 + r / 4096 % 64 - 0x80) * 4096 +
      (0x80 + r / 64 % 64 - 0x80) * 64 + (0x80 + r % 64 - 0x80) = r by omega] at this
    rw [List.cons_append, List.cons_append, List.cons_append, List.cons_append, List.nil_append, this]

/-- Induction over the units of a string. -/
theorem segs_induction {P : Bytes → Prop} (nil : P [])
    (step : ∀ c t, c.bytes ≠ [] → (c.Good ∨ (c.rune = runeError ∧ ∃ b, c.bytes = [b] ∧ 0x80 ≤ b)) →
      segs (c.bytes ++ t) = c :: segs t → P t → P (c.bytes ++ t)) : ∀ s, P s := by
  intro s
  induction hn : s.length using Nat.strongRecOn generalizing s with
  | _ n ih =>
    by_cases hs : s = []
    · rw [hs]; exact nil
    · obtain ⟨c, t, h1, h2, h3, h4⟩ := segs_step hs
      subst h2
      refine step c t h3 h4 h1 (ih t.length ?_ t rfl)
      have := List.length_pos_iff.2 h3
      simp at hn; omega

theorem segs_bytes (s : Bytes) : (segs s).flatMap Seg.bytes = s := by
  refine segs_induction (P := fun s => (segs s).flatMap Seg.bytes = s) (by simp [segs_nil]) ?_ s
  intro c t _ _ h ih
  rw [h, List.flatMap_cons, ih]

/-- The runes of a string. -/
def runes (s : Bytes) : List Rune := (segs s).map Seg.rune

theorem runeError_valid : runeError.isValidChar := by simp [runeError, Nat.isValidChar]

theorem runes_valid (s : Bytes) : ∀ r ∈ runes s, r.isValidChar := by
  refine segs_induction (P := fun s => ∀ r ∈ runes s, r.isValidChar) (by simp [runes, segs_nil]) ?_ s
  intro c t _ hc h ih r hr
  simp only [runes, h, List.map_cons, List.mem_cons] at hr
  rcases hr with rfl | hr
  · rcases hc with hc | hc
    · exact hc.1
    · rw [hc.1]; exact runeError_valid
  · exact ih r hr

theorem runes_encode {rs : List Rune} (h : ∀ r ∈ rs, r.isValidChar) : runes (rs.flatMap encodeRune) = rs := by
  induction rs with
  | nil => simp [runes, segs_nil]
  | cons r rs ih =>
    simp only [List.mem_cons, forall_eq_or_imp] at h
    rw [List.flatMap_cons, runes, segs_encode h.1]
    simp only [List.map_cons]
    rw [← runes, ih h.2]

theorem stringsMap_eq (f : Rune → Option Rune) (s : Bytes) :
    stringsMap f s = ((runes s).filterMap f).flatMap encodeRune := by
  unfold stringsMap runes
  induction segs s with
  | nil => rfl
  | cons c cs ih =>
    simp only [stringsMapState, List.map_cons, List.filterMap_cons]
    cases f c.rune with
    | none => simpa using ih
    | some r => simp [ih]

/-- Bytes of a multi-byte encoding are not ASCII. -/
theorem encodeRune_hi {r : Nat} (h : 0x80 ≤ r) : ∀ b ∈ encodeRune r, 0x80 ≤ b.toNat := by
  intro b hb
  simp only [encodeRune] at hb
  rw [if_neg (show ¬ r ≤ 0x7F by omega)] at hb
  by_cases h2 : r ≤ 0x7FF
  · rw [if_pos h2] at hb
    simp only [List.mem_cons, List.not_mem_nil, or_false] at hb
    rcases hb with rfl | rfl <;> rw [u8_toNat_ofNat (by omega)] <;> omega
  rw [if_neg h2] at hb
  by_cases h3 : r > 0x10FFFF ∨ (0xD800 ≤ r ∧ r ≤ 0xDFFF)
  · rw [if_pos h3] at hb
    simp only [List.mem_cons, List.not_mem_nil, or_false] at hb
    rcases hb with rfl | rfl | rfl <;> decide
  rw [if_neg h3] at hb
  by_cases h4 : r ≤ 0xFFFF
  · rw [if_pos h4] at hb
    simp only [List.mem_cons, List.not_mem_nil, or_false] at hb
    rcases hb with rfl | rfl | rfl <;> rw [u8_toNat_ofNat (by omega)] <;> omega
  · rw [if_neg h4] at hb
    simp only [List.mem_cons, List.not_mem_nil, or_false] at hb
    rcases hb with rfl | rfl | rfl | rfl <;> rw [u8_toNat_ofNat (by omega)] <;> omega

theorem encodeRune_ascii {r : Nat} (h : r < 0x80) : encodeRune r = [UInt8.ofNat r] := by
  simp [encodeRune, show r ≤ 127 by omega]

/-- A byte that is not a continuation byte starts a unit. -/
theorem segs_append_lead (u : Bytes) {c : UInt8} (c1 : isCont c = false) (v : Bytes) :
    segs (u ++ c :: v) = segs u ++ segs (c :: v) := by
  have hcc : c.toNat < 128 ∨ 191 < c.toNat := by
    simp [isCont, UInt8.le_iff_toNat_le] at c1; omega
  have c2 : ∀ b, isLead3 b c = false := by
    intro b; simp [isLead3, c1, UInt8.le_iff_toNat_le]; omega
  have c3 : ∀ b, isLead4 b c = false := by
    intro b; simp [isLead4, c1, UInt8.le_iff_toNat_le]; omega
  induction hn : u.length using Nat.strongRecOn generalizing u with
  | _ n ih =>
    rcases u with _ | ⟨b0, r0⟩
    · simp [segs_nil]
    have i0 := ih r0.length (by simp at hn; omega) r0 rfl
    by_cases h0 : b0 < 0x80
    · rw [List.cons_append, segs_ascii h0, segs_ascii h0, i0]; rfl
    rcases r0 with _ | ⟨b1, r1⟩
    · rw [segs.eq_def]
      rcases v with _ | ⟨v1, _ | ⟨v2, v⟩⟩ <;> simp [h0, c1, c2, c3, segs.eq_def [b0]]
    have i1 := ih r1.length (by simp at hn; omega) r1 rfl
    by_cases h1 : (isLead2 b0 && isCont b1) = true
    · simp only [Bool.and_eq_true] at h1
      rw [List.cons_append, List.cons_append, segs_two h1.1 h1.2, segs_two h1.1 h1.2, i1]; rfl
    rcases r1 with _ | ⟨b2, r2⟩
    · have e1 : segs [b0, b1] = ⟨runeError, [b0]⟩ :: segs [b1] := by rw [segs.eq_def]; simp only [h0, h1]; simp
      have e2 : segs (b0 :: b1 :: c :: v) = ⟨runeError, [b0]⟩ :: segs (b1 :: c :: v) := by
        rw [segs.eq_def]; rcases v with _ | ⟨v1, v⟩ <;> simp only [h0, h1, c1] <;> simp
      simp only [List.cons_append, List.nil_append] at i0 ⊢
      rw [e1, e2, i0]; rfl
    have i2 := ih r2.length (by simp at hn; omega) r2 rfl
    by_cases h2 : (isLead3 b0 b1 && isCont b2) = true
    · simp only [Bool.and_eq_true] at h2
      rw [List.cons_append, List.cons_append, List.cons_append, segs_three h2.1 h2.2, segs_three h2.1 h2.2, i2]; rfl
    rcases r2 with _ | ⟨b3, r3⟩
    · have e1 : segs [b0, b1, b2] = ⟨runeError, [b0]⟩ :: segs [b1, b2] := by
        rw [segs.eq_def]; simp only [h0, h1, h2]; simp
      have e2 : segs (b0 :: b1 :: b2 :: c :: v) = ⟨runeError, [b0]⟩ :: segs (b1 :: b2 :: c :: v) := by
        rw [segs.eq_def]; simp only [h0, h1, h2, c1]; simp
      simp only [List.cons_append, List.nil_append] at i0 ⊢
      rw [e1, e2, i0]; rfl
    have i3 := ih r3.length (by simp at hn; omega) r3 rfl
    by_cases h3 : (isLead4 b0 b1 && isCont b2 && isCont b3) = true
    · simp only [Bool.and_eq_true] at h3
      rw [List.cons_append, List.cons_append, List.cons_append, List.cons_append,
        segs_four h3.1.1 h3.1.2 h3.2, segs_four h3.1.1 h3.1.2 h3.2, i3]; rfl
    · have e1 : ∀ t, segs (b0 :: b1 :: b2 :: b3 :: t) = ⟨runeError, [b0]⟩ :: segs (b1 :: b2 :: b3 :: t) := by
        intro t; rw [segs.eq_def]; simp only [h0, h1, h2, h3]; simp
      simp only [List.cons_append] at i0 ⊢
      rw [e1, e1, i0]; rfl

/-- An ASCII byte is always a unit of its own. -/
theorem segs_append_ascii (u : Bytes) {c : UInt8} (hc : c < 0x80) (v : Bytes) :
    segs (u ++ c :: v) = segs u ++ segs (c :: v) := by
  have hcc : c.toNat < 128 := by simpa [UInt8.lt_iff_toNat_lt] using hc
  exact segs_append_lead u (by simp [isCont, UInt8.le_iff_toNat_le]; omega) v

theorem runes_append_ascii (u : Bytes) {c : UInt8} (hc : c < 0x80) (v : Bytes) :
    runes (u ++ c :: v) = runes u ++ c.toNat :: runes v := by
  simp [runes, segs_append_ascii u hc v, segs_ascii hc]

/-- ASCII strings decode byte by byte. -/
theorem segs_all_ascii {s : Bytes} (h : ∀ b ∈ s, b < 0x80) : segs s = s.map fun b => ⟨b.toNat, [b]⟩ := by
  induction s with
  | nil => exact segs_nil
  | cons b s ih =>
    simp only [List.mem_cons, forall_eq_or_imp] at h
    rw [segs_ascii h.1, ih h.2]; rfl

end Verif
