import Verif.Model.Transforms
import Verif.Proofs.Utf8
import Verif.Spec.Text
namespace Verif
open Spec

theorem char_valid (c : Char) : c.toNat.isValidChar := c.valid

theorem encodeRune_char (c : Char) : encodeRune c.toNat = String.utf8EncodeChar c := by
  rw [encodeRune_utf8 _ (char_valid c), Char.ofNat_toNat]

/-- Valid UTF-8 is the encoding of a list of scalar values. -/
theorem valid_iff (s : Bytes) :
    ValidUtf8 s ↔ ∃ rs : List Nat, (∀ r ∈ rs, r.isValidChar) ∧ s = rs.flatMap encodeRune := by
  constructor
  · rintro ⟨cs, rfl⟩
    refine ⟨cs.map Char.toNat, ?_, ?_⟩
    · intro r hr
      obtain ⟨c, _, rfl⟩ := List.mem_map.1 hr
      exact char_valid c
    · rw [List.flatMap_map]
      simp only [encodeRune_char]
  · rintro ⟨rs, h, rfl⟩
    refine ⟨rs.map Char.ofNat, ?_⟩
    rw [List.flatMap_map]
    induction rs with
    | nil => rfl
    | cons r rs ih =>
      simp only [List.mem_cons, forall_eq_or_imp] at h
      rw [List.flatMap_cons, List.flatMap_cons, ih h.2, encodeRune_utf8 _ h.1]

/-- The string with invalid bytes replaced by U+FFFD. -/
def sanitize (s : Bytes) : Bytes := (runes s).flatMap encodeRune

theorem sanitize_valid {s : Bytes} (h : ValidUtf8 s) : sanitize s = s := by
  obtain ⟨rs, hv, rfl⟩ := (valid_iff s).1 h
  rw [sanitize, runes_encode hv]

theorem valid_sanitize (s : Bytes) : ValidUtf8 (sanitize s) := (valid_iff _).2 ⟨_, runes_valid s, rfl⟩

theorem encodeRune_ne {r : Nat} {k : Nat} (hk : k < 128) (h : r ≠ k) : ∀ b ∈ encodeRune r, b ≠ UInt8.ofNat k := by
  intro b hb hbk
  by_cases hr : r < 0x80
  · rw [encodeRune_ascii hr] at hb
    simp only [List.mem_cons, List.not_mem_nil, or_false] at hb
    have := congrArg UInt8.toNat (hb.symm.trans hbk)
    rw [u8_toNat_ofNat (by omega), u8_toNat_ofNat (by omega)] at this
    exact h this
  · have := encodeRune_hi (by omega) b hb
    rw [hbk, u8_toNat_ofNat (by omega)] at this
    omega

theorem delete_eq {k : Nat} (hk : k < 128) (rs : List Nat) :
    (rs.filterMap (replaceRune k none)).flatMap encodeRune =
      (rs.flatMap encodeRune).filter (fun b => b ≠ UInt8.ofNat k) := by
  induction rs with
  | nil => rfl
  | cons r rs ih =>
    rw [List.flatMap_cons, List.filter_append, ← ih, List.filterMap_cons]
    by_cases h : r = k
    · subst h
      rw [encodeRune_ascii (by omega)]
      simp [replaceRune]
    · have : (encodeRune r).filter (fun b => decide (b ≠ UInt8.ofNat k)) = encodeRune r :=
        List.filter_eq_self.2 fun b hb => decide_eq_true (encodeRune_ne hk h b hb)
      rw [this]
      simp [replaceRune, h]

theorem replace_eq {k j : Nat} (hk : k < 128) (hj : j < 128) (rs : List Nat) :
    (rs.filterMap (replaceRune k (some j))).flatMap encodeRune =
      (rs.flatMap encodeRune).map (fun b => if b = UInt8.ofNat k then UInt8.ofNat j else b) := by
  induction rs with
  | nil => rfl
  | cons r rs ih =>
    rw [List.flatMap_cons, List.map_append, ← ih, List.filterMap_cons]
    by_cases h : r = k
    · subst h
      rw [encodeRune_ascii (show r < 128 by omega)]
      simp [replaceRune, encodeRune_ascii (show j < 128 from hj)]
    · have : (encodeRune r).map (fun b => if b = UInt8.ofNat k then UInt8.ofNat j else b) = encodeRune r := by
        rw [show encodeRune r = (encodeRune r).map id by simp]
        simp only [List.map_map]
        apply List.map_congr_left
        intro b hb
        simp [encodeRune_ne hk h b (by simpa using hb)]
      rw [this]
      simp [replaceRune, h]

/-- `compressWhitespace` on bytes. -/
def squeeze : Bool → Bytes → Bytes
  | _, [] => []
  | p, b :: r => if b = 32 then (if p then squeeze p r else b :: squeeze true r) else b :: squeeze false r

theorem squeeze_other {l : Bytes} (hl : l ≠ []) (h : ∀ b ∈ l, b ≠ 32) (p : Bool) (t : Bytes) :
    squeeze p (l ++ t) = l ++ squeeze false t := by
  induction l generalizing p with
  | nil => exact absurd rfl hl
  | cons b l ih =>
    simp only [List.mem_cons, forall_eq_or_imp] at h
    simp only [List.cons_append, squeeze, h.1, if_false, List.cons.injEq, true_and]
    rcases l with _ | ⟨c, l⟩
    · rfl
    · exact ih (by simp) h.2 false

theorem encodeRune_ne_nil (r : Nat) : encodeRune r ≠ [] := by
  simp only [encodeRune]; split <;> (try split) <;> (try split) <;> (try split) <;> simp

theorem compress_sanitize (p : Bool) (cs : List Seg) :
    stringsMapState compressStep p cs = squeeze p ((cs.map Seg.rune).flatMap encodeRune) := by
  induction cs generalizing p with
  | nil => rfl
  | cons c cs ih =>
    simp only [stringsMapState, List.map_cons, List.flatMap_cons]
    by_cases h : c.rune = 32
    · rw [h, encodeRune_ascii (r := 32) (by decide)]
      cases p <;> simp [compressStep, squeeze, ih, encodeRune_ascii (r := 32) (by decide)]
    · rw [squeeze_other (encodeRune_ne_nil _) (encodeRune_ne (k := 32) (by decide) h)]
      simp [compressStep, h, ih]

theorem compress_eq (s : Bytes) : transCompressWhitespace s = squeeze false (sanitize s) :=
  compress_sanitize false (segs s)

theorem squeeze_true_head (l : Bytes) : (squeeze true l).head? ≠ some 32 := by
  induction l with
  | nil => simp [squeeze]
  | cons b r ih =>
    simp only [squeeze]
    split
    · simpa using ih
    · simpa using by assumption

theorem doubleSpace_cons (b : UInt8) (r : Bytes) : DoubleSpace (b :: r) ↔ (b = 32 ∧ r.head? = some 32) ∨ DoubleSpace r := by
  constructor
  · rintro ⟨u, v, h⟩
    rcases u with _ | ⟨u0, u⟩
    · left
      simp only [List.nil_append, List.cons.injEq] at h
      exact ⟨h.1, by rw [h.2]; rfl⟩
    · right
      simp only [List.cons_append, List.cons.injEq] at h
      exact ⟨u, v, h.2⟩
  · rintro (⟨rfl, h⟩ | ⟨u, v, rfl⟩)
    · rcases r with _ | ⟨c, r⟩
      · simp at h
      · simp at h; subst h; exact ⟨[], r, rfl⟩
    · exact ⟨b :: u, v, rfl⟩

theorem squeeze_single (p : Bool) (l : Bytes) : ¬ DoubleSpace (squeeze p l) := by
  induction l generalizing p with
  | nil => rintro ⟨u, v, h⟩; simp [squeeze] at h
  | cons b r ih =>
    simp only [squeeze]
    split
    · split
      · exact ih p
      · rw [doubleSpace_cons]
        rintro (⟨_, h⟩ | h)
        · exact squeeze_true_head r h
        · exact ih _ h
    · rename_i hb
      rw [doubleSpace_cons]
      rintro (⟨h, _⟩ | h)
      · exact hb h
      · exact ih _ h

theorem squeeze_fixed {l : Bytes} (h : ¬ DoubleSpace l) :
    squeeze false l = l ∧ (l.head? ≠ some 32 → squeeze true l = l) := by
  induction l with
  | nil => simp [squeeze]
  | cons b r ih =>
    rw [doubleSpace_cons] at h
    simp only [not_or, not_and] at h
    obtain ⟨i1, i2⟩ := ih h.2
    simp only [squeeze]
    by_cases hb : b = 32
    · simp only [hb, if_true, Bool.false_eq_true, if_false, i2 (h.1 hb)]
      simp
    · simp [hb, i1]

theorem squeeze_filter (p : Bool) (l : Bytes) : (squeeze p l).filter (· ≠ 32) = l.filter (· ≠ 32) := by
  induction l generalizing p with
  | nil => rfl
  | cons b r ih =>
    simp only [squeeze]
    split
    · rename_i hb
      subst hb
      split
      · rw [ih]; simp
      · rw [List.filter_cons, ih]; simp
    · rename_i hb
      rw [List.filter_cons, ih, List.filter_cons]

theorem squeeze_run (p : Bool) (u v : Bytes) : squeeze p (u ++ 32 :: 32 :: v) = squeeze p (u ++ 32 :: v) := by
  induction u generalizing p with
  | nil => cases p <;> simp [squeeze]
  | cons b u ih =>
    simp only [List.cons_append, squeeze]
    split
    · split
      · exact ih _
      · rw [ih]
    · rw [ih]

theorem sanitize_space (u v : Bytes) : sanitize (u ++ 32 :: v) = sanitize u ++ 32 :: sanitize v := by
  simp only [sanitize]
  rw [runes_append_ascii u (by decide)]
  simp [encodeRune_ascii]

theorem valid_compress (s : Bytes) : ValidUtf8 (transCompressWhitespace s) := by
  have : ∀ (cs : List Seg) (p : Bool), (∀ c ∈ cs, c.rune.isValidChar) →
      ∃ rs : List Nat, (∀ r ∈ rs, r.isValidChar) ∧ stringsMapState compressStep p cs = rs.flatMap encodeRune := by
    intro cs
    induction cs with
    | nil => intro p _; exact ⟨[], by simp, rfl⟩
    | cons c cs ih =>
      intro p h
      simp only [List.mem_cons, forall_eq_or_imp] at h
      simp only [stringsMapState]
      obtain ⟨rs, hv, he⟩ := ih (compressStep p c.rune).1 h.2
      rw [he]
      have hc : (compressStep p c.rune).2 = none ∨ (compressStep p c.rune).2 = some c.rune := by
        simp only [compressStep]; split <;> (try split) <;> simp
      rcases hc with hc | hc <;> rw [hc]
      · exact ⟨rs, hv, rfl⟩
      · refine ⟨c.rune :: rs, ?_, rfl⟩
        simpa using ⟨h.1, hv⟩
  refine (valid_iff _).2 (this (segs s) false fun c hc => runes_valid s _ (List.mem_map_of_mem hc))

theorem lower_byte_toNat (b : UInt8) :
    (lowerByte b).toNat = if 65 ≤ b.toNat ∧ b.toNat ≤ 90 then b.toNat + 32 else b.toNat := by
  revert b
  apply forall_u8
  decide +kernel

theorem lower_ascii (hi : Rune → Rune) {s : Bytes} (h : Ascii s) : transLowercase hi s = s.map lowerByte := by
  simp only [transLowercase, toLower]
  rw [if_pos]
  simp only [List.all_eq_true, decide_eq_true_eq, UInt8.lt_iff_toNat_lt]
  exact fun b hb => by simpa using h b hb

end Verif
