import Verif.Model.UrlDecode
import Verif.Spec.UrlEncoding
namespace Verif

/-- The rest of a text after '%' begins with two hex digits. -/
def startsHex : Bytes → Bool
  | a :: b :: _ => isHex a && isHex b
  | _ => false

/-- The rest of a text after '%' begins with `uHHHH`. -/
def startsUni : Bytes → Bool
  | a :: b :: d :: e :: f :: _ => (a == 117 || a == 85) && isHex b && isHex d && isHex e && isHex f
  | _ => false

theorem ud_nil (u : Bool) : urldecode u [] = ([], 0) := by simp [urldecode]

theorem ud_hex (u : Bool) {a b : UInt8} (r : Bytes) (ha : isHex a = true) (hb : isHex b = true) :
    urldecode u (37 :: a :: b :: r) = emit [(unHex a <<< 4) ||| unHex b] 0 (urldecode u r) := by
  rw [urldecode.eq_def]; simp [ha, hb]

theorem ud_bad (u : Bool) (r : Bytes) (h1 : startsHex r = false) (h2 : (u && startsUni r) = false) :
    urldecode u (37 :: r) = emit [37] 1 (urldecode u r) := by
  rw [urldecode.eq_def]
  rcases r with _ | ⟨a, _ | ⟨b, r⟩⟩
  · simp
  · simp
  · simp only [startsHex] at h1
    rcases r with _ | ⟨d, _ | ⟨e, _ | ⟨f, r⟩⟩⟩ <;> simp_all [startsUni] <;> grind

theorem ud_plus (u : Bool) (r : Bytes) : urldecode u (43 :: r) = emit [32] 0 (urldecode u r) := by
  rw [urldecode.eq_def]
  rcases r with _ | ⟨a, _ | ⟨b, r⟩⟩
  · simp
  · simp
  · rcases r with _ | ⟨d, _ | ⟨e, _ | ⟨f, r⟩⟩⟩ <;> simp

theorem ud_lit (u : Bool) {c : UInt8} (r : Bytes) (h1 : c ≠ 37) (h2 : c ≠ 43) :
    urldecode u (c :: r) = emit [c] 0 (urldecode u r) := by
  rw [urldecode.eq_def]
  rcases r with _ | ⟨a, _ | ⟨b, r⟩⟩
  · simp [h1, h2]
  · simp [h1, h2]
  · rcases r with _ | ⟨d, _ | ⟨e, _ | ⟨f, r⟩⟩⟩ <;> simp [h1, h2]

theorem isHex_117 : isHex 117 = false := by decide
theorem isHex_85 : isHex 85 = false := by decide

theorem ud_uni {a b d e f : UInt8} (r : Bytes) (h : startsUni (a :: b :: d :: e :: f :: r) = true) :
    urldecode true (37 :: a :: b :: d :: e :: f :: r) = emit (encodeRune (uniRune b d e f)) 0 (urldecode true r) := by
  simp only [startsUni, Bool.and_eq_true, Bool.or_eq_true, beq_iff_eq] at h
  rw [urldecode.eq_def]
  have ha : isHex a = false := by rcases h.1.1.1.1 with h | h <;> subst h <;> decide
  simp [ha, h]

/-- Case analysis on the first token of a text. -/
theorem ud_cases {P : Prop} (u : Bool) (s : Bytes)
    (nil : s = [] → P)
    (hex : ∀ a b r, s = 37 :: a :: b :: r → isHex a = true → isHex b = true → P)
    (uni : ∀ a b d e f r, s = 37 :: a :: b :: d :: e :: f :: r → u = true →
      startsUni (a :: b :: d :: e :: f :: r) = true → P)
    (bad : ∀ r, s = 37 :: r → startsHex r = false → (u && startsUni r) = false → P)
    (plus : ∀ r, s = 43 :: r → P)
    (lit : ∀ c r, s = c :: r → c ≠ 37 → c ≠ 43 → P) : P := by
  rcases s with _ | ⟨c, r⟩
  · exact nil rfl
  · by_cases h37 : c = 37
    · subst h37
      by_cases h1 : startsHex r = true
      · rcases r with _ | ⟨a, _ | ⟨b, r⟩⟩ <;> simp [startsHex] at h1
        exact hex a b r rfl h1.1 h1.2
      · by_cases h2 : (u && startsUni r) = true
        · have h3 := h2
          simp only [Bool.and_eq_true] at h3
          rcases r with _ | ⟨a, _ | ⟨b, _ | ⟨d, _ | ⟨e, _ | ⟨f, r⟩⟩⟩⟩⟩ <;>
            first
              | exact uni a b d e f r rfl h3.1 h3.2
              | exact absurd h3.2 (by simp [startsUni])
        · exact bad r rfl (by simpa using h1) (by simpa using h2)
    · by_cases h43 : c = 43
      · subst h43; exact plus r rfl
      · exact lit c r rfl h37 h43

theorem isHex_iff (c : UInt8) : isHex c = true ↔ Spec.IsHexDigit c := by
  constructor
  · revert c
    have h : ∀ n : Fin 256, isHex (UInt8.ofNat n.val) = true →
        ∃ v : Fin 16, (v.val < 10 ∧ (UInt8.ofNat n.val).toNat = 48 + v.val) ∨
          (10 ≤ v.val ∧ v.val < 16 ∧ ((UInt8.ofNat n.val).toNat = 65 + (v.val - 10) ∨ (UInt8.ofNat n.val).toNat = 97 + (v.val - 10))) := by
      decide +kernel
    refine forall_u8 (fun n hn => ?_)
    obtain ⟨v, hv⟩ := h n hn
    exact ⟨v.val, hv⟩
  · rintro ⟨v, hv⟩
    simp only [isHex, UInt8.le_iff_toNat_le]
    rcases hv with ⟨h1, h2⟩ | ⟨h1, h2, h3 | h3⟩ <;> simp_all <;> omega

theorem unHex_eq {c : UInt8} {v : Nat} (h : Spec.HexVal c v) : (unHex c).toNat = v := by
  simp only [unHex, UInt8.le_iff_toNat_le]
  rcases h with ⟨h1, h2⟩ | ⟨h1, h2, h3 | h3⟩
  · rw [if_pos (by simp; omega), UInt8.toNat_sub_of_le _ _ (by simp [UInt8.le_iff_toNat_le]; omega)]; simp; omega
  · rw [if_neg (by simp; omega), if_neg (by simp; omega), if_pos (by simp; omega)]
    rw [UInt8.toNat_add, UInt8.toNat_sub_of_le _ _ (by simp [UInt8.le_iff_toNat_le]; omega)]; simp; omega
  · rw [if_neg (by simp; omega), if_pos (by simp; omega)]
    rw [UInt8.toNat_add, UInt8.toNat_sub_of_le _ _ (by simp [UInt8.le_iff_toNat_le]; omega)]; simp; omega

theorem unHex_lt (c : UInt8) : (unHex c).toNat < 16 := by
  revert c; exact forall_u8 (by decide +kernel)

theorem nibbles (x y : UInt8) (hx : x.toNat < 16) (hy : y.toNat < 16) :
    ((x <<< 4) ||| y).toNat = 16 * x.toNat + y.toNat := by
  have key : ∀ a b : Fin 16, (((UInt8.ofNat a.val) <<< 4) ||| UInt8.ofNat b.val).toNat = 16 * a.val + b.val := by
    decide +kernel
  have := key ⟨x.toNat, hx⟩ ⟨y.toNat, hy⟩
  simpa using this

theorem encodeRune_length (r : Rune) : (encodeRune r).length ≤ 4 := by
  unfold encodeRune; repeat' split
  all_goals simp

/-- Lean's own UTF-8 encoder agrees with the model's on scalar values. -/
theorem encodeRune_utf8 (n : Nat) (h : n.isValidChar) : encodeRune n = String.utf8EncodeChar (Char.ofNat n) := by
  have hv : (Char.ofNat n).val.toNat = n := by
    simp [Char.ofNat, dif_pos h, Char.ofNatAux]
  have h' : n < 0xd800 ∨ (0xdfff < n ∧ n < 0x110000) := h
  simp only [encodeRune, String.utf8EncodeChar, hv]
  by_cases h1 : n ≤ 0x7F
  · simp [h1]
  · by_cases h2 : n ≤ 0x7FF
    · simp only [h1, h2, if_true, if_false]
      rw [show n / 64 % 32 = n / 64 by omega, Nat.add_comm, Nat.add_comm 128]
    · have h3 : ¬ (n > 0x10FFFF ∨ (0xD800 ≤ n ∧ n ≤ 0xDFFF)) := by omega
      by_cases h4 : n ≤ 0xFFFF
      · simp only [h1, h2, h3, h4, if_true, if_false]
        rw [show n / 4096 % 16 = n / 4096 by omega, Nat.add_comm 224, Nat.add_comm 128, Nat.add_comm 128]
      · simp only [h1, h2, h3, h4, if_false]
        rw [show n / 262144 % 8 = n / 262144 by omega, Nat.add_comm 240, Nat.add_comm 128, Nat.add_comm 128,
          Nat.add_comm 128]

open Classical in
/-- Counting malformed escapes from the left. -/
theorem malformedCount_cons (c : UInt8) (r : Bytes) :
    Spec.malformedCount (c :: r) =
      (if c = 37 ∧ ¬ Spec.WellFormedEscape (c :: r) then 1 else 0) + Spec.malformedCount r := by
  have h0 : (fun i => decide (Spec.MalformedAt (c :: r) i)) ∘ Nat.succ = fun i => decide (Spec.MalformedAt r i) := by
    funext i; exact decide_eq_decide.2 (by simp [Spec.MalformedAt])
  have h1 : Spec.MalformedAt (c :: r) 0 ↔ c = 37 ∧ ¬ Spec.WellFormedEscape (c :: r) := by
    simp [Spec.MalformedAt]
  simp only [Spec.malformedCount, List.length_cons, List.range_succ_eq_map, List.filter_cons,
    List.filter_map, h0, h1, decide_eq_true_eq]
  split <;> simp <;> omega

end Verif
