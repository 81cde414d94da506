import Verif.Props.UrlDecode
import Verif.Props.Transforms
import Verif.Props.Match
/-! C01, C03, C04, C06-C08 for the transformations as rules have them; C06 for any bytes. -/
namespace Verif
open Spec

theorem toLower_runes (hi : Rune → Rune) (s : Bytes) : toLower hi s = (runes s).flatMap fun r => encodeRune (lowerRune hi r) := by
  have key : stringsMap (fun r => some (lowerRune hi r)) s = (runes s).flatMap fun r => encodeRune (lowerRune hi r) := by
    rw [stringsMap_eq]
    induction runes s with
    | nil => rfl
    | cons r rs ih => simp only [List.filterMap_cons, List.flatMap_cons, ih]
  unfold toLower
  split
  · next h0 =>
    have h : ∀ b ∈ s, b < 0x80 := by simpa [List.all_eq_true] using h0
    rw [runes, segs_all_ascii h]
    clear key
    clear h0
    induction s with
    | nil => rfl
    | cons b s ih =>
      simp only [List.mem_cons, forall_eq_or_imp] at h
      simp only [List.map_cons, List.flatMap_cons]
      rw [ih h.2]
      have hb : b.toNat < 128 := by simpa [UInt8.lt_iff_toNat_lt] using h.1
      have hl : lowerRune hi b.toNat = (lowerByte b).toNat := by
        rw [lower_byte_toNat, lowerRune, if_pos hb]
      have hlt : (lowerByte b).toNat ≤ 0x7F := by
        rw [lower_byte_toNat]; split <;> omega
      rw [hl, encodeRune, if_pos hlt]
      simp
  · exact key

/-- C06: an ASCII character, wherever it stands and whatever bytes surround it, is lowered by
itself. -/
theorem C06_anywhere (hi : Rune → Rune) (u v : Bytes) {b : UInt8} (hb : b.toNat < 128) :
    ∃ c : UInt8, transLowercase hi (u ++ b :: v) = transLowercase hi u ++ c :: transLowercase hi v ∧
      c.toNat = if 65 ≤ b.toNat ∧ b.toNat ≤ 90 then b.toNat + 32 else b.toNat := by
  have h : b < 0x80 := by simpa [UInt8.lt_iff_toNat_lt] using hb
  have hlt : lowerRune hi b.toNat ≤ 0x7F := by
    rw [lowerRune, if_pos hb]
    have : (if 65 ≤ b.toNat ∧ b.toNat ≤ 90 then b.toNat + 32 else b.toNat) ≤ 0x7F := by split <;> omega
    exact this
  have hlt' : (lowerRune hi b.toNat : Nat) < 256 := Nat.lt_of_le_of_lt hlt (by decide)
  refine ⟨UInt8.ofNat (lowerRune hi b.toNat), ?_, ?_⟩
  · simp only [transLowercase, toLower_runes, runes_append_ascii u h v, List.flatMap_append, List.flatMap_cons]
    rw [encodeRune, if_pos hlt]
    rfl
  · rw [u8_toNat_ofNat hlt', lowerRune, if_pos hb]

/-- C06: on any bytes, the case of ASCII letters makes no difference. -/
theorem C06_case_insensitive_any (hi : Rune → Rune) (s t : Bytes) (hlen : s.length = t.length)
    (h : ∀ (i : Nat) (a b : UInt8), s[i]? = some a → t[i]? = some b → CaseEq a b) : transLowercase hi s = transLowercase hi t := by
  suffices ∀ p : Bytes, transLowercase hi (p ++ s) = transLowercase hi (p ++ t) from this []
  induction s generalizing t with
  | nil =>
    cases t with
    | nil => intro p; rfl
    | cons => simp at hlen
  | cons a s ih =>
    cases t with
    | nil => simp at hlen
    | cons b t =>
      intro p
      have ih := ih t (by simpa using hlen) (fun i a b ha hb => h (i + 1) a b (by simpa using ha) (by simpa using hb))
      have hab : CaseEq a b := h 0 a b rfl rfl
      by_cases e : a = b
      · subst e
        have := ih (p ++ [a])
        simpa using this
      · have hn : a.toNat < 128 ∧ b.toNat < 128 := by
          rcases hab with h | h | h
          · exact absurd h e
          · omega
          · omega
        obtain ⟨c, h1, h2⟩ := C06_anywhere hi p s hn.1
        obtain ⟨d, h3, h4⟩ := C06_anywhere hi p t hn.2
        have : c = d := by
          apply UInt8.toNat_inj.1
          rw [h2, h4]
          rcases hab with h | h | h
          · exact absurd h e
          · split <;> split <;> omega
          · split <;> split <;> omega
        rw [h1, h3, this, show transLowercase hi s = transLowercase hi t from ih []]

example : transLowercase (fun r => if r = 0xC9 then 0xE9 else r) (b!"ÉTZ" ++ [0xFF, 90]) = b!"étz�z" := by decide +kernel

/-! ### In rules -/

section
variable (lib : Lib) (t : Tx)

/-- C01: `t:urlDecode` and `t:urlDecodeUni` undo percent-encoding. -/
theorem C01_in_rules {enc raw : Bytes} (h : Encodes enc raw) :
    Trans.run lib t .urlDecode enc = raw ∧ (¬ HasPercentU enc → Trans.run lib t .urlDecodeUni enc = raw) := by
  have e := C01_decode_inverts_encoding h
  refine ⟨?_, fun hu => ?_⟩
  · show (urlDecode enc).1 = raw
    rw [e]
  · show (urlDecodeUni enc).1 = raw
    rw [C04_agrees_without_percent_u _ hu, e]

/-- C03: `t:urlDecode` leaves a malformed '%' and decodes what follows as on its own, errors or
not. -/
theorem C03_in_rules (r : Bytes) (h : ¬ WellFormedEscape (37 :: r)) :
    Trans.run lib t .urlDecode (37 :: r) = 37 :: Trans.run lib t .urlDecode r := by
  show (urlDecode (37 :: r)).1 = 37 :: (urlDecode r).1
  rw [C03_malformed_kept r h]

/-- C04: so it is with `%u`, errors or not in what follows. -/
theorem C04_in_rules {u h0 h1 h2 h3 : UInt8} {v0 v1 v2 v3 : Nat} (hu : u = 117 ∨ u = 85)
    (e0 : HexVal h0 v0) (e1 : HexVal h1 v1) (e2 : HexVal h2 v2) (e3 : HexVal h3 v3) (hff : ¬ (v0 = 15 ∧ v1 = 15)) (r : Bytes) :
    Trans.run lib t .urlDecodeUni (37 :: u :: h0 :: h1 :: h2 :: h3 :: r) =
      utf8 (4096 * v0 + 256 * v1 + 16 * v2 + v3) ++ Trans.run lib t .urlDecodeUni r := by
  show (urlDecodeUni _).1 = _ ++ (urlDecodeUni r).1
  rw [C04_uni_escape hu e0 e1 e2 e3 hff r]

/-- C04: without `%u`, `t:urlDecodeUni` is `t:urlDecode`. -/
theorem C04_in_rules_plain (s : Bytes) (h : ¬ HasPercentU s) : Trans.run lib t .urlDecodeUni s = Trans.run lib t .urlDecode s := by
  show (urlDecodeUni s).1 = (urlDecode s).1
  rw [C04_agrees_without_percent_u s h]

/-- C06: so it is with `t:lowercase`. -/
theorem C06_in_rules (u v : Bytes) {b : UInt8} (hb : b.toNat < 128) :
    ∃ c : UInt8, Trans.run lib t .lowercase (u ++ b :: v) = Trans.run lib t .lowercase u ++ c :: Trans.run lib t .lowercase v ∧
      c.toNat = if 65 ≤ b.toNat ∧ b.toNat ≤ 90 then b.toNat + 32 else b.toNat :=
  C06_anywhere lib.lowerHi u v hb

/-- C07: so it is with `t:removeWhitespace`, `t:removeNulls` and `t:replaceNulls`. -/
theorem C07_in_rules (s : Bytes) (h : ValidUtf8 s) :
    Trans.run lib t .removeWhitespace s = s.filter (· ≠ 32) ∧ Trans.run lib t .removeNulls s = s.filter (· ≠ 0) ∧
      Trans.run lib t .replaceNulls s = s.map (fun b => if b = 0 then 32 else b) :=
  ⟨C07_removeWhitespace s h, C07_removeNulls s h, C07_replaceNulls s h⟩

/-- C08: so it is with `t:compressWhitespace`. -/
theorem C08_in_rules (s u v : Bytes) (k : Nat) : ¬ DoubleSpace (Trans.run lib t .compressWhitespace s) ∧
    Trans.run lib t .compressWhitespace (u ++ List.replicate (k + 1) 32 ++ v) = Trans.run lib t .compressWhitespace (u ++ 32 :: v) ∧
    (ValidUtf8 s → (Trans.run lib t .compressWhitespace s).filter (· ≠ 32) = s.filter (· ≠ 32)) :=
  ⟨C08_no_double_space s, C08_run_collapses u v k, C08_other_bytes_kept s⟩

end

example (lib : Lib) (t : Tx) : Trans.run lib t .urlDecodeUni b!"%u4F60%zz+%u00e9" = b!"你%zz é" := by
  show transUrlDecodeUni _ = _
  decide +kernel

end Verif
