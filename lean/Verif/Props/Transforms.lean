import Verif.Proofs.Transforms
/-! C06-C08: transformations on single values (modsecurity/transforms). -/
namespace Verif
open Spec

/-- C06: on ASCII exactly the capital letters change, each by +32, in place. -/
theorem C06_lowercase_pointwise (hi : Rune → Rune) (s : Bytes) (h : Ascii s) :
    (transLowercase hi s).length = s.length ∧
    ∀ (i : Nat) (b : UInt8), s[i]? = some b → ∃ c : UInt8, (transLowercase hi s)[i]? = some c ∧
      c.toNat = if 65 ≤ b.toNat ∧ b.toNat ≤ 90 then b.toNat + 32 else b.toNat := by
  rw [lower_ascii hi h]
  refine ⟨by simp, fun i b hb => ⟨lowerByte b, by simp [hb], lower_byte_toNat b⟩⟩

/-- C06: applying it twice is the same as once. -/
theorem C06_idempotent (hi : Rune → Rune) (s : Bytes) (h : Ascii s) :
    transLowercase hi (transLowercase hi s) = transLowercase hi s := by
  have h2 : Ascii (transLowercase hi s) := by
    rw [lower_ascii hi h]
    intro b hb
    obtain ⟨a, ha, rfl⟩ := List.mem_map.1 hb
    have := h a ha
    rw [lower_byte_toNat]; split <;> omega
  rw [lower_ascii hi h2, lower_ascii hi h, List.map_map]
  apply List.map_congr_left
  intro b _
  apply UInt8.toNat_inj.1
  simp only [Function.comp, lower_byte_toNat]
  by_cases h : 65 ≤ b.toNat ∧ b.toNat ≤ 90 <;> simp only [h, and_self, if_true, if_false] <;> (try split) <;> omega

/-- C06: inputs that differ only in letter case have the same image. -/
theorem C06_case_insensitive (hi : Rune → Rune) (s t : Bytes) (hs : Ascii s) (ht : Ascii t)
    (hlen : s.length = t.length)
    (h : ∀ (i : Nat) (a b : UInt8), s[i]? = some a → t[i]? = some b → CaseEq a b) :
    transLowercase hi s = transLowercase hi t := by
  rw [lower_ascii hi hs, lower_ascii hi ht]
  apply List.ext_getElem (by simpa using hlen)
  intro i h1 h2
  simp only [List.getElem_map]
  have := h i (s[i]'(by simpa using h1)) (t[i]'(by simpa using h2)) (by simp) (by simp)
  apply UInt8.toNat_inj.1
  rw [lower_byte_toNat, lower_byte_toNat]
  rcases this with h | h | h
  · rw [h]
  · split <;> split <;> omega
  · split <;> split <;> omega

example : Ascii b!"SeLeCt 1" ∧ transLowercase id b!"SeLeCt 1" = b!"select 1" := by
  constructor
  · unfold Ascii; decide
  · decide

/-- C07: on valid UTF-8 exactly the spaces are deleted. -/
theorem C07_removeWhitespace (s : Bytes) (h : ValidUtf8 s) : transRemoveWhitespace s = s.filter (· ≠ 32) := by
  rw [transRemoveWhitespace, stringsMap_eq, delete_eq (by omega)]
  show List.filter _ (sanitize s) = _
  rw [sanitize_valid h]; rfl

/-- C07: on valid UTF-8 exactly the NULs are deleted. -/
theorem C07_removeNulls (s : Bytes) (h : ValidUtf8 s) : transRemoveNulls s = s.filter (· ≠ 0) := by
  rw [transRemoveNulls, stringsMap_eq, delete_eq (by omega)]
  show List.filter _ (sanitize s) = _
  rw [sanitize_valid h]; rfl

/-- C07: on valid UTF-8 exactly the NULs become spaces. -/
theorem C07_replaceNulls (s : Bytes) (h : ValidUtf8 s) :
    transReplaceNulls s = s.map (fun b => if b = 0 then 32 else b) := by
  rw [transReplaceNulls, stringsMap_eq, replace_eq (by omega) (by omega)]
  show List.map _ (sanitize s) = _
  rw [sanitize_valid h]; rfl

/-- C07: on any bytes the target never survives. -/
theorem C07_absent (s : Bytes) :
    32 ∉ transRemoveWhitespace s ∧ 0 ∉ transRemoveNulls s ∧ 0 ∉ transReplaceNulls s := by
  refine ⟨?_, ?_, ?_⟩
  · rw [transRemoveWhitespace, stringsMap_eq, delete_eq (by omega)]; simp
  · rw [transRemoveNulls, stringsMap_eq, delete_eq (by omega)]; simp
  · rw [transReplaceNulls, stringsMap_eq, replace_eq (by omega) (by omega)]
    intro hc
    obtain ⟨b, _, hb⟩ := List.mem_map.1 hc
    split at hb
    · exact absurd hb (by decide)
    · rename_i h; exact h hb

/-- C07: on any bytes each is idempotent. -/
theorem C07_idempotent (s : Bytes) :
    transRemoveWhitespace (transRemoveWhitespace s) = transRemoveWhitespace s ∧
    transRemoveNulls (transRemoveNulls s) = transRemoveNulls s ∧
    transReplaceNulls (transReplaceNulls s) = transReplaceNulls s := by
  have del : ∀ k, ∀ r ∈ (runes s).filterMap (replaceRune k none), r.isValidChar := by
    intro k r hr
    obtain ⟨a, ha, h⟩ := List.mem_filterMap.1 hr
    simp only [replaceRune] at h
    split at h <;> simp at h
    subst h; exact runes_valid s a ha
  have rep : ∀ r ∈ (runes s).filterMap (replaceRune 0 (some 32)), r.isValidChar := by
    intro r hr
    obtain ⟨a, ha, h⟩ := List.mem_filterMap.1 hr
    simp only [replaceRune] at h
    split at h <;> simp at h
    · subst h; decide
    · subst h; exact runes_valid s a ha
  have vd : ∀ k, ValidUtf8 (stringsMap (replaceRune k none) s) := fun k => by
    rw [stringsMap_eq]; exact (valid_iff _).2 ⟨_, del k, rfl⟩
  have vr : ValidUtf8 (stringsMap (replaceRune 0 (some 32)) s) := by
    rw [stringsMap_eq]; exact (valid_iff _).2 ⟨_, rep, rfl⟩
  obtain ⟨a1, a2, a3⟩ := C07_absent s
  refine ⟨?_, ?_, ?_⟩
  · rw [C07_removeWhitespace (transRemoveWhitespace s) (vd 32)]
    exact List.filter_eq_self.2 fun b hb => decide_eq_true fun h => a1 (h ▸ hb)
  · rw [C07_removeNulls (transRemoveNulls s) (vd 0)]
    exact List.filter_eq_self.2 fun b hb => decide_eq_true fun h => a2 (h ▸ hb)
  · rw [C07_replaceNulls (transReplaceNulls s) vr]
    conv => rhs; rw [← List.map_id (transReplaceNulls s)]
    apply List.map_congr_left
    intro b hb
    have : b ≠ 0 := fun h => a3 (h ▸ hb)
    simp [this]

example : ValidUtf8 b!"a 你\x00" := ⟨['a', ' ', '你', '\x00'], by decide⟩
example : transReplaceNulls b!"a 你\x00" = b!"a 你 " ∧ transRemoveWhitespace (255 :: b!" x") = b!"�x" := by decide

/-- C08: on any bytes the output has no two adjacent spaces. -/
theorem C08_no_double_space (s : Bytes) : ¬ DoubleSpace (transCompressWhitespace s) := by
  rw [compress_eq]; exact squeeze_single _ _

/-- C08: a run of spaces counts as a single one. -/
theorem C08_run_collapses (u v : Bytes) (k : Nat) :
    transCompressWhitespace (u ++ List.replicate (k + 1) 32 ++ v) = transCompressWhitespace (u ++ 32 :: v) := by
  induction k with
  | zero => simp
  | succ k ih =>
    rw [← ih, List.replicate_succ, List.replicate_succ]
    simp only [List.append_assoc, List.cons_append]
    rw [compress_eq, compress_eq, sanitize_space, sanitize_space,
      show (32 :: (List.replicate k 32 ++ v)) = [] ++ 32 :: (List.replicate k 32 ++ v) from rfl, sanitize_space]
    exact squeeze_run _ _ _

/-- C08: valid UTF-8 without adjacent spaces is unchanged. -/
theorem C08_single_spaces_unchanged (s : Bytes) (h : ValidUtf8 s) (hd : ¬ DoubleSpace s) :
    transCompressWhitespace s = s := by
  rw [compress_eq, sanitize_valid h, (squeeze_fixed hd).1]

/-- C08: in valid UTF-8 the other bytes are kept, in order. -/
theorem C08_other_bytes_kept (s : Bytes) (h : ValidUtf8 s) :
    (transCompressWhitespace s).filter (· ≠ 32) = s.filter (· ≠ 32) := by
  rw [compress_eq, sanitize_valid h, squeeze_filter]

/-- C08: on any bytes it is idempotent. -/
theorem C08_idempotent (s : Bytes) :
    transCompressWhitespace (transCompressWhitespace s) = transCompressWhitespace s :=
  C08_single_spaces_unchanged _ (valid_compress s) (C08_no_double_space s)

example : transCompressWhitespace b!"  a   é \t  b" = b!" a é \t b" := by decide
example : DoubleSpace b!"a  b" := ⟨b!"a", b!"b", rfl⟩

end Verif
