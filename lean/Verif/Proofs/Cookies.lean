import Verif.Model.Variables
import Verif.Proofs.Trim
import Verif.Proofs.Filter
/-! Splitting Cookie header lines. -/
namespace Verif
open Spec

theorem splitByte_ne_nil (sep : UInt8) (s : Bytes) : splitByte sep s ≠ [] := by
  cases s with
  | nil => simp [splitByte]
  | cons b r =>
    simp only [splitByte]
    split
    · simp
    · split <;> simp

theorem splitByte_cons_ne {sep b : UInt8} (h : b ≠ sep) (s : Bytes) : ∃ w ws, splitByte sep s = w :: ws ∧
    splitByte sep (b :: s) = (b :: w) :: ws := by
  cases hs : splitByte sep s with
  | nil => exact absurd hs (splitByte_ne_nil sep s)
  | cons w ws => exact ⟨w, ws, rfl, by simp only [splitByte, h, if_false, hs]⟩

theorem splitByte_append {sep : UInt8} {l : Bytes} (h : sep ∉ l) (s : Bytes) : ∃ w ws, splitByte sep s = w :: ws ∧
    splitByte sep (l ++ s) = (l ++ w) :: ws := by
  induction l with
  | nil =>
    cases hs : splitByte sep s with
    | nil => exact absurd hs (splitByte_ne_nil sep s)
    | cons w ws => exact ⟨w, ws, rfl, hs⟩
  | cons b l ih =>
    simp only [List.mem_cons, not_or] at h
    obtain ⟨w, ws, h1, h2⟩ := ih h.2
    obtain ⟨w', ws', h3, h4⟩ := splitByte_cons_ne (fun e => h.1 e.symm) (l ++ s)
    rw [h2] at h3
    simp only [List.cons.injEq] at h3
    obtain ⟨rfl, rfl⟩ := h3
    exact ⟨w, ws, h1, h4⟩

theorem splitByte_sep {sep : UInt8} {p : Bytes} (h : sep ∉ p) (s : Bytes) :
    splitByte sep (p ++ sep :: s) = p :: splitByte sep s := by
  obtain ⟨w, ws, h1, h2⟩ := splitByte_append h (sep :: s)
  simp only [splitByte, if_true, List.cons.injEq] at h1
  obtain ⟨rfl, rfl⟩ := h1
  rw [h2, List.append_nil]

theorem splitByte_one {sep : UInt8} {p : Bytes} (h : sep ∉ p) : splitByte sep p = [p] := by
  obtain ⟨w, ws, h1, h2⟩ := splitByte_append h []
  simp only [splitByte, List.cons.injEq] at h1
  obtain ⟨rfl, rfl⟩ := h1
  simpa using h2

/-- Text split at every separator: the last piece separately. -/
theorem splitByte_last (sep : UInt8) (s : Bytes) {r : Bytes} (h : sep ∉ r) : ∃ ws w, splitByte sep s = ws ++ [w] ∧
    splitByte sep (s ++ r) = ws ++ [w ++ r] := by
  induction s with
  | nil => exact ⟨[], [], rfl, by simp [splitByte_one h]⟩
  | cons b s ih =>
    obtain ⟨ws, w, h1, h2⟩ := ih
    by_cases hb : b = sep
    · subst hb
      refine ⟨[] :: ws, w, ?_, ?_⟩
      · simp only [splitByte, if_true, h1, List.cons_append]
      · simp only [List.cons_append, splitByte, if_true, h2]
    · obtain ⟨v, vs, h3, h4⟩ := splitByte_cons_ne hb s
      obtain ⟨v', vs', h5, h6⟩ := splitByte_cons_ne hb (s ++ r)
      rw [h1] at h3
      rw [h2] at h5
      rcases ws with _ | ⟨w0, ws⟩
      · simp only [List.nil_append, List.cons.injEq] at h3 h5
        obtain ⟨rfl, rfl⟩ := h3
        obtain ⟨rfl, rfl⟩ := h5
        exact ⟨[], b :: w, h4, h6⟩
      · simp only [List.cons_append, List.cons.injEq] at h3 h5
        obtain ⟨rfl, rfl⟩ := h3
        obtain ⟨rfl, rfl⟩ := h5
        exact ⟨(b :: w0) :: ws, w, h4, h6⟩

theorem readCookiePart_congr {p q : Bytes} (h : trimSpace p = trimSpace q) (res : GoMap) :
    readCookiePart res p = readCookiePart res q := by
  simp only [readCookiePart, h]

/-- Trimming the line before splitting makes no difference. -/
theorem readCookieLine_eq (res : GoMap) (line : Bytes) :
    readCookieLine res line = (splitByte 59 line).foldl readCookiePart res := by
  obtain ⟨l, r, e, hl, hr⟩ := trimSpace_split line
  have h59 : ∀ {w}, Blank w → (59 : UInt8) ∉ w := fun h => Blank.not_mem h (by decide) (by decide)
  have key : (splitByte 59 line).foldl readCookiePart res = (splitByte 59 (trimSpace line)).foldl readCookiePart res := by
    generalize trimSpace line = m at e ⊢
    subst e
    obtain ⟨ws, w, h1, h2⟩ := splitByte_last 59 (l ++ m) (h59 hr)
    rw [h2]
    have : (ws ++ [w ++ r]).foldl readCookiePart res = (ws ++ [w]).foldl readCookiePart res := by
      simp only [List.foldl_append, List.foldl_cons, List.foldl_nil]
      exact readCookiePart_congr (trimSpace_blank_right hr w) _
    rw [this, ← h1]
    obtain ⟨v, vs, h3, h4⟩ := splitByte_append (h59 hl) m
    rw [h3, h4]
    simp only [List.foldl_cons]
    rw [readCookiePart_congr (trimSpace_blank_left hl v)]
  rw [key]
  simp only [readCookieLine]
  split
  · rename_i h
    rcases hs : splitByte 59 (trimSpace line) with _ | ⟨p, _ | ⟨q, ps⟩⟩
    · rfl
    · rw [hs] at h
      have hp : p = [] := by simpa using h.2
      subst hp
      simp [readCookiePart, show trimSpace [] = [] by decide]
    · rw [hs] at h; simp at h
  · rfl

end Verif
