import Verif.Proofs.Compare
/-! `strings.TrimSpace` on arbitrary (also invalid) text. -/
namespace Verif
open Spec

theorem Blank.nil : Blank [] := ⟨[], by simp, rfl⟩

theorem Blank.append {l r : Bytes} (hl : Blank l) (hr : Blank r) : Blank (l ++ r) := by
  obtain ⟨ls, h1, rfl⟩ := hl
  obtain ⟨rs, h2, rfl⟩ := hr
  refine ⟨ls ++ rs, ?_, by simp⟩
  intro c hc
  rcases List.mem_append.1 hc with h | h
  · exact h1 c h
  · exact h2 c h

theorem trimSpace_blank_left {l : Bytes} (hl : Blank l) (x : Bytes) : trimSpace (l ++ x) = trimSpace x := by
  obtain ⟨ls, hls, rfl⟩ := (blank_iff l).1 hl
  simp only [trimSpace]
  rw [segs_encodes (fun r hr => (hls r hr).1), dropWhile_append_all]
  intro c hc
  obtain ⟨r, hr, rfl⟩ := List.mem_map.1 hc
  exact (hls r hr).2

theorem space_lead {r : Nat} (h : isSpace r = true) : ∃ c v, encodeRune r = c :: v ∧ isCont c = false := by
  rw [isSpace_iff] at h
  have key : ∀ r ∈ whiteSpace, ((encodeRune r).head?.map isCont) = some false := by decide
  have := key r h
  cases he : encodeRune r with
  | nil => rw [he] at this; cases this
  | cons c v => rw [he] at this; exact ⟨c, v, rfl, by simpa using this⟩

theorem segs_append_blank (x : Bytes) {rs : List Nat} (h : ∀ r ∈ rs, r.isValidChar ∧ isSpace r = true) :
    segs (x ++ rs.flatMap encodeRune) = segs x ++ rs.map (fun r => ⟨r, encodeRune r⟩) := by
  have e := segs_encodes (fun r hr => (h r hr).1) []
  rw [List.append_nil, segs_nil, List.append_nil] at e
  rcases rs with _ | ⟨r, rs⟩
  · simp
  · obtain ⟨c, v, hc, hcont⟩ := space_lead (h r (by simp)).2
    rw [← e]
    simp only [List.flatMap_cons, hc, List.cons_append]
    exact segs_append_lead x hcont _

theorem dropWhile_trim_right {α : Type} {p : α → Bool} {l r : List α} (h : ∀ x ∈ r, p x = true) :
    (((l ++ r).dropWhile p).reverse.dropWhile p).reverse = ((l.dropWhile p).reverse.dropWhile p).reverse := by
  induction l with
  | nil =>
    have : r.dropWhile p = [] := by
      have := dropWhile_append_all (r := []) h
      simpa using this
    simp [this]
  | cons a l ih =>
    by_cases ha : p a = true
    · simp only [List.cons_append, List.dropWhile_cons, ha, if_true]; exact ih
    · simp only [List.cons_append, List.dropWhile_cons, ha]
      simp only [Bool.false_eq_true, if_false, List.reverse_cons, List.reverse_append, List.append_assoc]
      rw [dropWhile_append_all (fun x hx => h x (List.mem_reverse.1 hx))]

theorem trimSpace_blank_right {r : Bytes} (hr : Blank r) (x : Bytes) : trimSpace (x ++ r) = trimSpace x := by
  obtain ⟨rs, hrs, rfl⟩ := (blank_iff r).1 hr
  simp only [trimSpace]
  rw [segs_append_blank x hrs, dropWhile_trim_right]
  intro c hc
  obtain ⟨r, hr, rfl⟩ := List.mem_map.1 hc
  exact (hrs r hr).2

theorem trimSpace_trimmed {a : Bytes} (h : Trimmed a) : trimSpace a = a := by
  obtain ⟨l, r, e, hl, hr⟩ := trimSpace_split a
  have h1 : l = [] := h l (trimSpace a ++ r) hl (.inl (by rw [← List.append_assoc]; exact e))
  have h2 : r = [] := h r (l ++ trimSpace a) hr (.inr e)
  subst h1 h2
  simpa using e.symm

theorem trimSpace_of_trimmed {l a r : Bytes} (hl : Blank l) (hr : Blank r) (h : Trimmed a) : trimSpace (l ++ a ++ r) = a := by
  rw [trimSpace_blank_right hr, trimSpace_blank_left hl, trimSpace_trimmed h]

theorem trimSpace_all_blank {w : Bytes} (h : Blank w) : trimSpace w = [] := by
  have := trimSpace_blank_left h []
  rw [List.append_nil] at this
  rw [this]; decide

/-- A printable ASCII byte does not occur in white space. -/
theorem Blank.not_mem {w : Bytes} (h : Blank w) {b : UInt8} (h1 : 32 < b.toNat) (h2 : b.toNat < 128) : b ∉ w := by
  obtain ⟨rs, hrs, rfl⟩ := (blank_iff w).1 h
  intro hb
  obtain ⟨r, hr, hb⟩ := List.mem_flatMap.1 hb
  have hs := (isSpace_iff r).1 (hrs r hr).2
  have key : ∀ r ∈ whiteSpace, ∀ b ∈ encodeRune r, ¬ (32 < b.toNat ∧ b.toNat < 128) := by decide
  exact key r hs b hb ⟨h1, h2⟩

end Verif
