import Verif.Model.StringSlice
/-! C63: utils/strings.go `SameStringSlice`. -/
namespace Verif

/-- The counter of a key, 0 when absent. -/
def cnt (m : List (Bytes × Int)) (k : Bytes) : Int := (m.lookup k).getD 0

/-- Keys occur once and no counter is below 1. -/
def CntWF (m : List (Bytes × Int)) : Prop := (m.map Prod.fst).Nodup ∧ ∀ e ∈ m, 1 ≤ e.2

theorem lookup_diffAdd (d : Int) (k j : Bytes) (m : List (Bytes × Int)) :
    (diffAdd d k m).lookup j = if j = k then some (cnt m k + d) else m.lookup j := by
  induction m with
  | nil =>
    by_cases h : j = k
    · simp [diffAdd, cnt, h]
    · have : (j == k) = false := by simpa using h
      simp [diffAdd, h, List.lookup, this]
  | cons e m ih =>
    obtain ⟨k', n⟩ := e
    simp only [diffAdd]
    by_cases hk : k' = k
    · subst hk
      by_cases h : j = k'
      · subst h; simp [List.lookup, cnt]
      · have : (j == k') = false := by simpa using h
        simp [List.lookup, this, h]
    · have hk2 : (k == k') = false := by simpa using Ne.symm hk
      simp only [hk, if_false]
      by_cases h : j = k'
      · subst h
        simp [List.lookup, hk]
      · have hj : (j == k') = false := by simpa using h
        simp only [List.lookup, hj, ih, cnt, hk2]

theorem diffAdd_keys (d : Int) (k : Bytes) (m : List (Bytes × Int)) :
    ∀ j, j ∈ (diffAdd d k m).map Prod.fst ↔ j ∈ m.map Prod.fst ∨ j = k := by
  intro j
  induction m with
  | nil => simp [diffAdd]
  | cons e m ih =>
    obtain ⟨k', n⟩ := e
    simp only [diffAdd]
    split
    · rename_i h; subst h; simp only [List.map_cons, List.mem_cons]; grind
    · simp only [List.map_cons, List.mem_cons, ih]; grind

theorem diffAdd_nodup (d : Int) (k : Bytes) (m : List (Bytes × Int)) (h : (m.map Prod.fst).Nodup) :
    ((diffAdd d k m).map Prod.fst).Nodup := by
  induction m with
  | nil => simp [diffAdd]
  | cons e m ih =>
    obtain ⟨k', n⟩ := e
    simp only [List.map_cons, List.nodup_cons] at h
    simp only [diffAdd]
    split
    · simpa using h
    · rename_i hk
      simp only [List.map_cons, List.nodup_cons, diffAdd_keys]
      exact ⟨fun hc => hc.elim h.1 hk, ih h.2⟩

theorem lookup_of_mem {m : List (Bytes × Int)} (h : (m.map Prod.fst).Nodup) {e : Bytes × Int} (he : e ∈ m) :
    m.lookup e.1 = some e.2 := by
  induction m with
  | nil => cases he
  | cons a m ih =>
    obtain ⟨k, n⟩ := a
    simp only [List.map_cons, List.nodup_cons] at h
    rcases List.mem_cons.1 he with rfl | he
    · simp [List.lookup]
    · have : e.1 ≠ k := fun hc => h.1 (hc ▸ List.mem_map_of_mem he)
      have : (e.1 == k) = false := by simpa using this
      simp only [List.lookup, this]
      exact ih h.2 he

theorem mem_of_lookup {m : List (Bytes × Int)} {k : Bytes} {n : Int} (h : m.lookup k = some n) : (k, n) ∈ m := by
  induction m with
  | nil => cases h
  | cons a m ih =>
    obtain ⟨k', n'⟩ := a
    simp only [List.lookup] at h
    split at h
    · rename_i hk
      have : k = k' := by simpa using hk
      subst this; cases h; simp
    · exact List.mem_cons_of_mem _ (ih h)

theorem cnt_wf_iff {m : List (Bytes × Int)} (h : (m.map Prod.fst).Nodup) :
    (∀ e ∈ m, 1 ≤ e.2) ↔ ∀ k n, m.lookup k = some n → 1 ≤ n := by
  constructor
  · intro hw k n hk; exact hw _ (mem_of_lookup hk)
  · intro hw e he; exact hw e.1 e.2 (lookup_of_mem h he)

theorem lookup_diffDel (k j : Bytes) (m : List (Bytes × Int)) :
    (diffDel k m).lookup j = if j = k then none else m.lookup j := by
  induction m with
  | nil => simp [diffDel]
  | cons e m ih =>
    obtain ⟨k', n⟩ := e
    simp only [diffDel] at ih ⊢
    by_cases hk : k' = k
    · subst hk
      simp only [List.filter_cons, bne_self_eq_false, Bool.false_eq_true, if_false, ih]
      by_cases hj : j = k'
      · simp [hj]
      · have : (j == k') = false := by simpa using hj
        simp [hj, List.lookup, this]
    · have hb : (k' != k) = true := by simpa using hk
      simp only [List.filter_cons, hb, if_true]
      by_cases hj : j = k'
      · subst hj; simp [List.lookup, hk]
      · have : (j == k') = false := by simpa using hj
        simp only [List.lookup, this, ih]

theorem sameLoop_iff (ys : List Bytes) : ∀ (m : List (Bytes × Int)), CntWF m →
    (sameLoop m ys = true ↔ ∀ k, cnt m k = ys.count k) := by
  induction ys with
  | nil =>
    intro m hm
    simp only [sameLoop, List.count_nil]
    constructor
    · intro h k
      have : m = [] := List.length_eq_zero_iff.1 (by simpa using h)
      subst this; rfl
    · intro h
      rcases m with _ | ⟨⟨k, n⟩, m⟩
      · rfl
      · exfalso
        have := h k
        have h1 := hm.2 (k, n) (by simp)
        simp [cnt, List.lookup] at this
        simp only at h1; omega
  | cons y ys ih =>
    intro m hm
    simp only [sameLoop]
    have hcount : ∀ k, ((y :: ys).count k : Int) = ys.count k + if y = k then 1 else 0 := by
      intro k
      rw [List.count_cons]
      by_cases h : y = k <;> simp [h]
    cases hl : m.lookup y with
    | none =>
      simp only [Bool.false_eq_true, false_iff]
      intro h
      have := h y
      rw [hcount] at this
      simp [cnt, hl] at this
      omega
    | some n =>
      have hn := hm.2 _ (mem_of_lookup hl)
      simp only at hn
      have hc : cnt m y = n := by simp [cnt, hl]
      have nd := diffAdd_nodup (-1) y m hm.1
      simp only [lookup_diffAdd, if_true, hc]
      split
      · rename_i h0
        have h0 : n + -1 = 0 := by simpa using h0
        rw [ih]
        · apply forall_congr'
          intro k
          rw [hcount]
          simp only [cnt, lookup_diffDel, lookup_diffAdd]
          by_cases hk : k = y
          · subst hk; simp [hl]; omega
          · simp [hk, Ne.symm hk]
        · refine ⟨?_, ?_⟩
          · exact List.Nodup.sublist (List.Sublist.map _ List.filter_sublist) nd
          · refine (cnt_wf_iff (List.Nodup.sublist (List.Sublist.map _ List.filter_sublist) nd)).2 ?_
            intro k v hk
            rw [show List.filter (fun e => e.fst != y) (diffAdd (-1) y m) = diffDel y (diffAdd (-1) y m) from rfl,
              lookup_diffDel, lookup_diffAdd] at hk
            split at hk
            · cases hk
            · exact (cnt_wf_iff hm.1).1 hm.2 k v hk
      · rename_i h0
        have h0 : n + -1 ≠ 0 := by simpa using h0
        rw [ih]
        · apply forall_congr'
          intro k
          rw [hcount]
          simp only [cnt, lookup_diffAdd]
          by_cases hk : k = y
          · subst hk; simp [hl]; omega
          · simp [hk, Ne.symm hk]
        · refine ⟨nd, (cnt_wf_iff nd).2 ?_⟩
          intro k v hk
          rw [lookup_diffAdd] at hk
          split at hk
          · cases hk; omega
          · exact (cnt_wf_iff hm.1).1 hm.2 k v hk

theorem foldl_cnt (xs : List Bytes) : ∀ m, CntWF m →
    CntWF (xs.foldl (fun m k => diffAdd 1 k m) m) ∧
    ∀ k, cnt (xs.foldl (fun m k => diffAdd 1 k m) m) k = cnt m k + xs.count k := by
  induction xs with
  | nil => intro m hm; simpa using hm
  | cons x xs ih =>
    intro m hm
    have nd := diffAdd_nodup 1 x m hm.1
    have nonneg : 0 ≤ cnt m x := by
      simp only [cnt]
      cases hl : m.lookup x with
      | none => simp
      | some n => have := hm.2 _ (mem_of_lookup hl); simp at this ⊢; omega
    have hw : CntWF (diffAdd 1 x m) := ⟨nd, (cnt_wf_iff nd).2 fun k v hk => by
      rw [lookup_diffAdd] at hk
      split at hk
      · cases hk; omega
      · exact (cnt_wf_iff hm.1).1 hm.2 k v hk⟩
    obtain ⟨h1, h2⟩ := ih _ hw
    refine ⟨h1, fun k => ?_⟩
    simp only [List.foldl_cons]
    rw [h2, List.count_cons]
    simp only [cnt, lookup_diffAdd]
    by_cases hk : k = x
    · subst hk; simp; omega
    · simp [hk, Ne.symm hk]

/-- C63: `SameStringSlice` holds exactly when the slices are permutations of each other. -/
theorem C63_same_iff_permutation (x y : List Bytes) : sameStringSlice x y = true ↔ x.Perm y := by
  simp only [sameStringSlice]
  obtain ⟨h1, h2⟩ := foldl_cnt x [] ⟨by simp, by simp⟩
  split
  · rename_i hlen
    simp only [Bool.false_eq_true, false_iff]
    exact fun hp => hlen hp.length_eq
  · rw [sameLoop_iff y _ h1, List.perm_iff_count]
    constructor
    · intro h k
      have := h k
      rw [h2] at this
      simp [cnt] at this
      omega
    · intro h k
      rw [h2]
      simp [cnt, h k]

example : sameStringSlice [b!"a", b!"b", b!"a"] [b!"b", b!"a", b!"a"] = true ∧
    sameStringSlice [b!"a", b!"b", b!"a"] [b!"b", b!"a", b!"b"] = false := by decide

end Verif
