import Verif.Model.Filter
/-! What a filtered collection contains, whatever the iteration order. -/
namespace Verif

theorem perm_of_nodup {α : Type u} [DecidableEq α] {l₁ l₂ : List α} (h1 : l₁.Nodup) (h2 : l₂.Nodup)
    (h : ∀ a, a ∈ l₁ ↔ a ∈ l₂) : l₁.Perm l₂ := by
  rw [List.perm_iff_count]
  intro a
  rw [h1.count, h2.count]
  simp only [h a]

theorem GoMap.append_values (m : GoMap) (k : Bytes) (v : List Bytes) :
    ((m.append k v).flatMap Prod.snd).Perm (m.flatMap Prod.snd ++ v) := by
  induction m with
  | nil => simp [GoMap.append]
  | cons e m ih =>
    obtain ⟨k', v'⟩ := e
    simp only [GoMap.append]
    split
    · simp only [List.flatMap_cons, List.append_assoc]
      exact .append_left _ List.perm_append_comm
    · simp only [List.flatMap_cons, List.append_assoc]
      exact .append_left _ ih

theorem GoMap.append_keys (m : GoMap) (k : Bytes) (v : List Bytes) :
    (m.append k v).map Prod.fst = if k ∈ m.map Prod.fst then m.map Prod.fst else m.map Prod.fst ++ [k] := by
  induction m with
  | nil => simp [GoMap.append]
  | cons e m ih =>
    obtain ⟨k', v'⟩ := e
    simp only [GoMap.append]
    split
    · rename_i h; subst h; simp
    · rename_i h
      have h' : k ≠ k' := fun e => h e.symm
      simp only [List.map_cons, ih, List.mem_cons, h', false_or]
      split <;> simp

theorem GoMap.append_wf {m : GoMap} (h : m.WF) (k : Bytes) (v : List Bytes) : (m.append k v).WF := by
  simp only [GoMap.WF, GoMap.append_keys]
  split
  · exact h
  · rename_i hk
    refine List.nodup_append.2 ⟨h, by simp, ?_⟩
    intro a ha b hb
    simp only [List.mem_singleton] at hb
    subst hb
    rintro rfl
    exact hk ha

theorem GoMap.append_get (m : GoMap) (k : Bytes) (v : List Bytes) (k' : Bytes) :
    ((m.append k v).get? k').getD [] = (m.get? k').getD [] ++ (if k' = k then v else []) := by
  induction m with
  | nil =>
    simp only [GoMap.append, GoMap.get?, List.lookup]
    by_cases h : k' = k
    · simp [h]
    · simp [h, beq_false_of_ne h]
  | cons e m ih =>
    obtain ⟨k1, v1⟩ := e
    simp only [GoMap.append]
    split
    · rename_i h; subst h
      simp only [GoMap.get?, List.lookup]
      by_cases h : k' = k1
      · simp [h]
      · simp [h, beq_false_of_ne h]
    · rename_i h
      simp only [GoMap.get?, List.lookup]
      by_cases h1 : k' = k1
      · have : ¬ (k' = k) := by rw [h1]; exact h
        simp [h1, h]
      · simp only [GoMap.get?] at ih
        simp [beq_false_of_ne h1, ih]

/-- The loop of `FetchWithNames`. -/
def keepLoop (f : Filter) : GoMap → GoMap → GoMap
  | res, [] => res
  | res, e :: l => keepLoop f (if f.keep e.1 then res.append e.1 e.2 else res) l

theorem fetchWithNames_eq (f : Filter) (o : IterOrd) (vs : GoMap) : f.fetchWithNames o vs = keepLoop f [] (o.run vs) := by
  simp only [Filter.fetchWithNames]
  generalize o.run vs = l
  generalize ([] : GoMap) = res
  induction l generalizing res with
  | nil => rfl
  | cons e l ih => simp only [List.foldl_cons, keepLoop, ih]

theorem keepLoop_values (f : Filter) : ∀ (l res : GoMap),
    ((keepLoop f res l).flatMap Prod.snd).Perm (res.flatMap Prod.snd ++ (l.filter fun e => f.keep e.1).flatMap Prod.snd) := by
  intro l
  induction l with
  | nil => intro res; simp [keepLoop]
  | cons e l ih =>
    intro res
    simp only [keepLoop]
    refine (ih _).trans ?_
    by_cases h : f.keep e.1 = true
    · simp only [h, if_true, List.filter_cons, List.flatMap_cons, ← List.append_assoc]
      exact .append_right _ (GoMap.append_values _ _ _)
    · simp [h]

theorem keepLoop_wf (f : Filter) : ∀ (l : GoMap) {res : GoMap}, res.WF → (keepLoop f res l).WF := by
  intro l
  induction l with
  | nil => intro res h; exact h
  | cons e l ih =>
    intro res h
    simp only [keepLoop]
    apply ih
    split
    · exact GoMap.append_wf h _ _
    · exact h

theorem keepLoop_keys (f : Filter) (k : Bytes) : ∀ (l res : GoMap),
    k ∈ (keepLoop f res l).map Prod.fst ↔ k ∈ res.map Prod.fst ∨ (k ∈ l.map Prod.fst ∧ f.keep k = true) := by
  intro l
  induction l with
  | nil => intro res; simp [keepLoop]
  | cons e l ih =>
    intro res
    simp only [keepLoop]
    rw [ih]
    by_cases h : f.keep e.1 = true
    · simp only [h, if_true, GoMap.append_keys, List.map_cons, List.mem_cons]
      split
      · rename_i hm
        constructor
        · rintro (h1 | h1)
          · exact .inl h1
          · exact .inr ⟨.inr h1.1, h1.2⟩
        · rintro (h1 | ⟨rfl | h1, h2⟩)
          · exact .inl h1
          · exact .inl hm
          · exact .inr ⟨h1, h2⟩
      · simp only [List.mem_append, List.mem_singleton]
        constructor
        · rintro ((h1 | rfl) | h1)
          · exact .inl h1
          · exact .inr ⟨.inl rfl, h⟩
          · exact .inr ⟨.inr h1.1, h1.2⟩
        · rintro (h1 | ⟨rfl | h1, h2⟩)
          · exact .inl (.inl h1)
          · exact .inl (.inr rfl)
          · exact .inr ⟨h1, h2⟩
    · simp only [h, List.map_cons, List.mem_cons]
      constructor
      · rintro (h1 | h1)
        · exact .inl h1
        · exact .inr ⟨.inr h1.1, h1.2⟩
      · rintro (h1 | ⟨rfl | h1, h2⟩)
        · exact .inl h1
        · exact absurd h2 h
        · exact .inr ⟨h1, h2⟩

theorem Filter.fetch_perm (f : Filter) (o : IterOrd) (vs : GoMap) :
    (f.fetch o vs).Perm ((vs.filter fun e => f.keep e.1).flatMap Prod.snd) := by
  simp only [Filter.fetch, fetchWithNames_eq]
  refine ((o.perm _).flatMap_right _).trans ?_
  refine (keepLoop_values f _ _).trans ?_
  simp only [List.flatMap_nil, List.nil_append]
  exact ((o.perm vs).filter _).flatMap_right _

theorem Filter.names_nodup (f : Filter) (o : IterOrd) (vs : GoMap) : (f.names o vs).Nodup := by
  simp only [Filter.names, fetchWithNames_eq]
  have h : (keepLoop f [] (o.run vs)).WF := keepLoop_wf f _ List.nodup_nil
  exact (((o.perm _).map Prod.fst).nodup_iff).2 h

theorem Filter.mem_names (f : Filter) (o : IterOrd) (vs : GoMap) (k : Bytes) :
    k ∈ f.names o vs ↔ k ∈ vs.map Prod.fst ∧ f.keep k = true := by
  simp only [Filter.names, fetchWithNames_eq]
  rw [((o.perm _).map Prod.fst).mem_iff, keepLoop_keys, ((o.perm vs).map Prod.fst).mem_iff]
  simp

theorem Filter.fetch_ord (f : Filter) (o o' : IterOrd) (vs : GoMap) : (f.fetch o vs).Perm (f.fetch o' vs) :=
  (f.fetch_perm o vs).trans (f.fetch_perm o' vs).symm

theorem Filter.names_ord (f : Filter) (o o' : IterOrd) (vs : GoMap) : (f.names o vs).Perm (f.names o' vs) :=
  perm_of_nodup (f.names_nodup o vs) (f.names_nodup o' vs) (fun k => by rw [f.mem_names, f.mem_names])

end Verif
