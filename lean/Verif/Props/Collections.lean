import Verif.Proofs.Cookies
import Verif.Proofs.Rule
import Verif.Props.Sample
import Verif.Spec.Selectors
/-!
Properties C40, C41, C42, C43, C48, C49: selectors, collections and the path
variables.
-/
namespace Verif
open Sample Spec

/-! ### C40: selectors -/

/-- C40, the full claim: the values selected are those of the chosen names. -/
def C40_statement : Prop :=
  ∀ (rx : Bytes → Option (Bytes → Bool)) (ss : List Selector) (f : Filter), applySelectors rx {} ss = some f →
    ∀ (o : IterOrd) (vs : GoMap) (k : Bytes), k ∈ f.names o vs ↔ k ∈ vs.map Prod.fst ∧ Spec.Chosen rx ss k

theorem isRegex_iff (s : Bytes) : isRegex s = true ↔ ∃ re, Spec.IsRegex s re := by
  simp only [isRegex, Spec.IsRegex]
  constructor
  · intro h
    split at h
    · cases h
    · rename_i hl
      simp only [Bool.and_eq_true, beq_iff_eq] at h
      rcases s with _ | ⟨a, s⟩
      · simp at hl
      · have ha : a = 47 := by simpa using h.1
        have hne : s ≠ [] := by rintro rfl; simp at hl
        refine ⟨s.dropLast, ?_⟩
        have h2 : s.getLast hne = 47 := by
          have := h.2
          rw [List.getLast?_cons_of_ne_nil hne, List.getLast?_eq_some_getLast hne] at this
          simpa using this
        rw [ha, ← h2, List.dropLast_concat_getLast hne]
  · rintro ⟨re, rfl⟩
    have h1 : ¬ ((47 :: (re ++ [47])).length < 2) := by simp
    have h2 : (47 :: (re ++ [47]) : Bytes).getLast? = some 47 := by
      rw [← List.cons_append, List.getLast?_append]; rfl
    rw [if_neg h1, h2]; rfl

theorem isRegex_src {s re : Bytes} (h : Spec.IsRegex s re) : (s.drop 1).take (s.length - 2) = re := by
  subst h
  have : (47 :: (re ++ [47])).length - 2 = re.length := by simp
  rw [this]
  simp

/-- A filter as the lists of literal names and regular expressions of a selector list. -/
structure FilterOf (rx : Bytes → Option (Bytes → Bool)) (ss : List Selector) (f : Filter) : Prop where
  incl : ∀ k, k ∈ f.incl ↔ (.incl k ∈ ss ∧ isRegex k = false)
  excl : ∀ k, k ∈ f.excl ↔ (.excl k ∈ ss ∧ isRegex k = false)
  inclRx : ∀ k, (∃ r ∈ f.inclRx, r.run k = true) ↔ ∃ s re g, .incl s ∈ ss ∧ Spec.IsRegex s re ∧ rx re = some g ∧ g k = true
  exclRx : ∀ k, (∃ r ∈ f.exclRx, r.run k = true) ↔ ∃ s re g, .excl s ∈ ss ∧ Spec.IsRegex s re ∧ rx re = some g ∧ g k = true
  someRx : f.inclRx ≠ [] ↔ ∃ s, .incl s ∈ ss ∧ isRegex s = true

theorem compileRegex_cases (rx : Bytes → Option (Bytes → Bool)) (s : Bytes) :
    (compileRegex rx s = .notRegex ∧ isRegex s = false) ∨ (∃ re g, compileRegex rx s = .compiled ⟨re, g⟩ ∧ Spec.IsRegex s re ∧ rx re = some g) ∨
      compileRegex rx s = .err := by
  simp only [compileRegex]
  cases h : isRegex s with
  | false => exact .inl ⟨rfl, rfl⟩
  | true =>
    obtain ⟨re, hre⟩ := (isRegex_iff s).1 h
    right
    simp only [isRegex_src hre]
    cases hr : rx re with
    | none => exact .inr rfl
    | some g => exact .inl ⟨re, g, rfl, hre, hr⟩

theorem IsRegex.unique {s re re' : Bytes} (h : Spec.IsRegex s re) (h' : Spec.IsRegex s re') : re = re' := by
  rw [← isRegex_src h, ← isRegex_src h']

theorem filterOf {rx : Bytes → Option (Bytes → Bool)} : ∀ {ss pre : List Selector} {f f' : Filter}, FilterOf rx pre f →
    applySelectors rx f ss = some f' → FilterOf rx (pre ++ ss) f' := by
  intro ss
  induction ss with
  | nil => intro pre f f' h hs; simp only [applySelectors, Option.some.injEq] at hs; subst hs; simpa using h
  | cons sel ss ih =>
    intro pre f f' h hs
    have e : pre ++ sel :: ss = (pre ++ [sel]) ++ ss := by simp
    rw [e]
    cases sel with
    | incl s =>
      simp only [applySelectors, Filter.include] at hs
      rcases compileRegex_cases rx s with ⟨hc, hn⟩ | ⟨re, g, hc, hre, hg⟩ | hc
      · simp only [hc, Option.bind_some] at hs
        refine ih ⟨?_, ?_, ?_, ?_, ?_⟩ hs
        · intro k
          simp only [List.mem_append, List.mem_singleton, h.incl k, Selector.incl.injEq]
          constructor
          · rintro (⟨h1, h2⟩ | rfl)
            · exact ⟨.inl h1, h2⟩
            · exact ⟨.inr rfl, hn⟩
          · rintro ⟨h1 | rfl, h2⟩
            · exact .inl ⟨h1, h2⟩
            · exact .inr rfl
        · intro k; rw [h.excl k]; simp
        · intro k
          rw [h.inclRx k]
          constructor
          · rintro ⟨s', re, g, h1, h2⟩; exact ⟨s', re, g, by simp [h1], h2⟩
          · rintro ⟨s', re, g, h1, h2, h3⟩
            simp only [List.mem_append, List.mem_singleton, Selector.incl.injEq] at h1
            rcases h1 with h1 | rfl
            · exact ⟨s', re, g, h1, h2, h3⟩
            · rw [(isRegex_iff s').2 ⟨re, h2⟩] at hn; cases hn
        · intro k; rw [h.exclRx k]; simp
        · rw [h.someRx]
          constructor
          · rintro ⟨s', h1, h2⟩; exact ⟨s', by simp [h1], h2⟩
          · rintro ⟨s', h1, h2⟩
            simp only [List.mem_append, List.mem_singleton, Selector.incl.injEq] at h1
            rcases h1 with h1 | rfl
            · exact ⟨s', h1, h2⟩
            · rw [h2] at hn; cases hn
      · simp only [hc, Option.bind_some] at hs
        have hr : isRegex s = true := (isRegex_iff s).2 ⟨re, hre⟩
        refine ih ⟨?_, ?_, ?_, ?_, ?_⟩ hs
        · intro k
          rw [h.incl k]
          simp only [List.mem_append, List.mem_singleton, Selector.incl.injEq]
          constructor
          · rintro ⟨h1, h2⟩; exact ⟨.inl h1, h2⟩
          · rintro ⟨h1 | rfl, h2⟩
            · exact ⟨h1, h2⟩
            · rw [hr] at h2; cases h2
        · intro k; rw [h.excl k]; simp
        · intro k
          constructor
          · rintro ⟨r, hr, hk⟩
            rcases List.mem_append.1 hr with hr | hr
            · obtain ⟨s', re', g', h1, h2⟩ := (h.inclRx k).1 ⟨r, hr, hk⟩
              exact ⟨s', re', g', by simp [h1], h2⟩
            · simp only [List.mem_singleton] at hr
              subst hr
              exact ⟨s, re, g, by simp, hre, hg, hk⟩
          · rintro ⟨s', re', g', h1, h2, h3, h4⟩
            simp only [List.mem_append, List.mem_singleton, Selector.incl.injEq] at h1
            rcases h1 with h1 | rfl
            · obtain ⟨r, k1, k2⟩ := (h.inclRx k).2 ⟨s', re', g', h1, h2, h3, h4⟩
              exact ⟨r, by simp [k1], k2⟩
            · rw [IsRegex.unique h2 hre, hg] at h3
              cases h3
              exact ⟨⟨re, g⟩, by simp, h4⟩
        · intro k; rw [h.exclRx k]; simp
        · constructor
          · intro _; exact ⟨s, by simp, hr⟩
          · intro _; simp
      · simp [hc] at hs
    | excl s =>
      simp only [applySelectors, Filter.exclude] at hs
      rcases compileRegex_cases rx s with ⟨hc, hn⟩ | ⟨re, g, hc, hre, hg⟩ | hc
      · simp only [hc, Option.bind_some] at hs
        refine ih ⟨?_, ?_, ?_, ?_, ?_⟩ hs
        · intro k; rw [h.incl k]; simp
        · intro k
          simp only [List.mem_append, List.mem_singleton, h.excl k, Selector.excl.injEq]
          constructor
          · rintro (⟨h1, h2⟩ | rfl)
            · exact ⟨.inl h1, h2⟩
            · exact ⟨.inr rfl, hn⟩
          · rintro ⟨h1 | rfl, h2⟩
            · exact .inl ⟨h1, h2⟩
            · exact .inr rfl
        · intro k; rw [h.inclRx k]; simp
        · intro k
          rw [h.exclRx k]
          constructor
          · rintro ⟨s', re, g, h1, h2⟩; exact ⟨s', re, g, by simp [h1], h2⟩
          · rintro ⟨s', re, g, h1, h2, h3⟩
            simp only [List.mem_append, List.mem_singleton, Selector.excl.injEq] at h1
            rcases h1 with h1 | rfl
            · exact ⟨s', re, g, h1, h2, h3⟩
            · rw [(isRegex_iff s').2 ⟨re, h2⟩] at hn; cases hn
        · rw [h.someRx]; simp
      · simp only [hc, Option.bind_some] at hs
        have hr : isRegex s = true := (isRegex_iff s).2 ⟨re, hre⟩
        refine ih ⟨?_, ?_, ?_, ?_, ?_⟩ hs
        · intro k; rw [h.incl k]; simp
        · intro k
          rw [h.excl k]
          simp only [List.mem_append, List.mem_singleton, Selector.excl.injEq]
          constructor
          · rintro ⟨h1, h2⟩; exact ⟨.inl h1, h2⟩
          · rintro ⟨h1 | rfl, h2⟩
            · exact ⟨h1, h2⟩
            · rw [hr] at h2; cases h2
        · intro k; rw [h.inclRx k]; simp
        · intro k
          constructor
          · rintro ⟨r, hr, hk⟩
            rcases List.mem_append.1 hr with hr | hr
            · obtain ⟨s', re', g', h1, h2⟩ := (h.exclRx k).1 ⟨r, hr, hk⟩
              exact ⟨s', re', g', by simp [h1], h2⟩
            · simp only [List.mem_singleton] at hr
              subst hr
              exact ⟨s, re, g, by simp, hre, hg, hk⟩
          · rintro ⟨s', re', g', h1, h2, h3, h4⟩
            simp only [List.mem_append, List.mem_singleton, Selector.excl.injEq] at h1
            rcases h1 with h1 | rfl
            · obtain ⟨r, k1, k2⟩ := (h.exclRx k).2 ⟨s', re', g', h1, h2, h3, h4⟩
              exact ⟨r, by simp [k1], k2⟩
            · rw [IsRegex.unique h2 hre, hg] at h3
              cases h3
              exact ⟨⟨re, g⟩, by simp, h4⟩
        · rw [h.someRx]; simp
      · simp [hc] at hs

theorem filterOf_empty (rx : Bytes → Option (Bytes → Bool)) : FilterOf rx [] {} := by
  refine ⟨?_, ?_, ?_, ?_, ?_⟩ <;> simp

theorem stringInSlice_iff (s : Bytes) (l : List Bytes) : stringInSlice s l = true ↔ s ∈ l := by
  induction l with
  | nil => simp [stringInSlice]
  | cons v l ih =>
    simp only [stringInSlice]
    by_cases h : v = s
    · simp [h]
    · have : ¬ (s = v) := fun e => h e.symm
      simp [h, this, ih]

theorem stringInRegexSlice_iff (s : Bytes) (l : List Rx) : stringInRegexSlice s l = true ↔ ∃ r ∈ l, r.run s = true := by
  induction l with
  | nil => simp [stringInRegexSlice]
  | cons v l ih =>
    simp only [stringInRegexSlice]
    by_cases h : v.run s = true <;> simp [h, ih]

theorem Filter.keep_iff (f : Filter) (k : Bytes) : f.keep k = true ↔
    (f.incl = [] ∨ k ∈ f.incl) ∧ (f.inclRx = [] ∨ ∃ r ∈ f.inclRx, r.run k = true) ∧
      k ∉ f.excl ∧ ¬ ∃ r ∈ f.exclRx, r.run k = true := by
  have g1 : (!f.incl.isEmpty && !stringInSlice k f.incl) = false ↔ (f.incl = [] ∨ k ∈ f.incl) := by
    rw [← stringInSlice_iff]; cases f.incl <;> simp
  have g2 : (!f.inclRx.isEmpty && !stringInRegexSlice k f.inclRx) = false ↔ (f.inclRx = [] ∨ ∃ r ∈ f.inclRx, r.run k = true) := by
    rw [← stringInRegexSlice_iff]; cases f.inclRx <;> simp
  have g3 : (!f.excl.isEmpty && stringInSlice k f.excl) = false ↔ k ∉ f.excl := by
    rw [← stringInSlice_iff]; cases f.excl <;> simp [stringInSlice]
  have g4 : (!f.exclRx.isEmpty && stringInRegexSlice k f.exclRx) = false ↔ ¬ ∃ r ∈ f.exclRx, r.run k = true := by
    rw [← stringInRegexSlice_iff]; cases f.exclRx <;> simp [stringInRegexSlice]
  rw [← g1, ← g2, ← g3, ← g4]
  simp only [Filter.keep]
  cases (!f.incl.isEmpty && !stringInSlice k f.incl) <;> cases (!f.inclRx.isEmpty && !stringInRegexSlice k f.inclRx) <;>
    cases (!f.excl.isEmpty && stringInSlice k f.excl) <;> cases (!f.exclRx.isEmpty && stringInRegexSlice k f.exclRx) <;> simp

/-- What the code selects: literal and regular-expression inclusions must BOTH be
satisfied when both kinds are given. -/
theorem C40_selected {rx : Bytes → Option (Bytes → Bool)} {ss : List Selector} {f : Filter} (h : applySelectors rx {} ss = some f)
    (o : IterOrd) (vs : GoMap) (k : Bytes) :
    k ∈ f.names o vs ↔ k ∈ vs.map Prod.fst ∧
      ((∀ s, .incl s ∈ ss → ∃ re, Spec.IsRegex s re) ∨ (.incl k ∈ ss ∧ ¬ ∃ re, Spec.IsRegex k re)) ∧
      ((∀ s, .incl s ∈ ss → ¬ ∃ re, Spec.IsRegex s re) ∨ ∃ s, .incl s ∈ ss ∧ (∃ re, Spec.IsRegex s re) ∧ Spec.Denotes rx s k) ∧
      ¬ ∃ s, .excl s ∈ ss ∧ Spec.Denotes rx s k := by
  have hf : FilterOf rx ss f := by simpa using filterOf (filterOf_empty rx) h
  have nr : ∀ s, isRegex s = false ↔ ¬ ∃ re, Spec.IsRegex s re := by
    intro s; rw [← isRegex_iff]; cases isRegex s <;> simp
  have e1 : f.incl = [] ↔ ∀ s, .incl s ∈ ss → ∃ re, Spec.IsRegex s re := by
    rw [List.eq_nil_iff_forall_not_mem]
    refine forall_congr' fun s => ?_
    rw [hf.incl s, ← isRegex_iff]
    cases isRegex s <;> simp
  have e2 : f.inclRx = [] ↔ ∀ s, .incl s ∈ ss → ¬ ∃ re, Spec.IsRegex s re := by
    have := not_congr hf.someRx
    rw [Classical.not_not] at this
    rw [this]
    simp only [not_exists, not_and]
    refine forall_congr' fun s => imp_congr_right fun _ => ?_
    rw [← not_exists, ← isRegex_iff]
  have e3 : (∃ r ∈ f.inclRx, r.run k = true) ↔ ∃ s, .incl s ∈ ss ∧ (∃ re, Spec.IsRegex s re) ∧ Spec.Denotes rx s k := by
    rw [hf.inclRx k]
    constructor
    · rintro ⟨s, re, g, h1, h2, h3, h4⟩; exact ⟨s, h1, ⟨re, h2⟩, .inl ⟨re, g, h2, h3, h4⟩⟩
    · rintro ⟨s, h1, h2, ⟨re, g, h3⟩ | h3⟩
      · exact ⟨s, re, g, h1, h3⟩
      · exact absurd h2 h3.1
  have e4 : (k ∉ f.excl ∧ ¬ ∃ r ∈ f.exclRx, r.run k = true) ↔ ¬ ∃ s, .excl s ∈ ss ∧ Spec.Denotes rx s k := by
    rw [hf.excl k, hf.exclRx k]
    constructor
    · rintro ⟨h1, h2⟩ ⟨s, h3, ⟨re, g, h4⟩ | ⟨h4, rfl⟩⟩
      · exact h2 ⟨s, re, g, h3, h4⟩
      · exact h1 ⟨h3, (nr s).2 h4⟩
    · intro h1
      refine ⟨fun ⟨h2, h3⟩ => h1 ⟨k, h2, .inr ⟨(nr k).1 h3, rfl⟩⟩, fun ⟨s, re, g, h2, h3⟩ => h1 ⟨s, h2, .inl ⟨re, g, h3⟩⟩⟩
  rw [f.mem_names, f.keep_iff, e1, e2, e3, e4, hf.incl k, nr k]

/-- C40, true when the inclusions are all literal or all regular expressions. -/
theorem C40_selectors_partial {rx : Bytes → Option (Bytes → Bool)} {ss : List Selector} {f : Filter}
    (h : applySelectors rx {} ss = some f)
    (hone : (∀ s, .incl s ∈ ss → ¬ ∃ re, Spec.IsRegex s re) ∨ ∀ s, .incl s ∈ ss → ∃ re, Spec.IsRegex s re)
    (o : IterOrd) (vs : GoMap) (k : Bytes) :
    k ∈ f.names o vs ↔ k ∈ vs.map Prod.fst ∧ Spec.Chosen rx ss k := by
  rw [C40_selected h]
  refine and_congr_right fun _ => ?_
  unfold Spec.Chosen
  rw [← and_assoc]
  refine and_congr_left fun _ => ?_
  rcases hone with hone | hone
  · constructor
    · rintro ⟨h1 | h1, _⟩
      · exact .inl fun s hs => absurd (h1 s hs) (hone s hs)
      · exact .inr ⟨k, h1.1, .inr ⟨h1.2, rfl⟩⟩
    · rintro (h1 | ⟨s, h1, h2⟩)
      · exact ⟨.inl fun s hs => absurd hs (h1 s), .inl hone⟩
      · refine ⟨.inr ?_, .inl hone⟩
        rcases h2 with ⟨re, g, h3, _⟩ | ⟨h3, rfl⟩
        · exact absurd ⟨re, h3⟩ (hone s h1)
        · exact ⟨h1, h3⟩
  · constructor
    · rintro ⟨_, h1 | ⟨s, h1, _, h2⟩⟩
      · exact .inl fun s hs => absurd (hone s hs) (h1 s hs)
      · exact .inr ⟨s, h1, h2⟩
    · rintro (h1 | ⟨s, h1, h2⟩)
      · exact ⟨.inl hone, .inl fun s hs => absurd hs (h1 s)⟩
      · exact ⟨.inl hone, .inr ⟨s, h1, hone s h1, h2⟩⟩

/-- The claim is false: a name included literally is dropped when a regular
expression that does not match it is included too. -/
theorem C40_refuted : ¬ C40_statement := by
  intro h
  have hf : applySelectors lib.rx {} [.incl b!"a", .incl b!"/b/"] = some { incl := [b!"a"], inclRx := [⟨b!"b", fun s => s == b!"b"⟩] } := rfl
  have := (h lib.rx _ _ hf ord [(b!"a", [b!"1"])] b!"a").2 ⟨by simp, ?_⟩
  · exact absurd this (by decide)
  · refine ⟨.inr ⟨b!"a", by simp, .inr ⟨?_, rfl⟩⟩, ?_⟩
    · rw [← isRegex_iff]; decide
    · rintro ⟨s, h1, _⟩; simp at h1

/-- Two literal inclusions and an exclusion: one of three names is selected twice over. -/
example :
    (applySelectors lib.rx {} [.incl b!"a", .incl b!"b", .excl b!"/b/"]).map
      (fun f => f.names ord [(b!"a", [b!"1", b!"2"]), (b!"b", [b!"3"]), (b!"c", [b!"4"])]) = some [b!"a"] := by
  decide

/-! ### C41: names, values and counts -/

theorem get?_of_mem {m : GoMap} (h : m.WF) {e : Bytes × List Bytes} (he : e ∈ m) : m.get? e.1 = some e.2 := by
  induction m with
  | nil => cases he
  | cons x m ih =>
    simp only [GoMap.WF, List.map_cons, List.nodup_cons] at h
    rcases List.mem_cons.1 he with rfl | he
    · obtain ⟨k, v⟩ := e
      simp [GoMap.get?]
    · have hne : e.1 ≠ x.1 := fun hh => h.1 (by rw [← hh]; exact List.mem_map.2 ⟨e, he, rfl⟩)
      simp only [GoMap.get?, List.lookup, beq_false_of_ne hne]
      exact ih h.2 he

/-- C41.  The names are those selected, each once; the values are the values of
exactly these names; the counts are the lengths of the two. -/
theorem C41_names_values (f : Filter) (o : IterOrd) {vs : GoMap} (h : vs.WF) :
    (f.names o vs).Nodup ∧
    (∀ k, k ∈ f.names o vs ↔ k ∈ vs.map Prod.fst ∧ f.keep k = true) ∧
    (f.fetch o vs).Perm ((f.names o vs).flatMap fun k => (vs.get? k).getD []) ∧
    (f.names o vs).length = (vs.filter fun e => f.keep e.1).length ∧
    (f.fetch o vs).length = ((vs.filter fun e => f.keep e.1).map fun e => e.2.length).sum := by
  have hp : (f.names o vs).Perm ((vs.filter fun e => f.keep e.1).map Prod.fst) := by
    refine perm_of_nodup (f.names_nodup o vs) ?_ ?_
    · exact List.Nodup.sublist (List.filter_sublist.map _) h
    · intro k
      rw [f.mem_names]
      simp only [List.mem_map, List.mem_filter]
      constructor
      · rintro ⟨⟨e, h1, rfl⟩, h2⟩; exact ⟨e, ⟨h1, h2⟩, rfl⟩
      · rintro ⟨e, ⟨h1, h2⟩, rfl⟩; exact ⟨⟨e, h1, rfl⟩, h2⟩
  refine ⟨f.names_nodup o vs, f.mem_names o vs, ?_, ?_, ?_⟩
  · refine (f.fetch_perm o vs).trans (((hp.flatMap_right _).trans ?_).symm)
    rw [List.flatMap_map]
    refine .of_eq ?_
    rw [List.flatMap_def, List.flatMap_def]
    refine congrArg List.flatten (List.map_congr_left fun e he => ?_)
    rw [get?_of_mem h (List.mem_filter.1 he).1]; rfl
  · rw [hp.length_eq, List.length_map]
  · rw [(f.fetch_perm o vs).length_eq, List.length_flatMap]

/-- C41.  ARGS_POST and ARGS_POST_NAMES with the same selectors, fetched in the
same state, describe the same collection. -/
theorem C41_post {env : Env} {f : Filter} {t t1 t2 : Tx} {vals names : List Bytes}
    (h1 : (Var.argsPost f).fetch env t = .ok (vals, t1)) (h2 : (Var.argsPostNames f).fetch env t = .ok (names, t2)) :
    ∃ m : GoMap, vals = f.fetch env.ord m ∧ names = f.names env.ord m := by
  simp only [Var.fetch, fetchArgsPost, fetchArgsPostNames] at h1 h2
  obtain ⟨⟨u, tp, p⟩, g1, g2⟩ := Res.bind_eq_ok.1 h1
  rw [g1] at h2
  have hnil : ([] : List Bytes) = f.fetch env.ord [] ∧ ([] : List Bytes) = f.names env.ord [] := by
    have k : env.ord.run [] = [] := List.perm_nil.1 (env.ord.perm [])
    simp [Filter.fetch, Filter.names, Filter.fetchWithNames, k]
  simp only [Res.bind_ok'] at h2
  revert g2 h2
  rcases tp with _ | _ | _ <;> rcases p with _ | m | _ | m <;> intro h2 g2 <;>
    simp only [Res.ok.injEq, Prod.mk.injEq, reduceCtorEq] at g2 h2
  all_goals first | exact ⟨m, g2.1.symm, h2.1.symm⟩ | exact ⟨[], g2.1.symm.trans hnil.1, h2.1.symm.trans hnil.2⟩

/-- The collections with a variable for the values and one for the names. -/
inductive Spec.Coll where
  | argsGet | argsPost | cookies | requestHeaders | responseHeaders
deriving DecidableEq

/-- The variable for the values of a collection. -/
def Spec.Coll.values : Coll → Filter → Var
  | .argsGet => .argsGet | .argsPost => .argsPost | .cookies => .requestCookies
  | .requestHeaders => .requestHeaders | .responseHeaders => .responseHeaders

/-- The variable for the names of a collection. -/
def Spec.Coll.names : Coll → Filter → Var
  | .argsGet => .argsGetNames | .argsPost => .argsPostNames | .cookies => .requestCookiesNames
  | .requestHeaders => .requestHeadersNames | .responseHeaders => .responseHeadersNames

/-- What the collection contains: the query arguments of the URL, the cookies, the
headers as given.  (For body arguments see C44 to C46.) -/
def Spec.Coll.Contents (lib : Lib) (t : Tx) (m : GoMap) : Coll → Prop
  | .argsGet => (t.url = none ∧ m = []) ∨ ∃ u, t.url = some u ∧ m = (lib.parseQuery u.rawQuery).1
  | .argsPost => True
  | .cookies => (t.reqHeader = none ∧ m = []) ∨ ∃ h, t.reqHeader = some h ∧ m = readCookie h
  | .requestHeaders => (t.reqHeader = none ∧ m = []) ∨ t.reqHeader = some m
  | .responseHeaders => (t.respHeader = none ∧ m = []) ∨ t.respHeader = some m

/-- Names, values and the two counts describe the same entries of `m`. -/
structure Spec.Coll.Agree (f : Filter) (m : GoMap) (vals names nvals nnames : List Bytes) : Prop where
  once : names.Nodup
  chosen : ∀ k, k ∈ names ↔ k ∈ m.map Prod.fst ∧ f.keep k = true
  values : vals.Perm (names.flatMap fun k => (m.get? k).getD [])
  countValues : ∃ s, nvals = [s] ∧ Decimal s (names.map fun k => ((m.get? k).getD []).length).sum
  countNames : ∃ s, nnames = [s] ∧ Decimal s names.length

/-- C41, the full claim, for the variables of a rule. -/
def C41_statement : Prop :=
  ∀ (c : Coll) (env : Env) (f : Filter) (t t1 t2 t3 t4 : Tx) (vals names nvals nnames : List Bytes),
    (c.values f).fetch env t = .ok (vals, t1) → (c.names f).fetch env t = .ok (names, t2) →
    (Var.count (c.values f)).fetch env t = .ok (nvals, t3) → (Var.count (c.names f)).fetch env t = .ok (nnames, t4) →
    ∃ m, c.Contents env.lib t m ∧ (m.WF → Coll.Agree f m vals names nvals nnames)

theorem coll_agree (f : Filter) (o : IterOrd) {m : GoMap} (h : m.WF) :
    Coll.Agree f m (f.fetch o m) (f.names o m) [itoa (f.fetch o m).length] [itoa (f.names o m).length] := by
  obtain ⟨h1, h2, h3, h4, h5⟩ := C41_names_values f o h
  refine ⟨h1, h2, h3, ⟨_, rfl, ?_⟩, ⟨_, rfl, itoa_decimal _⟩⟩
  have : (f.fetch o m).length = ((f.names o m).map fun k => ((m.get? k).getD []).length).sum := by
    rw [h3.length_eq, List.length_flatMap]
  rw [this]
  exact itoa_decimal _

/-- C41, what is true: the claim holds for every collection, for the request
headers once the URL is known. -/
theorem C41_agree_partial {c : Coll} {env : Env} {f : Filter} {t t1 t2 t3 t4 : Tx} {vals names nvals nnames : List Bytes}
    (h1 : (c.values f).fetch env t = .ok (vals, t1)) (h2 : (c.names f).fetch env t = .ok (names, t2))
    (h3 : (Var.count (c.values f)).fetch env t = .ok (nvals, t3)) (h4 : (Var.count (c.names f)).fetch env t = .ok (nnames, t4))
    (hu : c = .requestHeaders → t.url ≠ none) :
    ∃ m, c.Contents env.lib t m ∧ (m.WF → Coll.Agree f m vals names nvals nnames) := by
  have hn : nvals = [itoa vals.length] ∧ nnames = [itoa names.length] := by
    simp only [Var.fetch, h1, h2, Res.bind_ok', Res.ok.injEq, Prod.mk.injEq] at h3 h4
    exact ⟨h3.1.symm, h4.1.symm⟩
  obtain ⟨rfl, rfl⟩ := hn
  have key : ∀ m, vals = f.fetch env.ord m → names = f.names env.ord m → m.WF →
      Coll.Agree f m vals names [itoa vals.length] [itoa names.length] := by
    rintro m rfl rfl h
    exact coll_agree f env.ord h
  have hnil : f.fetch env.ord [] = [] ∧ f.names env.ord [] = [] := by
    have k : env.ord.run [] = [] := List.perm_nil.1 (env.ord.perm [])
    simp [Filter.fetch, Filter.names, Filter.fetchWithNames, k]
  cases c with
  | argsPost =>
    obtain ⟨m, k1, k2⟩ := C41_post h1 h2
    exact ⟨m, trivial, key m k1 k2⟩
  | argsGet =>
    simp only [Coll.values, Coll.names, Var.fetch, fetchArgsGet, fetchArgsGetNames, Res.ok.injEq, Prod.mk.injEq] at h1 h2
    cases ht : t.url with
    | none =>
      rw [ht] at h1 h2
      exact ⟨[], .inl ⟨ht, rfl⟩, key [] (h1.1.symm.trans hnil.1.symm) (h2.1.symm.trans hnil.2.symm)⟩
    | some u =>
      rw [ht] at h1 h2
      exact ⟨_, .inr ⟨u, ht, rfl⟩, key _ h1.1.symm h2.1.symm⟩
  | cookies =>
    simp only [Coll.values, Coll.names, Var.fetch, Res.ok.injEq, Prod.mk.injEq] at h1 h2
    cases ht : t.reqHeader with
    | none =>
      rw [ht] at h1 h2
      exact ⟨[], .inl ⟨ht, rfl⟩, key [] (h1.1.symm.trans hnil.1.symm) (h2.1.symm.trans hnil.2.symm)⟩
    | some u =>
      rw [ht] at h1 h2
      exact ⟨_, .inr ⟨u, ht, rfl⟩, key _ h1.1.symm h2.1.symm⟩
  | requestHeaders =>
    simp only [Coll.values, Coll.names, Var.fetch, Res.ok.injEq, Prod.mk.injEq] at h1 h2
    cases hur : t.url with
    | none => exact absurd hur (hu rfl)
    | some u =>
      rw [hur] at h2
      refine ⟨t.reqHeader.getD [], ?_, key _ h1.1.symm h2.1.symm⟩
      cases ht : t.reqHeader with
      | none => exact .inl ⟨ht, rfl⟩
      | some h => exact .inr ht
  | responseHeaders =>
    simp only [Coll.values, Coll.names, Var.fetch, Res.ok.injEq, Prod.mk.injEq] at h1 h2
    refine ⟨t.respHeader.getD [], ?_, key _ h1.1.symm h2.1.symm⟩
    cases ht : t.respHeader with
    | none => exact .inl ⟨ht, rfl⟩
    | some h => exact .inr ht

/-- C41, the exception: without a URL there are no header names, whatever the
headers. -/
theorem C41_no_url {env : Env} {f : Filter} {t : Tx} (h : t.url = none) :
    (Var.requestHeadersNames f).fetch env t = .ok ([], t) := by
  simp only [Var.fetch, h]

theorem C41_refuted : ¬ C41_statement := by
  intro h
  let t : Tx := { newTransaction limits with reqHeader := some [(b!"Host", [b!"a"])] }
  let env : Env := { lib := lib, ord := ord, limits := limits }
  obtain ⟨m, hm, ha⟩ := h .requestHeaders env {} t t t t t [b!"a"] [] [itoa 1] [itoa 0] rfl rfl rfl rfl
  rcases hm with ⟨h1, _⟩ | h1
  · cases h1
  · cases h1
    have := (ha (by simp [GoMap.WF])).chosen b!"Host"
    simp [Filter.keep] at this

/-- A host that announces no URL gets there: one header, no header name. -/
example :
    ∃ t, txOf (run (rules []) [.processRequestHeader (some [(b!"Host", [b!"a"])])]) = some t ∧
      (Var.requestHeaders {}).fetch env t = .ok ([b!"a"], t) ∧ (Var.requestHeadersNames {}).fetch env t = .ok ([], t) :=
  ⟨_, rfl, rfl, rfl⟩

/-- With a URL both agree: a repeated header, two names, three values. -/
example :
    ∃ t, txOf (run (rules []) [.processRequestURL (some { path := b!"/a" }) b!"GET" b!"HTTP/1.1",
        .processRequestHeader (some [(b!"A", [b!"1", b!"2"]), (b!"B", [b!"3"])])]) = some t ∧
      (Var.requestHeaders {}).fetch env t = .ok ([b!"1", b!"2", b!"3"], t) ∧
      (Var.requestHeadersNames {}).fetch env t = .ok ([b!"A", b!"B"], t) :=
  ⟨_, rfl, rfl, rfl⟩

/-- A header map with a repeated name: two names, three values. -/
example :
    let m : GoMap := [(b!"A", [b!"1", b!"2"]), (b!"B", [b!"3"])]
    ({} : Filter).names ord m = [b!"A", b!"B"] ∧ ({} : Filter).fetch ord m = [b!"1", b!"2", b!"3"] := by
  decide

/-! ### C42: cookies -/

/-- A piece of a Cookie line: blank, a `name=value` or a bare name, between white
space. -/
inductive CookieItem : Bytes → List (Bytes × Bytes) → Prop where
  | blank {w} : Blank w → CookieItem w []
  | pair {l r n v} : Blank l → Blank r → 61 ∉ n → 59 ∉ n → 59 ∉ v → Trimmed (n ++ 61 :: v) →
      CookieItem (l ++ (n ++ 61 :: v) ++ r) [(n, v)]
  | bare {l r n} : Blank l → Blank r → n ≠ [] → 61 ∉ n → 59 ∉ n → Trimmed n → CookieItem (l ++ n ++ r) [(n, [])]

/-- A Cookie line: pieces separated by ';'. -/
inductive CookieLine : Bytes → List (Bytes × Bytes) → Prop where
  | one {p cs} : CookieItem p cs → CookieLine p cs
  | more {p cs rest cs'} : CookieItem p cs → CookieLine rest cs' → CookieLine (p ++ 59 :: rest) (cs ++ cs')

/-- Several Cookie lines. -/
inductive CookieLines : List Bytes → List (Bytes × Bytes) → Prop where
  | nil : CookieLines [] []
  | cons {l cs ls cs'} : CookieLine l cs → CookieLines ls cs' → CookieLines (l :: ls) (cs ++ cs')

/-- Add pairs to a map. -/
def addPairs (m : GoMap) (cs : List (Bytes × Bytes)) : GoMap := cs.foldl (fun m c => m.append c.1 [c.2]) m

theorem takeWhile_to {n : Bytes} (h : (61 : UInt8) ∉ n) (v : Bytes) :
    (n ++ 61 :: v).takeWhile (fun x => decide (x ≠ 61)) = n ∧ n.takeWhile (fun x => decide (x ≠ 61)) = n := by
  induction n with
  | nil => simp
  | cons b n ih =>
    simp only [List.mem_cons, not_or] at h
    have hb : b ≠ 61 := fun e => h.1 e.symm
    simp only [List.cons_append, List.takeWhile_cons, hb, ne_eq, not_false_eq_true, decide_true, if_true]
    exact ⟨congrArg _ (ih h.2).1, congrArg _ (ih h.2).2⟩

theorem cookiePair_pair {n v : Bytes} (h : (61 : UInt8) ∉ n) : cookiePair (n ++ 61 :: v) = (n, v) := by
  have e : ∀ s : Bytes, s.takeWhile (· != 61) = s.takeWhile (fun x => decide (x ≠ 61)) := by
    intro s; congr 1; funext x; by_cases hx : x = 61 <;> simp [hx]
  simp only [cookiePair, e, (takeWhile_to h v).1]
  simp

theorem cookiePair_bare {n : Bytes} (h : (61 : UInt8) ∉ n) : cookiePair n = (n, []) := by
  have e : ∀ s : Bytes, s.takeWhile (· != 61) = s.takeWhile (fun x => decide (x ≠ 61)) := by
    intro s; congr 1; funext x; by_cases hx : x = 61 <;> simp [hx]
  simp only [cookiePair, e, (takeWhile_to h []).2]
  simp

theorem CookieItem.read {p : Bytes} {cs : List (Bytes × Bytes)} (h : CookieItem p cs) (res : GoMap) :
    readCookiePart res p = addPairs res cs ∧ 59 ∉ p := by
  have h59 : ∀ {w}, Blank w → (59 : UInt8) ∉ w := fun h => Blank.not_mem h (by decide) (by decide)
  cases h with
  | blank hw => exact ⟨by simp [readCookiePart, trimSpace_all_blank hw, addPairs], h59 hw⟩
  | @pair l r n v hl hr h1 h2 h3 ht =>
    constructor
    · have hlen : ¬ ((n ++ 61 :: v).length = 0) := by simp
      simp only [readCookiePart, trimSpace_of_trimmed hl hr ht, hlen, if_false, cookiePair_pair h1]
      rfl
    · simp only [List.mem_append, List.mem_cons, not_or]
      exact ⟨⟨h59 hl, h2, by decide, h3⟩, h59 hr⟩
  | @bare l r n hl hr hne h1 h2 ht =>
    constructor
    · have hn : ¬ (n.length = 0) := by
        intro e; exact hne (List.length_eq_zero_iff.1 e)
      simp only [readCookiePart, trimSpace_of_trimmed hl hr ht, hn, if_false, cookiePair_bare h1]
      rfl
    · simp only [List.mem_append, not_or]
      exact ⟨⟨h59 hl, h2⟩, h59 hr⟩

theorem addPairs_append (m : GoMap) (as bs : List (Bytes × Bytes)) : addPairs m (as ++ bs) = addPairs (addPairs m as) bs := by
  simp [addPairs]

theorem CookieLine.read {l : Bytes} {cs : List (Bytes × Bytes)} (h : CookieLine l cs) (res : GoMap) :
    readCookieLine res l = addPairs res cs := by
  rw [readCookieLine_eq]
  induction h generalizing res with
  | one hi => rw [splitByte_one (hi.read res).2]; exact (hi.read res).1
  | more hi _ ih =>
    rw [splitByte_sep (hi.read res).2, List.foldl_cons, (hi.read res).1, ih, addPairs_append]

theorem CookieLines.read {ls : List Bytes} {cs : List (Bytes × Bytes)} (h : CookieLines ls cs) (res : GoMap) :
    ls.foldl readCookieLine res = addPairs res cs := by
  induction h generalizing res with
  | nil => rfl
  | cons hl _ ih => rw [List.foldl_cons, hl.read, ih, addPairs_append]

theorem addPairs_wf {m : GoMap} (h : m.WF) (cs : List (Bytes × Bytes)) : (addPairs m cs).WF := by
  induction cs generalizing m with
  | nil => exact h
  | cons c cs ih => exact ih (GoMap.append_wf h _ _)

theorem addPairs_get (m : GoMap) (cs : List (Bytes × Bytes)) (k : Bytes) :
    ((addPairs m cs).get? k).getD [] = (m.get? k).getD [] ++ (cs.filter fun c => decide (c.1 = k)).map Prod.snd := by
  induction cs generalizing m with
  | nil => simp [addPairs]
  | cons c cs ih =>
    have : addPairs m (c :: cs) = addPairs (m.append c.1 [c.2]) cs := rfl
    rw [this, ih, GoMap.append_get, List.filter_cons]
    by_cases h : c.1 = k
    · simp [h]
    · have h' : ¬ (k = c.1) := fun e => h e.symm
      simp [h, h']

theorem addPairs_keys (m : GoMap) (cs : List (Bytes × Bytes)) (k : Bytes) :
    k ∈ (addPairs m cs).map Prod.fst ↔ k ∈ m.map Prod.fst ∨ k ∈ cs.map Prod.fst := by
  induction cs generalizing m with
  | nil => simp [addPairs]
  | cons c cs ih =>
    have : addPairs m (c :: cs) = addPairs (m.append c.1 [c.2]) cs := rfl
    rw [this, ih, GoMap.append_keys, List.map_cons, List.mem_cons]
    split
    · rename_i hm
      constructor
      · rintro (h | h)
        · exact .inl h
        · exact .inr (.inr h)
      · rintro (h | rfl | h)
        · exact .inl h
        · exact .inl hm
        · exact .inr h
    · rw [List.mem_append, List.mem_singleton, or_assoc]

theorem addPairs_values (m : GoMap) (cs : List (Bytes × Bytes)) (keep : Bytes → Bool) :
    (((addPairs m cs).filter fun e => keep e.1).flatMap Prod.snd).Perm
      ((m.filter fun e => keep e.1).flatMap Prod.snd ++ (cs.filter fun c => keep c.1).map Prod.snd) := by
  have app : ∀ (m : GoMap) (k : Bytes) (v : List Bytes), (((m.append k v).filter fun e => keep e.1).flatMap Prod.snd).Perm
      ((m.filter fun e => keep e.1).flatMap Prod.snd ++ if keep k then v else []) := by
    intro m k v
    induction m with
    | nil => by_cases h : keep k = true <;> simp [GoMap.append, h]
    | cons e m ih =>
      obtain ⟨k', v'⟩ := e
      simp only [GoMap.append]
      split
      · rename_i hk; subst hk
        by_cases h : keep k' = true
        · simp only [List.filter_cons, h, if_true, List.flatMap_cons, List.append_assoc]
          exact .append_left _ List.perm_append_comm
        · simp [h]
      · by_cases h : keep k' = true
        · simp only [List.filter_cons, h, if_true, List.flatMap_cons, List.append_assoc]
          exact .append_left _ ih
        · simp only [List.filter_cons, h]
          exact ih
  induction cs generalizing m with
  | nil => simp [addPairs]
  | cons c cs ih =>
    have : addPairs m (c :: cs) = addPairs (m.append c.1 [c.2]) cs := rfl
    rw [this]
    refine (ih _).trans ?_
    refine ((app m c.1 [c.2]).append_right _).trans ?_
    by_cases h : keep c.1 = true <;> simp [h]

/-- C42.  From Cookie lines carrying the pairs `cs`, REQUEST_COOKIES yields (for any
selector) the values of all pairs with a selected name, and REQUEST_COOKIES_NAMES
each selected name once; without selectors: all of them. -/
theorem C42_cookies {env : Env} {t : Tx} {h : GoMap} {lines : List Bytes} {cs : List (Bytes × Bytes)}
    (ht : t.reqHeader = some h) (hc : h.get? b!"Cookie" = some lines) (hl : CookieLines lines cs) (f : Filter) :
    ∃ vals names, (Var.requestCookies f).fetch env t = .ok (vals, t) ∧ (Var.requestCookiesNames f).fetch env t = .ok (names, t) ∧
      vals.Perm ((cs.filter fun c => f.keep c.1).map Prod.snd) ∧ names.Nodup ∧
      (∀ k, k ∈ names ↔ k ∈ cs.map Prod.fst ∧ f.keep k = true) ∧
      (f = {} → vals.Perm (cs.map Prod.snd) ∧ ∀ k, k ∈ names ↔ k ∈ cs.map Prod.fst) := by
  have hr : readCookie h = addPairs [] cs := by
    simp only [readCookie, hc]; exact hl.read []
  have hv : (f.fetch env.ord (readCookie h)).Perm ((cs.filter fun c => f.keep c.1).map Prod.snd) := by
    rw [hr]
    refine (f.fetch_perm _ _).trans ?_
    simpa using addPairs_values [] cs f.keep
  have hn : ∀ k, k ∈ f.names env.ord (readCookie h) ↔ k ∈ cs.map Prod.fst ∧ f.keep k = true := by
    intro k
    rw [f.mem_names, hr, addPairs_keys]
    simp
  refine ⟨_, _, by simp only [Var.fetch, ht], by simp only [Var.fetch, ht], hv, f.names_nodup _ _, hn, ?_⟩
  intro hf
  have hk : ∀ k, f.keep k = true := by intro k; rw [f.keep_iff, hf]; simp
  have e : (cs.filter fun c => f.keep c.1) = cs := List.filter_eq_self.2 fun c _ => hk c.1
  rw [e] at hv
  exact ⟨hv, by simpa [hk] using hn⟩

/-- C42.  Repeated names keep every value, in order. -/
theorem C42_repeated {h : GoMap} {lines : List Bytes} {cs : List (Bytes × Bytes)} (hc : h.get? b!"Cookie" = some lines)
    (hl : CookieLines lines cs) (k : Bytes) :
    ((readCookie h).get? k).getD [] = (cs.filter fun c => decide (c.1 = k)).map Prod.snd := by
  have hr : readCookie h = addPairs [] cs := by simp only [readCookie, hc]; exact hl.read []
  rw [hr, addPairs_get]; rfl

/-- Without a Cookie header there are none. -/
theorem C42_no_cookie {env : Env} {t : Tx} (h : t.reqHeader = none ∨ ∃ m, t.reqHeader = some m ∧ m.get? b!"Cookie" = none) (f : Filter) :
    (Var.requestCookies f).fetch env t = .ok ([], t) ∧ (Var.requestCookiesNames f).fetch env t = .ok ([], t) := by
  have k : env.ord.run [] = [] := List.perm_nil.1 (env.ord.perm [])
  rcases h with h | ⟨m, h, h'⟩
  · simp [Var.fetch, h]
  · simp [Var.fetch, h, readCookie, h', Filter.fetch, Filter.names, Filter.fetchWithNames, k]

/-- Two lines with a repeated name. -/
example : readCookie [(b!"Cookie", [b!"a=1; b=2;", b!" a=x=y ;c"])] =
    [(b!"a", [b!"1", b!"x=y"]), (b!"b", [b!"2"]), (b!"c", [[]])] := by decide +kernel

theorem trimmed_of_ends {a b : UInt8} {s : Bytes} (ha : 32 < a.toNat ∧ a.toNat < 128) (hb : 32 < b.toNat ∧ b.toNat < 128) :
    Trimmed (a :: (s ++ [b])) := by
  intro w u hw h
  rcases w with _ | ⟨c, w⟩
  · rfl
  · exfalso
    rcases h with h | h
    · simp only [List.cons_append, List.cons.injEq] at h
      exact Blank.not_mem hw ha.1 ha.2 (by simp [h.1])
    · have : b ∈ c :: w := by
        have e := congrArg List.getLast? h
        rw [← List.cons_append, List.getLast?_append, List.getLast?_append] at e
        have hne : (c :: w) ≠ [] := by simp
        rw [List.getLast?_eq_some_getLast hne] at e
        simp at e
        rw [e]; exact List.getLast_mem hne
      exact Blank.not_mem hw hb.1 hb.2 this

/-- The line `a=1; b=2` carries two cookies. -/
example : CookieLine b!"a=1; b=2" [(b!"a", b!"1"), (b!"b", b!"2")] := by
  have h1 : CookieItem b!"a=1" [(b!"a", b!"1")] :=
    .pair (l := []) (r := []) (n := b!"a") (v := b!"1") Blank.nil Blank.nil (by decide) (by decide) (by decide)
      (trimmed_of_ends (s := b!"=") (by decide) (by decide))
  have h2 : CookieItem b!" b=2" [(b!"b", b!"2")] :=
    .pair (l := b!" ") (r := []) (n := b!"b") (v := b!"2") ⟨[' '], by decide, by decide⟩ Blank.nil (by decide) (by decide) (by decide)
      (trimmed_of_ends (s := b!"=") (by decide) (by decide))
  exact .more h1 (.one h2)

/-! ### C43: REQUEST_BASENAME -/

/-- A path separator. -/
def Spec.Sep (b : UInt8) : Prop := b = 47 ∨ b = 92

/-- `b` is the last segment of the path `p`: what is left when trailing separators
are removed and everything up to the last remaining separator. -/
def Spec.Basename (p b : Bytes) : Prop :=
  (∀ c ∈ p, Spec.Sep c) ∧ b = [47] ∨
  ∃ dir tail, p = dir ++ b ++ tail ∧ b ≠ [] ∧ (∀ c ∈ b, ¬ Spec.Sep c) ∧ (∀ c ∈ tail, Spec.Sep c) ∧
    (dir = [] ∨ ∃ d c, dir = d ++ [c] ∧ Spec.Sep c)

theorem isPathSeparator_iff (b : UInt8) : isPathSeparator b = true ↔ Spec.Sep b := by
  simp only [isPathSeparator, Spec.Sep, Bool.or_eq_true, beq_iff_eq]; exact Or.comm

theorem dropWhile_nil_iff {α : Type} {p : α → Bool} {l : List α} : l.dropWhile p = [] ↔ ∀ x ∈ l, p x = true := by
  induction l with
  | nil => simp
  | cons a l ih =>
    by_cases h : p a = true <;> simp [h, ih]

theorem takeWhile_split {α : Type} (p : α → Bool) (l : List α) :
    ∃ v, l = l.takeWhile p ++ v ∧ (∀ x ∈ l.takeWhile p, p x = true) ∧ (v = [] ∨ ∃ a w, v = a :: w ∧ p a = false) := by
  induction l with
  | nil => exact ⟨[], rfl, by simp, .inl rfl⟩
  | cons a l ih =>
    by_cases h : p a = true
    · obtain ⟨v, h1, h2, h3⟩ := ih
      refine ⟨v, ?_, ?_, h3⟩
      · simp only [List.takeWhile_cons, h, if_true, List.cons_append]; rw [← h1]
      · simpa [h] using h2
    · refine ⟨a :: l, by simp [h], by simp [h], .inr ⟨a, l, rfl, by simpa using h⟩⟩

theorem dropWhile_head {α : Type} {p : α → Bool} {l : List α} {a : α} {r : List α} (h : l.dropWhile p = a :: r) : p a = false := by
  induction l with
  | nil => cases h
  | cons b l ih =>
    by_cases hb : p b = true
    · simp only [List.dropWhile_cons, hb, if_true] at h; exact ih h
    · simp only [List.dropWhile_cons, hb] at h
      simp only [Bool.false_eq_true, if_false, List.cons.injEq] at h
      rw [← h.1]; simpa using hb

/-- C43.  The value of REQUEST_BASENAME is the last non-empty segment of the path. -/
theorem C43_basename {env : Env} {t : Tx} {u : URL} (h : t.url = some u) :
    ∃ b, Var.requestBasename.fetch env t = .ok ([b], t) ∧ Spec.Basename u.path b := by
  refine ⟨basename u.path, by simp only [Var.fetch, h], ?_⟩
  have hsep : ∀ c, isPathSeparator c = false ↔ ¬ Spec.Sep c := by
    intro c; rw [← isPathSeparator_iff]; cases isPathSeparator c <;> simp
  by_cases hall : ∀ c ∈ u.path, Spec.Sep c
  · refine .inl ⟨hall, ?_⟩
    have : u.path.reverse.dropWhile isPathSeparator = [] :=
      dropWhile_nil_iff.2 fun c hc => (isPathSeparator_iff c).2 (hall c (List.mem_reverse.1 hc))
    simp only [basename, this, List.reverse_nil, if_true]
    split <;> rfl
  · right
    have hne : u.path ≠ [] := by rintro e; rw [e] at hall; simp at hall
    obtain ⟨w, h1, h2⟩ := dropWhile_split isPathSeparator u.path.reverse
    have hd : u.path.reverse.dropWhile isPathSeparator ≠ [] := by
      intro e
      rw [dropWhile_nil_iff] at e
      exact hall fun c hc => (isPathSeparator_iff c).1 (e c (List.mem_reverse.2 hc))
    have hp : u.path = (u.path.reverse.dropWhile isPathSeparator).reverse ++ w.reverse := by
      have := congrArg List.reverse h1
      simpa using this
    obtain ⟨v, h3, h4, h5⟩ := takeWhile_split (fun b => !isPathSeparator b) (u.path.reverse.dropWhile isPathSeparator)
    have hb : (u.path.reverse.dropWhile isPathSeparator).takeWhile (fun b => !isPathSeparator b) ≠ [] := by
      cases hq : u.path.reverse.dropWhile isPathSeparator with
      | nil => exact absurd hq hd
      | cons a r => simp [dropWhile_head hq]
    have e : basename u.path = ((u.path.reverse.dropWhile isPathSeparator).takeWhile (fun b => !isPathSeparator b)).reverse := by
      have hd' : ¬ ((u.path.reverse.dropWhile isPathSeparator).reverse = []) := by simpa using hd
      simp only [basename, hne, if_false, hd', List.reverse_reverse]
      rw [if_neg (by simpa using hb)]
    rw [e]
    refine ⟨v.reverse, w.reverse, ?_, by simpa using hb, ?_, ?_, ?_⟩
    · have := congrArg List.reverse h3
      rw [List.reverse_append] at this
      rw [← this]; exact hp
    · intro c hc
      have := h4 c (List.mem_reverse.1 hc)
      rw [← hsep]; simpa using this
    · intro c hc; exact (isPathSeparator_iff c).1 (h2 c (List.mem_reverse.1 hc))
    · rcases h5 with rfl | ⟨a, x, rfl, ha⟩
      · exact .inl rfl
      · refine .inr ⟨x.reverse, a, by simp, (isPathSeparator_iff a).1 (by simpa using ha)⟩

/-- The specification determines the value: it is `/` iff the path has only
separators, and otherwise the segment is unique. -/
theorem C43_unique {p b b' : Bytes} (h : Spec.Basename p b) (h' : Spec.Basename p b') : b = b' := by
  have seg : ∀ {b}, (∃ dir tail, p = dir ++ b ++ tail ∧ b ≠ [] ∧ (∀ c ∈ b, ¬ Spec.Sep c) ∧ (∀ c ∈ tail, Spec.Sep c) ∧
      (dir = [] ∨ ∃ d c, dir = d ++ [c] ∧ Spec.Sep c)) →
      b.reverse = (p.reverse.dropWhile isPathSeparator).takeWhile (fun b => !isPathSeparator b) := by
    rintro b ⟨dir, tail, rfl, hne, hb, ht, hd⟩
    rw [List.reverse_append, dropWhile_append_all (fun c hc => (isPathSeparator_iff c).2 (ht c (List.mem_reverse.1 hc))),
      List.reverse_append]
    have hb' : ∀ c ∈ b.reverse, isPathSeparator c = false := by
      intro c hc
      have := hb c (List.mem_reverse.1 hc)
      rw [← isPathSeparator_iff] at this; simpa using this
    have hd' : dir.reverse = [] ∨ ∃ c w, dir.reverse = c :: w ∧ isPathSeparator c = true := by
      rcases hd with rfl | ⟨d, c, rfl, hc⟩
      · exact .inl rfl
      · exact .inr ⟨c, d.reverse, by simp, (isPathSeparator_iff c).2 hc⟩
    have hne' : b.reverse ≠ [] := by simpa using hne
    generalize b.reverse = x at hb' hne'
    generalize dir.reverse = y at hd'
    have key : ∀ x : Bytes, (∀ c ∈ x, isPathSeparator c = false) → (x ++ y).takeWhile (fun b => !isPathSeparator b) = x := by
      intro x
      induction x with
      | nil =>
        intro _
        rcases hd' with rfl | ⟨c, w, rfl, hc⟩
        · rfl
        · simp [hc]
      | cons c x ih =>
        intro hx
        simp only [List.mem_cons, forall_eq_or_imp] at hx
        simp [hx.1, ih hx.2]
    rcases x with _ | ⟨c, x⟩
    · exact absurd rfl hne'
    · simp only [List.cons_append, List.dropWhile_cons, hb' c (by simp), Bool.false_eq_true, if_false]
      exact (key (c :: x) hb').symm
  have excl : ∀ {b}, (∀ c ∈ p, Spec.Sep c) → (∃ dir tail, p = dir ++ b ++ tail ∧ b ≠ [] ∧ (∀ c ∈ b, ¬ Spec.Sep c) ∧ (∀ c ∈ tail, Spec.Sep c) ∧
      (dir = [] ∨ ∃ d c, dir = d ++ [c] ∧ Spec.Sep c)) → False := by
    rintro b hall ⟨dir, tail, rfl, hne, hb, _⟩
    rcases b with _ | ⟨c, b⟩
    · exact hne rfl
    · exact hb c (by simp) (hall c (by simp))
  rcases h with ⟨h1, rfl⟩ | h <;> rcases h' with ⟨h2, rfl⟩ | h'
  · rfl
  · exact (excl h1 h').elim
  · exact (excl h2 h).elim
  · have := (seg h).trans (seg h').symm
    simpa using congrArg List.reverse this

example : [b!"/a/b.php", b!"/a/b//", b!"\\x\\y", b!"///", b!"", b!"z"].map basename = [b!"b.php", b!"b", b!"y", b!"/", b!"/", b!"z"] := by
  decide

/-! ### C48: ARGS -/

/-- C48.  ARGS is ARGS_GET followed by ARGS_POST, ARGS_NAMES is ARGS_GET_NAMES
followed by ARGS_POST_NAMES. -/
theorem C48_union (env : Env) (g p : Filter) (t : Tx) :
    (Var.args g p).fetch env t = ((Var.argsGet g).fetch env t).bind (fun (a, t1) => ((Var.argsPost p).fetch env t1).bind fun (b, t2) => .ok (a ++ b, t2)) ∧
    (Var.argsNames g p).fetch env t = ((Var.argsGetNames g).fetch env t).bind (fun (a, t1) => ((Var.argsPostNames p).fetch env t1).bind fun (b, t2) => .ok (a ++ b, t2)) :=
  ⟨rfl, rfl⟩

/-- Apply selectors to a variable. -/
def Var.applySelectors (lib : Lib) : Var → List Selector → Option Var
  | v, [] => some v
  | v, .incl s :: ss => (v.include lib s).bind fun v => v.applySelectors lib ss
  | v, .excl s :: ss => (v.exclude lib s).bind fun v => v.applySelectors lib ss

/-- C48.  Selectors given to ARGS apply to both parts, exactly as when given to
ARGS_GET and ARGS_POST; likewise for ARGS_NAMES. -/
theorem C48_selectors (lib : Lib) (ss : List Selector) :
    (Var.args {} {}).applySelectors lib ss = (applySelectors lib.rx {} ss).map (fun f => .args f f) ∧
    (Var.argsNames {} {}).applySelectors lib ss = (applySelectors lib.rx {} ss).map (fun f => .argsNames f f) ∧
    (Var.argsGet {}).applySelectors lib ss = (applySelectors lib.rx {} ss).map .argsGet ∧
    (Var.argsPost {}).applySelectors lib ss = (applySelectors lib.rx {} ss).map .argsPost ∧
    (Var.argsGetNames {}).applySelectors lib ss = (applySelectors lib.rx {} ss).map .argsGetNames ∧
    (Var.argsPostNames {}).applySelectors lib ss = (applySelectors lib.rx {} ss).map .argsPostNames := by
  generalize ({} : Filter) = f
  induction ss generalizing f with
  | nil => exact ⟨rfl, rfl, rfl, rfl, rfl, rfl⟩
  | cons sel ss ih =>
    cases sel with
    | incl s =>
      simp only [Var.applySelectors, applySelectors, Var.include, Var.select]
      cases hf : f.include lib.rx s with
      | none => exact ⟨rfl, rfl, rfl, rfl, rfl, rfl⟩
      | some f' => simpa using ih f'
    | excl s =>
      simp only [Var.applySelectors, applySelectors, Var.exclude, Var.select]
      cases hf : f.exclude lib.rx s with
      | none => exact ⟨rfl, rfl, rfl, rfl, rfl, rfl⟩
      | some f' => simpa using ih f'

/-- ARGS of a POST request with a query: both values of `q`, unless excluded. -/
example :
    let t : Tx := { newTransaction limits with
      url := some { rawQuery := b!"1" }, method := b!"POST", reqHeader := some [(b!"Content-Type", [b!"application/x-www-form-urlencoded"])],
      reqBody := { newBuffer 8 16 with memBuf := b!"2", length := 1 } }
    let vals (ss : List Selector) := ((Var.args {} {}).applySelectors lib ss).map fun v => match v.fetch env t with | .ok (vs, _) => vs | _ => []
    vals [] = some [b!"1", b!"2"] ∧ vals [.excl b!"q"] = some [] := by
  decide +kernel

/-! ### C49: REQUEST_URI -/

/-- C49.  REQUEST_URI depends on the path, query and fragment only. -/
theorem C49_request_uri {env : Env} {t t' : Tx} {u u' : URL} (h : t.url = some u) (h' : t'.url = some u')
    (hp : u.path = u'.path) (hr : u.rawPath = u'.rawPath) (hf : u.forceQuery = u'.forceQuery) (hq : u.rawQuery = u'.rawQuery)
    (hg : u.fragment = u'.fragment) :
    ∃ v, Var.requestUri.fetch env t = .ok (v, t) ∧ Var.requestUri.fetch env t' = .ok (v, t') := by
  refine ⟨_, rfl, ?_⟩
  simp only [Var.fetch, fetchRequestUri, h, h', hp, hr, hf, hq, hg]

example :
    let t (u : URL) : Tx := { newTransaction limits with url := some u }
    (match Var.requestUri.fetch env (t { path := b!"/a" }), Var.requestUri.fetch env (t { scheme := b!"http", host := b!"h", path := b!"/a" }) with
     | .ok (a, _), .ok (b, _) => (a, b)
     | _, _ => ([], [])) = ([b!"/a"], [b!"/a"]) := by
  decide

end Verif
