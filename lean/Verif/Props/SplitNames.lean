import Verif.Props.FormLaws
/-! C116 where the two rules share variables: `ARGS:a|ARGS:b` may be written as two rules. -/
namespace Verif
open Sample Spec

/-- If the two lists have a variable in common, it is not counted, and both lists pick from it by
name only, or by pattern only, and exclude nothing. -/
def Spec.Divides (vs ws : List PVar) : Prop :=
  ∀ v ∈ vs, ∀ w ∈ ws, v.tk = w.tk → v.count = w.count → v.count = false ∧
    ((∀ u ∈ vs ++ ws, u.tk = v.tk → u.count = false → u.exclusion = false ∧ u.index ≠ [] ∧ ¬ ∃ re, IsRegex u.index re) ∨
      ∀ u ∈ vs ++ ws, u.tk = v.tk → u.count = false → u.exclusion = false ∧ u.index ≠ [] ∧ ∃ re, IsRegex u.index re)

theorem Spec.NoneShared.divides {vs ws : List PVar} (h : NoneShared vs ws) : Divides vs ws :=
  fun v hv w hw h1 h2 => absurd (by rw [h1, h2]) (h v hv w hw)

theorem Spec.Splits.mono {R R' : List PVar → List PVar → Prop} (hR : ∀ vs ws, R vs ws → R' vs ws) {cs ds : List (List PRule)} (h : Splits R cs ds) :
    Splits R' cs ds := by
  induction h with
  | nil => exact .nil
  | same _ ih => exact .same ih
  | split h1 h2 _ ih => exact .split h1 (hR _ _ h2) ih

/-! ### What is shown for the names in `P` or in `Q` is what is shown for those in `P`, and in `Q` -/

theorem valuesIn_mem {P : Bytes → Prop} {m : List (Bytes × List Bytes)} {y : Bytes} :
    (∃ vals, ValuesIn P m vals ∧ y ∈ vals) ↔ ∃ e ∈ m, P e.1 ∧ y ∈ e.2 := by
  constructor
  · rintro ⟨vals, ⟨keep, hk, hp⟩, hy⟩
    obtain ⟨e, he, hye⟩ := List.mem_flatMap.1 (hp.mem_iff.1 hy)
    obtain ⟨h1, h2⟩ := List.mem_filter.1 he
    exact ⟨e, h1, (hk _).1 h2, hye⟩
  · rintro ⟨e, he, hP, hye⟩
    have : DecidablePred P := fun k => Classical.propDecidable _
    refine ⟨_, ⟨fun k => decide (P k), fun k => decide_eq_true_iff, List.Perm.refl _⟩, List.mem_flatMap.2 ⟨e, List.mem_filter.2 ⟨he, ?_⟩, hye⟩⟩
    exact decide_eq_true hP

theorem nodup_exists {α : Type} (P : α → Prop) (l : List α) : ∃ l' : List α, l'.Nodup ∧ ∀ k, k ∈ l' ↔ k ∈ l ∧ P k := by
  induction l with
  | nil => exact ⟨[], List.nodup_nil, by simp⟩
  | cons a l ih =>
    obtain ⟨l', h1, h2⟩ := ih
    by_cases h : a ∉ l' ∧ P a
    · exact ⟨a :: l', List.nodup_cons.2 ⟨h.1, h1⟩, by intro k; simp only [List.mem_cons, h2]; grind⟩
    · exact ⟨l', h1, by intro k; simp only [List.mem_cons]; grind⟩

theorem namesIn_exists {α : Type} (P : Bytes → Prop) (m : List (Bytes × α)) : ∃ vals, NamesIn P m vals := nodup_exists P _

theorem namesIn_mem {α : Type} {P : Bytes → Prop} {m : List (Bytes × α)} {y : Bytes} :
    (∃ vals, NamesIn P m vals ∧ y ∈ vals) ↔ y ∈ m.map Prod.fst ∧ P y := by
  constructor
  · rintro ⟨vals, h, hy⟩
    exact (h.2 y).1 hy
  · intro h
    obtain ⟨vals, hv⟩ := namesIn_exists P m
    exact ⟨vals, hv, (hv.2 y).2 h⟩

/-- What `L` shows for two sets of names together is what it shows for each. -/
def Spec.Additive (L : (Bytes → Prop) → List Bytes → VarTok → Prop) : Prop :=
  ∀ (P Q : Bytes → Prop) (tk : VarTok) (y : Bytes),
    (∃ vals, L (fun k => P k ∨ Q k) vals tk ∧ y ∈ vals) ↔ (∃ vals, L P vals tk ∧ y ∈ vals) ∨ ∃ vals, L Q vals tk ∧ y ∈ vals

theorem valuesIn_add {P Q : Bytes → Prop} {m : List (Bytes × List Bytes)} {y : Bytes} :
    (∃ vals, ValuesIn (fun k => P k ∨ Q k) m vals ∧ y ∈ vals) ↔ (∃ vals, ValuesIn P m vals ∧ y ∈ vals) ∨ ∃ vals, ValuesIn Q m vals ∧ y ∈ vals := by
  simp only [valuesIn_mem]
  grind

theorem namesIn_add {α : Type} {P Q : Bytes → Prop} {m : List (Bytes × α)} {y : Bytes} :
    (∃ vals, NamesIn (fun k => P k ∨ Q k) m vals ∧ y ∈ vals) ↔ (∃ vals, NamesIn P m vals ∧ y ∈ vals) ∨ ∃ vals, NamesIn Q m vals ∧ y ∈ vals := by
  simp only [namesIn_mem]
  grind

/-- The same where the entries are only given by a condition. -/
theorem given_add {α : Type} {C : α → Prop} {I : (Bytes → Prop) → α → List Bytes → Prop} {P Q : Bytes → Prop} {y : Bytes}
    (h : ∀ m, (∃ vals, I (fun k => P k ∨ Q k) m vals ∧ y ∈ vals) ↔ (∃ vals, I P m vals ∧ y ∈ vals) ∨ ∃ vals, I Q m vals ∧ y ∈ vals) :
    (∃ vals, (∃ m, C m ∧ I (fun k => P k ∨ Q k) m vals) ∧ y ∈ vals) ↔
      (∃ vals, (∃ m, C m ∧ I P m vals) ∧ y ∈ vals) ∨ ∃ vals, (∃ m, C m ∧ I Q m vals) ∧ y ∈ vals := by
  constructor
  · rintro ⟨vals, ⟨m, hm, hi⟩, hy⟩
    rcases (h m).1 ⟨vals, hi, hy⟩ with ⟨v, h1, h2⟩ | ⟨v, h1, h2⟩
    · exact .inl ⟨v, ⟨m, hm, h1⟩, h2⟩
    · exact .inr ⟨v, ⟨m, hm, h1⟩, h2⟩
  · rintro (⟨v, ⟨m, hm, hi⟩, hy⟩ | ⟨v, ⟨m, hm, hi⟩, hy⟩)
    · obtain ⟨vals, h1, h2⟩ := (h m).2 (.inl ⟨v, hi, hy⟩)
      exact ⟨vals, ⟨m, hm, h1⟩, h2⟩
    · obtain ⟨vals, h1, h2⟩ := (h m).2 (.inr ⟨v, hi, hy⟩)
      exact ⟨vals, ⟨m, hm, h1⟩, h2⟩

/-- And for the names in two lists of entries. -/
theorem twoNames_mem {α β : Type} {P : Bytes → Prop} {m : List (Bytes × α)} {m' : List (Bytes × β)} {y : Bytes} :
    (∃ vals : List Bytes, (∃ a b, NamesIn P m a ∧ NamesIn P m' b ∧ vals.Perm (a ++ b)) ∧ y ∈ vals) ↔ (y ∈ m.map Prod.fst ∨ y ∈ m'.map Prod.fst) ∧ P y := by
  constructor
  · rintro ⟨vals, ⟨a, b, ha, hb, hp⟩, hy⟩
    rcases List.mem_append.1 (hp.mem_iff.1 hy) with h | h
    · have := (ha.2 y).1 h; exact ⟨.inl this.1, this.2⟩
    · have := (hb.2 y).1 h; exact ⟨.inr this.1, this.2⟩
  · rintro ⟨h, hP⟩
    obtain ⟨a, ha⟩ := namesIn_exists P m
    obtain ⟨b, hb⟩ := namesIn_exists P m'
    refine ⟨a ++ b, ⟨a, b, ha, hb, .refl _⟩, List.mem_append.2 ?_⟩
    rw [ha.2, hb.2]
    grind

theorem twoNames_add {α β : Type} {P Q : Bytes → Prop} {m : List (Bytes × α)} {m' : List (Bytes × β)} {y : Bytes} :
    (∃ vals : List Bytes, (∃ a b, NamesIn (fun k => P k ∨ Q k) m a ∧ NamesIn (fun k => P k ∨ Q k) m' b ∧ vals.Perm (a ++ b)) ∧ y ∈ vals) ↔
      (∃ vals : List Bytes, (∃ a b, NamesIn P m a ∧ NamesIn P m' b ∧ vals.Perm (a ++ b)) ∧ y ∈ vals) ∨
      ∃ vals : List Bytes, (∃ a b, NamesIn Q m a ∧ NamesIn Q m' b ∧ vals.Perm (a ++ b)) ∧ y ∈ vals := by
  simp only [twoNames_mem]
  grind

theorem lists_additive (lib : Lib) (k : Facts) : Additive (Lists lib k) := by
  intro P Q tk y
  cases tk
  case requestHeaders => exact valuesIn_add
  case responseHeaders => exact valuesIn_add
  case argsGet => exact valuesIn_add
  case requestHeadersNames => exact namesIn_add
  case responseHeadersNames => exact namesIn_add
  case argsGetNames => exact namesIn_add
  case requestCookies => exact given_add (I := fun P (cs : List (Bytes × Bytes)) => ValuesIn P (cs.map fun c => (c.1, [c.2]))) fun _ => valuesIn_add
  case requestCookiesNames => exact given_add (I := fun P (cs : List (Bytes × Bytes)) => NamesIn P cs) fun _ => namesIn_add
  all_goals exact (or_self_iff).symm

theorem listsAll_additive (lib : Lib) (req resp : Bool) (k : Known) : Additive (ListsAll lib req resp k) := by
  intro P Q tk y
  have g := lists_additive lib k.facts P Q tk y
  cases tk
  case argsPost => exact given_add (I := ValuesIn) fun _ => valuesIn_add
  case args => exact given_add (I := fun P m => ValuesIn P (getArgs lib k ++ m)) fun _ => valuesIn_add
  case argsPostNames => exact given_add (I := NamesIn) fun _ => namesIn_add
  case argsNames =>
    have := given_add (C := PostArgs lib req k) (I := fun P m vals => ∃ a b, NamesIn P (getArgs lib k) a ∧ NamesIn P m b ∧ vals.Perm (a ++ b))
      (P := P) (Q := Q) (y := y) fun _ => twoNames_add
    simpa only [ListsAll, exists_and_left] using this
  case requestBody => exact (or_self_iff).symm
  case responseBody => exact (or_self_iff).symm
  all_goals exact g

theorem listsForm_additive (lib : Lib) (req resp : Bool) (fs : List (Bytes × Bytes)) (k : Known) : Additive (ListsForm lib req resp fs k) := by
  intro P Q tk y
  have g := listsAll_additive lib req resp k P Q tk y
  cases tk
  case argsPost => exact given_add (I := ValuesIn) fun _ => valuesIn_add
  case args => exact given_add (I := fun P m => ValuesIn P (getArgs lib k ++ m)) fun _ => valuesIn_add
  case argsPostNames => exact given_add (I := NamesIn) fun _ => namesIn_add
  case argsNames =>
    have := given_add (C := SentArgs req fs k) (I := fun P m vals => ∃ a b, NamesIn P (getArgs lib k) a ∧ NamesIn P m b ∧ vals.Perm (a ++ b))
      (P := P) (Q := Q) (y := y) fun _ => twoNames_add
    simpa only [ListsForm, exists_and_left] using this
  all_goals exact g

/-! ### Dividing the variables of a rule -/

theorem selectors_mem {vs : List PVar} {tk : VarTok} {c : Bool} {s : Selector} :
    s ∈ selectors vs tk c ↔ ∃ v ∈ vs, v.tk = tk ∧ v.count = c ∧ v.index ≠ [] ∧ selectorOf v = s := by
  simp only [selectors, List.mem_map, List.mem_filter, decide_eq_true_eq]
  grind

/-- Inclusions of one kind in both lists: picked by both together is picked by one. -/
theorem picked_add {rx : Bytes → Option (Bytes → Bool)} {ss ts : List Selector} {b : Bool} (hs : ss ≠ []) (ht : ts ≠ [])
    (h : ∀ s ∈ ss ++ ts, ∃ x, s = .incl x ∧ ((∃ re, IsRegex x re) ↔ b = true)) (k : Bytes) :
    Picked rx (ss ++ ts) k ↔ Picked rx ss k ∨ Picked rx ts k := by
  have no : ∀ {us : List Selector}, (∀ s ∈ us, ∃ x, s = .incl x ∧ ((∃ re, IsRegex x re) ↔ b = true)) → ¬ ∃ s, .excl s ∈ us ∧ Denotes rx s k := by
    rintro us hu ⟨s, hs, _⟩
    obtain ⟨x, e, _⟩ := hu _ hs
    cases e
  have hu : ∀ {us : List Selector}, us ≠ [] → (∀ s ∈ us, ∃ x, s = .incl x ∧ ((∃ re, IsRegex x re) ↔ b = true)) →
      (Picked rx us k ↔ if b then ∃ s, .incl s ∈ us ∧ Denotes rx s k else .incl k ∈ us) := by
    intro us hne hu
    obtain ⟨s0, hs0⟩ := List.exists_mem_of_ne_nil us hne
    obtain ⟨x0, rfl, hx0⟩ := hu s0 hs0
    have hin : ∀ x, .incl x ∈ us → ((∃ re, IsRegex x re) ↔ b = true) := by
      intro x hx
      obtain ⟨x', e, h⟩ := hu _ hx
      cases e; exact h
    simp only [Picked, no hu, not_false_eq_true, and_true]
    cases b with
    | true =>
      simp only [if_true, iff_true] at hin hx0 ⊢
      constructor
      · rintro ⟨_, h | ⟨s, h1, _, h3⟩⟩
        · exact absurd hx0 (h x0 hs0)
        · exact ⟨s, h1, h3⟩
      · rintro ⟨s, h1, h2⟩
        exact ⟨.inl hin, .inr ⟨s, h1, hin s h1, h2⟩⟩
    | false =>
      simp only [Bool.false_eq_true, if_false, iff_false] at hin hx0 ⊢
      constructor
      · rintro ⟨h | h, _⟩
        · exact absurd (h x0 hs0) hx0
        · exact h.1
      · intro h
        exact ⟨.inr ⟨h, hin k h⟩, .inl hin⟩
  rw [hu (by simp [hs]) h, hu hs fun s hs => h s (List.mem_append_left _ hs), hu ht fun s hs => h s (List.mem_append_right _ hs)]
  cases b <;> simp only [if_true, Bool.false_eq_true, if_false, List.mem_append]
  grind

theorem holds_divide {lib : Lib} {L : (Bytes → Prop) → List Bytes → VarTok → Prop} (hL : Additive L) {p : PRule} {vs ws : List PVar} (hp : p.vars = vs ++ ws)
    (h : Divides vs ws) : HoldsBy lib L p ↔ HoldsBy lib L (PRule.on p vs) ∨ HoldsBy lib L (PRule.on p ws) := by
  have part : ∀ (tk : VarTok) (c : Bool) (y : Bytes), ((∃ v ∈ vs ++ ws, v.tk = tk ∧ v.count = c) ∧ TestedBy lib.rx L (vs ++ ws) (tk, c) y) ↔
      ((∃ v ∈ vs, v.tk = tk ∧ v.count = c) ∧ TestedBy lib.rx L vs (tk, c) y) ∨ ((∃ w ∈ ws, w.tk = tk ∧ w.count = c) ∧ TestedBy lib.rx L ws (tk, c) y) := by
    intro tk c y
    by_cases hv : ∃ v ∈ vs, v.tk = tk ∧ v.count = c
    · by_cases hw : ∃ w ∈ ws, w.tk = tk ∧ w.count = c
      · obtain ⟨v, hv1, rfl, rfl⟩ := hv
        obtain ⟨w, hw1, hw2, hw3⟩ := hw
        obtain ⟨hc, hk⟩ := h v hv1 w hw1 hw2.symm hw3.symm
        have hpick : ∀ k, Picked lib.rx (selectors (vs ++ ws) v.tk v.count) k ↔ Picked lib.rx (selectors vs v.tk v.count) k ∨ Picked lib.rx (selectors ws v.tk v.count) k := by
          obtain ⟨b, hb⟩ : ∃ b : Bool, ∀ u ∈ vs ++ ws, u.tk = v.tk → u.count = false → u.exclusion = false ∧ u.index ≠ [] ∧ ((∃ re, IsRegex u.index re) ↔ b = true) := by
            rcases hk with hk | hk
            · exact ⟨false, fun u h1 h2 h3 => ⟨(hk u h1 h2 h3).1, (hk u h1 h2 h3).2.1, by simpa using (hk u h1 h2 h3).2.2⟩⟩
            · exact ⟨true, fun u h1 h2 h3 => ⟨(hk u h1 h2 h3).1, (hk u h1 h2 h3).2.1, by simpa using (hk u h1 h2 h3).2.2⟩⟩
          intro k
          rw [selectors_append]
          refine picked_add (b := b) ?_ ?_ ?_ k
          · exact List.ne_nil_of_mem (selectors_mem.2 ⟨v, hv1, rfl, rfl, (hb v (List.mem_append_left _ hv1) rfl hc).2.1, rfl⟩)
          · exact List.ne_nil_of_mem (selectors_mem.2 ⟨w, hw1, hw2, hw3, (hb w (List.mem_append_right _ hw1) hw2 (hw3.trans hc)).2.1, rfl⟩)
          · intro s hs
            rw [← selectors_append] at hs
            obtain ⟨u, h1, h2, h3, _, rfl⟩ := selectors_mem.1 hs
            obtain ⟨g1, _, g3⟩ := hb u h1 h2 (h3.trans hc)
            exact ⟨u.index, by simp [selectorOf, g1], g3⟩
        have e : Picked lib.rx (selectors (vs ++ ws) v.tk v.count) = fun k =>
            Picked lib.rx (selectors vs v.tk v.count) k ∨ Picked lib.rx (selectors ws v.tk v.count) k := funext fun k => propext (hpick k)
        have h1 : ∃ u ∈ vs ++ ws, u.tk = v.tk ∧ u.count = v.count := ⟨v, List.mem_append_left _ hv1, rfl, rfl⟩
        have h2 : ∃ u ∈ vs, u.tk = v.tk ∧ u.count = v.count := ⟨v, hv1, rfl, rfl⟩
        have h3 : ∃ u ∈ ws, u.tk = v.tk ∧ u.count = v.count := ⟨w, hw1, hw2, hw3⟩
        simp only [h1, h2, h3, true_and, TestedBy, e]
        rw [hc] at e ⊢
        simpa only [Bool.false_eq_true, if_false] using hL _ _ v.tk y
      · have hs : selectors ws tk c = [] := selectors_none fun w hw1 e => hw ⟨w, hw1, (Prod.mk.inj e).1.symm, (Prod.mk.inj e).2.symm⟩
        have h1 : ∃ v ∈ vs ++ ws, v.tk = tk ∧ v.count = c := hv.elim fun v h => ⟨v, List.mem_append_left _ h.1, h.2⟩
        simp only [h1, hv, hw, true_and, false_and, or_false, TestedBy, selectors_append, hs, List.append_nil]
    · have hs : selectors vs tk c = [] := selectors_none fun v hv1 e => hv ⟨v, hv1, (Prod.mk.inj e).1.symm, (Prod.mk.inj e).2.symm⟩
      have h1 : (∃ v ∈ vs ++ ws, v.tk = tk ∧ v.count = c) ↔ ∃ w ∈ ws, w.tk = tk ∧ w.count = c := by
        simp only [List.mem_append]
        grind
      simp only [h1, hv, false_and, false_or, TestedBy, selectors_append, hs, List.nil_append]
  have flat : ∀ (us : List PVar) (T : Bytes → Prop), (∃ v ∈ us, ∃ y, TestedBy lib.rx L us (v.tk, v.count) y ∧ T y) ↔
      ∃ tk c y, ((∃ v ∈ us, v.tk = tk ∧ v.count = c) ∧ TestedBy lib.rx L us (tk, c) y) ∧ T y := by
    intro us T
    constructor
    · rintro ⟨v, h1, y, h2, h3⟩
      exact ⟨_, _, y, ⟨⟨v, h1, rfl, rfl⟩, h2⟩, h3⟩
    · rintro ⟨tk, c, y, ⟨⟨v, h1, rfl, rfl⟩, h2⟩, h3⟩
      exact ⟨v, h1, y, h2, h3⟩
  simp only [HoldsBy, PRule.on, hp]
  rw [flat, flat, flat]
  simp only [part, or_and_right, exists_or]

theorem Spec.Splits.cases_alike {K : Type} {S : Sight K} {lib : Lib} {L : K → (Bytes → Prop) → List Bytes → VarTok → Prop} (hS : ∀ k p, S.holds k p ↔ HoldsBy lib (L k) p)
    (hL : ∀ k, Additive (L k)) {cs ds : List (List PRule)} (h : Splits Divides cs ds) (k : K) (q : Int) : Case S cs k q ↔ Case S ds k q := by
  induction h with
  | nil => exact .rfl
  | same _ ih =>
    simp only [Case, List.mem_cons, exists_eq_or_imp] at ih ⊢
    rw [ih]
  | @split a b p vs ws cs ds hp hn _ ih =>
    have hh : (∀ r ∈ a ++ p :: b, S.holds k r) ↔ (∀ r ∈ a ++ PRule.on p vs :: b, S.holds k r) ∨ ∀ r ∈ a ++ PRule.on p ws :: b, S.holds k r := by
      have := holds_divide (lib := lib) (hL k) hp hn
      simp only [List.mem_append, List.mem_cons, hS]
      grind
    simp only [Case, List.mem_cons, exists_eq_or_imp] at ih ⊢
    rw [ih, chainPhase_on, chainPhase_on, denies_on, denies_on, hh]
    grind

/-! ### The theorems -/

/-- C116 for rules that read no body, where the two parts may pick from the same variables, both by
name or both by pattern.  Missing: bodies, see below. -/
theorem C116_names_partial {lib : Lib} {vo : VarOrd} {ord : IterOrd} {text text' : Bytes} {dirs dirs' : List PDir} (ht : Program text dirs)
    (ht' : Program text' dirs') (hok : ∀ d ∈ dirs, DirOk lib d) (h : Splits Divides (chainsOf (rulesIn dirs)) (chainsOf (rulesIn dirs')))
    (hv : ∀ p ∈ rulesIn dirs, ∀ v ∈ p.vars, readsBody v.tk = false) (hs : StrictRules (chainsOf (rulesIn dirs))) (ops : List Op) :
    AlikeOn lib vo ord text text' (enough dirs dirs') ops :=
  told_alike ht ht' hok h.stems hv hs (fun k q => h.cases_alike (lib := lib) (L := Lists lib) (fun _ _ => .rfl) (lists_additive lib) k q) ops

/-- C116 likewise with bodies of up to 131072 bytes, if rules read arguments from the body only
once the form is settled, and well-formed.  Missing: larger bodies, malformed forms. -/
theorem C116_names_bodies_partial {lib : Lib} {vo : VarOrd} {ord : IterOrd} {text text' : Bytes} {dirs dirs' : List PDir} (ht : Program text dirs)
    (ht' : Program text' dirs') (hok : ∀ d ∈ dirs, DirOk lib d) (hsw : switches dirs = switches dirs')
    (h : Splits Divides (chainsOf (rulesIn dirs)) (chainsOf (rulesIn dirs')))
    (hs : StrictRules (chainsOf (rulesIn dirs))) {ops : List Op} {q : Int} (hsize : (sent false ops).length ≤ 131072)
    (hform : ∀ c ∈ chainsOf (rulesIn dirs), 1 ≤ chainPhase c → (∃ p ∈ c, ∃ v ∈ p.vars, readsArgs v.tk = true) → q ≤ chainPhase c ∧ FormSettled lib q ops) :
    AlikeOn lib vo ord text text' (enough dirs dirs') ops :=
  body_alike ht ht' hok hsw h.stems hs (fun k q => h.cases_alike (fun _ _ => .rfl) (listsAll_additive lib _ _) k q) hsize hform

/-- C116 likewise with a multipart form of up to 131072 bytes.  Missing: larger bodies, malformed forms. -/
theorem C116_names_multipart_partial {lib : Lib} (hm : lib.ReadsMedia) (hl : lib.ReadsForms) {vo : VarOrd} {ord : IterOrd} {text text' : Bytes} {dirs dirs' : List PDir}
    (ht : Program text dirs) (ht' : Program text' dirs') (hok : ∀ d ∈ dirs, DirOk lib d) (hsw : switches dirs = switches dirs')
    (h : Splits Divides (chainsOf (rulesIn dirs)) (chainsOf (rulesIn dirs'))) (hs : StrictRules (chainsOf (rulesIn dirs)))
    {ops : List Op} {q : Int} {bnd : Bytes} {ps : List (Option Bytes × Bytes)} (hf : ReadsSentForm (chainsOf (rulesIn dirs)) q bnd ps ops) :
    AlikeOn lib vo ord text text' (enough dirs dirs') ops :=
  form_alike hm hl ht ht' hok hsw h.stems hs (fun k q => h.cases_alike (fun _ _ => .rfl) (listsForm_additive lib _ _ _) k q) hf

/-- The conditions are needed.  A variable without a name adds nothing to one with a name;
a name and a pattern must both be met; and numbers do not add up. -/
theorem C116_needed :
    (textVerdicts lib b!"SecRule REQUEST_HEADERS|REQUEST_HEADERS:a \"@rx evil\" \"id:1,phase:2,deny\"\n" 9
        [.processRequestHeader (some [(b!"b", [b!"evil"])]), .result] = some [false] ∧
      textVerdicts lib b!"SecRule REQUEST_HEADERS \"@rx evil\" \"id:1,phase:2,deny\"\nSecRule REQUEST_HEADERS:a \"@rx evil\" \"id:1,phase:2,deny\"\n" 9
        [.processRequestHeader (some [(b!"b", [b!"evil"])]), .result] = some [true]) ∧
    (textVerdicts lib b!"SecRule REQUEST_HEADERS:a|REQUEST_HEADERS:/b/ \"@rx evil\" \"id:1,phase:2,deny\"\n" 9
        [.processRequestHeader (some [(b!"a", [b!"evil"])]), .result] = some [false] ∧
      textVerdicts lib b!"SecRule REQUEST_HEADERS:a \"@rx evil\" \"id:1,phase:2,deny\"\nSecRule REQUEST_HEADERS:/b/ \"@rx evil\" \"id:1,phase:2,deny\"\n" 9
        [.processRequestHeader (some [(b!"a", [b!"evil"])]), .result] = some [true]) ∧
    (textVerdicts lib b!"SecRule &REQUEST_HEADERS:a|&REQUEST_HEADERS:b \"@eq 2\" \"id:1,phase:2,deny\"\n" 9
        [.processRequestHeader (some [(b!"a", [b!"x"]), (b!"b", [b!"x"])]), .result] = some [true] ∧
      textVerdicts lib b!"SecRule &REQUEST_HEADERS:a \"@eq 2\" \"id:1,phase:2,deny\"\nSecRule &REQUEST_HEADERS:b \"@eq 2\" \"id:1,phase:2,deny\"\n" 9
        [.processRequestHeader (some [(b!"a", [b!"x"]), (b!"b", [b!"x"])]), .result] = some [false]) := by
  decide +kernel

/-! ### Examples -/

/-- A field of a form, or a header. -/
def Sample.named (tk : VarTok) (s : Bytes) : PVar := { tk := tk, index := s }

theorem Sample.notRegex {s : Bytes} (h : isRegex s = false) : ¬ ∃ re, IsRegex s re := by
  intro ⟨re, hre⟩
  rw [(isRegex_iff s).2 ⟨re, hre⟩] at h; cases h

theorem Sample.named_divides (tk : VarTok) : Divides [named tk b!"a"] [named tk b!"b"] := by
  intro v hv w hw _ _
  rw [List.mem_singleton.1 hv]
  refine ⟨rfl, .inl fun u hu _ _ => ?_⟩
  simp only [List.cons_append, List.nil_append, List.mem_cons, List.not_mem_nil, or_false] at hu
  rcases hu with rfl | rfl
  · exact ⟨rfl, List.cons_ne_nil _ _, notRegex (s := b!"a") (by decide)⟩
  · exact ⟨rfl, List.cons_ne_nil _ _, notRegex (s := b!"b") (by decide)⟩

theorem Sample.named_ok {lib : Lib} {rs : List PRule} (hrx : ∃ f, lib.rx b!"evil" = some f)
    (h : ∀ p ∈ rs, p.op = { tk := .rx, arg := b!"evil" } ∧ p.acts.action = [⟨.deny, []⟩] ∧ ∀ v ∈ p.vars, ∃ tk, (tk = .argsPost ∨ tk = .requestHeaders) ∧
      (v = named tk b!"a" ∨ v = named tk b!"b")) : ∀ d ∈ PDir.reqBody true :: rs.map .rule, DirOk lib d := by
  intro d hd
  rcases List.mem_cons.1 hd with rfl | hd
  · trivial
  · obtain ⟨p, hp, rfl⟩ := List.mem_map.1 hd
    obtain ⟨h1, h2, h3⟩ := h p hp
    obtain ⟨f, hf⟩ := hrx
    exact {
      vars := by
        intro v hv
        obtain ⟨tk, htk, hv⟩ := h3 v hv
        refine ⟨?_, fun _ re hre => ?_⟩
        · rcases hv with rfl | rfl <;> rcases htk with rfl | rfl <;> simp [named]
        · rcases hv with rfl | rfl
          · exact absurd ⟨re, hre⟩ (notRegex (s := b!"a") (by decide))
          · exact absurd ⟨re, hre⟩ (notRegex (s := b!"b") (by decide))
      op := by rw [h1]; exact ⟨_, .rx rfl hf⟩
      acts := by intro a ha; rw [h2] at ha; rw [List.mem_singleton.1 ha]; exact .inl ⟨_, .deny⟩ }

/-- Two headers. -/
example (ops : List Op) : AlikeOn lib varOrd Sample.ord
    b!"SecRequestBodyAccess On\nSecRule REQUEST_HEADERS:a|REQUEST_HEADERS:b \"@rx evil\" \"id:1,phase:3,deny\"\n"
    b!"SecRequestBodyAccess On\nSecRule REQUEST_HEADERS:a \"@rx evil\" \"id:1,phase:3,deny\"\nSecRule REQUEST_HEADERS:b \"@rx evil\" \"id:1,phase:3,deny\"\n" 4 ops := by
  refine C116_names_partial (dirs := .reqBody true :: [evilIn [named .requestHeaders b!"a", named .requestHeaders b!"b"] false].map .rule)
    (dirs' := .reqBody true :: [evilIn [named .requestHeaders b!"a"] false, evilIn [named .requestHeaders b!"b"] false].map .rule)
    ((C53_exact id _ _).1 (by decide +kernel)) ((C53_exact id _ _).1 (by decide +kernel)) (named_ok ⟨_, rfl⟩ ?_)
    (.split (a := []) (b := []) (p := evilIn [named .requestHeaders b!"a", named .requestHeaders b!"b"] false) rfl (named_divides _) .nil) ?_ ?_ ops
  · intro p hp
    rw [List.mem_singleton.1 hp]
    refine ⟨rfl, rfl, fun v hv => ⟨.requestHeaders, .inr rfl, ?_⟩⟩
    simpa [evilIn] using hv
  · intro p hp v hv
    have hp : p ∈ [evilIn [named .requestHeaders b!"a", named .requestHeaders b!"b"] false] := hp
    rw [List.mem_singleton.1 hp] at hv
    have hv : v = named .requestHeaders b!"a" ∨ v = named .requestHeaders b!"b" := by simpa [evilIn] using hv
    rcases hv with rfl | rfl <;> rfl
  · intro c hc p hp a ha
    have hc : c ∈ [[evilIn [named .requestHeaders b!"a", named .requestHeaders b!"b"] false]] := hc
    rw [List.mem_singleton.1 hc] at hp
    rw [List.mem_singleton.1 hp] at ha; rw [List.mem_singleton.1 ha]; exact ⟨nofun, nofun⟩

/-- Two fields of a form, urlencoded. -/
example (x y : Bytes) (hsize : x.length + y.length ≤ 131072) : AlikeOn lib varOrd Sample.ord
    b!"SecRequestBodyAccess On\nSecRule ARGS_POST:a|ARGS_POST:b \"@rx evil\" \"id:1,phase:3,deny\"\n"
    b!"SecRequestBodyAccess On\nSecRule ARGS_POST:a \"@rx evil\" \"id:1,phase:3,deny\"\nSecRule ARGS_POST:b \"@rx evil\" \"id:1,phase:3,deny\"\n" 4
    (formOps x y ++ [.result]) := by
  refine C116_names_bodies_partial (q := 3) (dirs := .reqBody true :: [evilIn [named .argsPost b!"a", named .argsPost b!"b"] false].map .rule)
    (dirs' := .reqBody true :: [evilIn [named .argsPost b!"a"] false, evilIn [named .argsPost b!"b"] false].map .rule)
    ((C53_exact id _ _).1 (by decide +kernel)) ((C53_exact id _ _).1 (by decide +kernel)) (named_ok ⟨_, rfl⟩ ?_) rfl
    (.split (a := []) (b := []) (p := evilIn [named .argsPost b!"a", named .argsPost b!"b"] false) rfl (named_divides _) .nil) ?_
    (by simpa [formOps, sent, chunkOf] using hsize) ?_
  · intro p hp
    rw [List.mem_singleton.1 hp]
    refine ⟨rfl, rfl, fun v hv => ⟨.argsPost, .inl rfl, ?_⟩⟩
    simpa [evilIn] using hv
  · intro c hc p hp a ha
    have hc : c ∈ [[evilIn [named .argsPost b!"a", named .argsPost b!"b"] false]] := hc
    rw [List.mem_singleton.1 hc] at hp
    rw [List.mem_singleton.1 hp] at ha; rw [List.mem_singleton.1 ha]; exact ⟨nofun, nofun⟩
  · intro c hc _ _
    have hc : c ∈ [[evilIn [named .argsPost b!"a", named .argsPost b!"b"] false]] := hc
    rw [List.mem_singleton.1 hc]
    exact ⟨by show (3 : Int) ≤ 3; omega, (formOps_settled x y).result⟩

/-- And multipart. -/
example {x y v : Bytes} (hxy : x ++ y = sentBody v) (h : 13 ∉ v) (hd : v.head? ≠ some 45) (hlen : (sentBody v).length ≤ 4096) :
    AlikeOn formLib varOrd Sample.ord
    b!"SecRequestBodyAccess On\nSecRule ARGS_POST:a|ARGS_POST:b \"@rx evil\" \"id:1,phase:3,deny\"\n"
    b!"SecRequestBodyAccess On\nSecRule ARGS_POST:a \"@rx evil\" \"id:1,phase:3,deny\"\nSecRule ARGS_POST:b \"@rx evil\" \"id:1,phase:3,deny\"\n" 4
    (sentOps x y ++ [.result]) := by
  refine C116_names_multipart_partial (dirs := .reqBody true :: [evilIn [named .argsPost b!"a", named .argsPost b!"b"] false].map .rule)
    (dirs' := .reqBody true :: [evilIn [named .argsPost b!"a"] false, evilIn [named .argsPost b!"b"] false].map .rule) formEnv_media formLib_reads
    ((C53_exact id _ _).1 (by decide +kernel)) ((C53_exact id _ _).1 (by decide +kernel)) (named_ok ⟨_, rfl⟩ ?_) rfl
    (.split (a := []) (b := []) (p := evilIn [named .argsPost b!"a", named .argsPost b!"b"] false) rfl (named_divides _) .nil) ?_
    (evil_reads ?_ hxy h hd hlen)
  · intro p hp
    rw [List.mem_singleton.1 hp]
    refine ⟨rfl, rfl, fun v hv => ⟨.argsPost, .inl rfl, ?_⟩⟩
    simpa [evilIn] using hv
  · intro c hc p hp a ha
    have hc : c ∈ [[evilIn [named .argsPost b!"a", named .argsPost b!"b"] false]] := hc
    rw [List.mem_singleton.1 hc] at hp
    rw [List.mem_singleton.1 hp] at ha; rw [List.mem_singleton.1 ha]; exact ⟨nofun, nofun⟩
  · intro c hc
    have hc : c ∈ [[evilIn [named .argsPost b!"a", named .argsPost b!"b"] false]] := hc
    exact ⟨_, _, _, _, List.mem_singleton.1 hc, rfl⟩

end Verif
