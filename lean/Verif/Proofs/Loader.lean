import Verif.Props.Collections
import Verif.Props.Compare
import Verif.Props.Syntax
/-! The loader: what one parsed directive becomes. -/
namespace Verif
open Spec

/-! ### Variables -/

theorem variableFactory_eq (tk : VarTok) : variableFactory tk = variableOf {} tk := by cases tk <;> rfl

theorem variableOf_isSome {f : Filter} {tk : VarTok} (h : tk ≠ .xml) : ∃ y, variableOf f tk = some y := by
  cases tk <;> first | exact ⟨_, rfl⟩ | exact absurd rfl h

theorem select_variableOf {f : Filter} {tk : VarTok} {y : Var} (upd : Filter → Option Filter) (h : variableOf f tk = some y) :
    y.select upd = if Selectable tk then (upd f).bind fun f => variableOf f tk else some y := by
  cases tk <;> simp only [variableOf, Option.some.injEq, reduceCtorEq] at h <;> subst h <;>
    simp only [Var.select, Selectable, variableOf, if_true, Bool.false_eq_true, if_false] <;> cases upd f <;> rfl

theorem variableOf_free {f g : Filter} {tk : VarTok} (h : Selectable tk = false) : variableOf f tk = variableOf g tk := by
  cases tk <;> first | rfl | cases h

/-- The effect of one selector on a filter. -/
def selUpd (rx : Bytes → Option (Bytes → Bool)) (s : Selector) (f : Filter) : Option Filter :=
  match s with
  | .incl s => f.include rx s
  | .excl s => f.exclude rx s

theorem applySelectors_concat (rx : Bytes → Option (Bytes → Bool)) (s : Selector) : ∀ (ss : List Selector) (f : Filter),
    applySelectors rx f (ss ++ [s]) = (applySelectors rx f ss).bind (selUpd rx s) := by
  intro ss
  induction ss with
  | nil => intro f; cases s <;> simp [applySelectors, selUpd]
  | cons x ss ih =>
    intro f
    cases x with
    | incl x => simp only [List.cons_append, applySelectors]; cases f.include rx x <;> simp [ih]
    | excl x => simp only [List.cons_append, applySelectors]; cases f.exclude rx x <;> simp [ih]

theorem selUpd_some (rx : Bytes → Option (Bytes → Bool)) (v : PVar) (f : Filter) :
    (∃ g, selUpd rx (selectorOf v) f = some g) ↔ ∀ re, IsRegex v.index re → ∃ g, rx re = some g := by
  have key : (∃ g, selUpd rx (selectorOf v) f = some g) ↔ compileRegex rx v.index ≠ .err := by
    simp only [selectorOf]
    split <;> simp only [selUpd, Filter.include, Filter.exclude] <;> cases compileRegex rx v.index <;> simp
  rw [key]
  rcases compileRegex_cases rx v.index with ⟨h, hr⟩ | ⟨re, g, h, hi, hg⟩ | h
  · rw [h]
    refine ⟨fun _ re hre => ?_, fun _ => by simp⟩
    have := (isRegex_iff v.index).2 ⟨re, hre⟩
    simp [hr] at this
  · rw [h]
    refine ⟨fun _ re' hre => ⟨g, ?_⟩, fun _ => by simp⟩
    rw [IsRegex.unique hre hi, hg]
  · rw [h]
    refine ⟨fun hc => absurd rfl hc, fun hall => ?_⟩
    simp only [compileRegex] at h
    cases hx : isRegex v.index with
    | false => simp [hx] at h
    | true =>
      obtain ⟨re, hre⟩ := (isRegex_iff _).1 hx
      obtain ⟨g, hg⟩ := hall re hre
      simp only [hx, isRegex_src hre, hg] at h
      simp at h

theorem applySelector_eq (lib : Lib) (v : PVar) (x : Var) : applySelector lib v x =
    if v.index = [] then .ok x
    else match x.select (selUpd lib.rx (selectorOf v)) with
      | some x => .ok x
      | none => .error .badArgument := by
  simp only [applySelector, selectorOf, Var.include, Var.exclude]
  cases v.exclusion <;> simp [selUpd] <;> rfl

theorem selectors_concat (vs : List PVar) (v : PVar) (tk : VarTok) (c : Bool) : selectors (vs ++ [v]) tk c =
    if v.tk = tk ∧ v.count = c ∧ v.index ≠ [] then selectors vs tk c ++ [selectorOf v] else selectors vs tk c := by
  simp only [selectors, List.filter_append, List.filter_cons, List.filter_nil, List.map_append, decide_eq_true_eq]
  split <;> simp

theorem carries_other {rx : Bytes → Option (Bytes → Bool)} {vs : List PVar} {v : PVar} {k : VarTok × Bool} {x : Var}
    (hne : (v.tk, v.count) ≠ k) (h : Carries rx vs k x) : Carries rx (vs ++ [v]) k x := by
  obtain ⟨f, y, h1, h2, h3⟩ := h
  refine ⟨f, y, fun hs => ?_, h2, h3⟩
  rw [selectors_concat, if_neg (fun hc => hne (by rw [hc.1, hc.2.1]))]
  exact h1 hs

theorem count_select (upd : Filter → Option Filter) (y : Var) : (Var.count y).select upd = (y.select upd).map .count := by
  rw [Var.select]

theorem select_ite (upd : Filter → Option Filter) (c : Bool) (y : Var) :
    (if c then Var.count y else y).select upd = (y.select upd).map fun y => if c then Var.count y else y := by
  cases c
  · simp
  · simp [count_select]

/-- One selector applied: it succeeds iff it is valid, and the variable then has
one more selector. -/
theorem applySelector_step {lib : Lib} {vs : List PVar} {v : PVar} {x : Var} (h : Carries lib.rx vs (v.tk, v.count) x) :
    (VarOk lib v ∧ ∃ x', applySelector lib v x = .ok x' ∧ Carries lib.rx (vs ++ [v]) (v.tk, v.count) x') ∨
      (¬ VarOk lib v ∧ ∃ e, applySelector lib v x = .error e) := by
  obtain ⟨f, y, h1, h2, h3⟩ := h
  have hx : v.tk ≠ .xml := by intro hx; simp only [hx, variableOf] at h2; cases h2
  rw [applySelector_eq]
  by_cases hi : v.index = []
  · refine .inl ⟨⟨hx, fun _ re hre => ?_⟩, x, if_pos hi, f, y, fun hs => ?_, h2, h3⟩
    · rw [IsRegex, hi] at hre; cases hre
    · rw [selectors_concat, if_neg (fun hc => hc.2.2 hi)]; exact h1 hs
  · rw [if_neg hi, h3, select_ite, select_variableOf _ h2]
    by_cases hs : Selectable v.tk = true
    · rw [if_pos hs]
      cases hu : selUpd lib.rx (selectorOf v) f with
      | none =>
        refine .inr ⟨fun hok => ?_, _, rfl⟩
        obtain ⟨g, hg⟩ := (selUpd_some lib.rx v f).2 (hok.2 hs)
        rw [hu] at hg; cases hg
      | some g =>
        obtain ⟨z, hz⟩ := variableOf_isSome (f := g) hx
        refine .inl ⟨⟨hx, fun _ => (selUpd_some lib.rx v f).1 ⟨g, hu⟩⟩, if v.count then .count z else z, ?_, g, z, ?_, hz, rfl⟩
        · simp [hz]
        · intro _
          rw [selectors_concat, if_pos ⟨rfl, rfl, hi⟩, applySelectors_concat, h1 hs]
          exact hu
    · rw [if_neg hs]
      refine .inl ⟨⟨hx, fun h => absurd h hs⟩, if v.count then .count y else y, rfl, f, y, fun h => absurd h hs, h2, rfl⟩

/-! ### The map of variables -/

/-- What the map (of counted or of plain variables) contains after the variables `pre`. -/
structure VarInv (rx : Bytes → Option (Bytes → Bool)) (pre : List PVar) (c : Bool) (m : VarMap) : Prop where
  nodup : (m.map Prod.fst).Nodup
  keys : ∀ tk, tk ∈ m.map Prod.fst ↔ ∃ v ∈ pre, v.tk = tk ∧ v.count = c
  vals : ∀ e ∈ m, Carries rx pre (e.1, c) e.2

theorem VarMap.set_keys (m : VarMap) (k : VarTok) (v : Var) : (VarMap.set m k v).map Prod.fst =
    if k ∈ m.map Prod.fst then m.map Prod.fst else m.map Prod.fst ++ [k] := by
  induction m with
  | nil => simp [VarMap.set]
  | cons e r ih =>
    obtain ⟨k', v'⟩ := e
    simp only [VarMap.set]
    by_cases h : k' = k
    · simp [h]
    · rw [if_neg h, List.map_cons, ih]
      by_cases hk : k ∈ r.map Prod.fst
      · rw [if_pos hk, if_pos (by simp only [List.map_cons]; exact List.mem_cons_of_mem _ hk)]; rfl
      · rw [if_neg hk, if_neg (by simp only [List.map_cons, List.mem_cons, not_or]; exact ⟨fun e => h e.symm, hk⟩)]; rfl

theorem VarMap.mem_set {m : VarMap} (hn : (m.map Prod.fst).Nodup) {k : VarTok} {v : Var} {e : VarTok × Var}
    (h : e ∈ VarMap.set m k v) : e = (k, v) ∨ (e.1 ≠ k ∧ e ∈ m) := by
  induction m with
  | nil => simp [VarMap.set] at h; exact .inl h
  | cons e' r ih =>
    obtain ⟨k', v'⟩ := e'
    simp only [List.map_cons, List.nodup_cons] at hn
    simp only [VarMap.set] at h
    split at h
    · rename_i hk
      rcases List.mem_cons.1 h with h | h
      · exact .inl h
      · refine .inr ⟨fun he => hn.1 ?_, List.mem_cons_of_mem _ h⟩
        rw [hk, ← he]; exact List.mem_map_of_mem h
    · rename_i hk
      rcases List.mem_cons.1 h with h | h
      · exact .inr ⟨by rw [h]; exact hk, by rw [h]; exact List.mem_cons_self⟩
      · rcases ih hn.2 h with h | ⟨h1, h2⟩
        · exact .inl h
        · exact .inr ⟨h1, List.mem_cons_of_mem _ h2⟩

theorem lookup_cases (m : VarMap) (k : VarTok) :
    (∃ x, m.lookup k = some x ∧ (k, x) ∈ m) ∨ (m.lookup k = none ∧ k ∉ m.map Prod.fst) := by
  induction m with
  | nil => exact .inr ⟨rfl, by simp⟩
  | cons e r ih =>
    obtain ⟨k', v'⟩ := e
    simp only [List.lookup_cons]
    by_cases h : k = k'
    · subst h; exact .inl ⟨v', by simp, List.mem_cons_self⟩
    · have : (k == k') = false := by simpa using h
      rw [this]
      rcases ih with ⟨x, h1, h2⟩ | ⟨h1, h2⟩
      · exact .inl ⟨x, h1, List.mem_cons_of_mem _ h2⟩
      · refine .inr ⟨h1, ?_⟩
        simp only [List.map_cons, List.mem_cons, not_or]; exact ⟨h, h2⟩

theorem VarInv.other {rx : Bytes → Option (Bytes → Bool)} {pre : List PVar} {c : Bool} {m : VarMap} (h : VarInv rx pre c m)
    {v : PVar} (hc : v.count ≠ c) : VarInv rx (pre ++ [v]) c m where
  nodup := h.nodup
  keys := fun tk => by
    rw [h.keys]
    constructor
    · rintro ⟨w, hw, h1⟩; exact ⟨w, List.mem_append_left _ hw, h1⟩
    · rintro ⟨w, hw, h1, h2⟩
      rcases List.mem_append.1 hw with hw | hw
      · exact ⟨w, hw, h1, h2⟩
      · rw [List.mem_singleton.1 hw] at h2; exact absurd h2 hc
  vals := fun e he => carries_other (by intro heq; exact hc (Prod.mk.inj heq).2) (h.vals e he)

theorem VarInv.set {rx : Bytes → Option (Bytes → Bool)} {pre : List PVar} {m : VarMap} {v : PVar} (h : VarInv rx pre v.count m)
    {x : Var} (hx : Carries rx (pre ++ [v]) (v.tk, v.count) x) : VarInv rx (pre ++ [v]) v.count (m.set v.tk x) where
  nodup := by
    rw [VarMap.set_keys]
    split
    · exact h.nodup
    · rename_i hk
      exact List.nodup_append.2 ⟨h.nodup, by simp, fun a ha b hb => by rw [List.mem_singleton.1 hb]; rintro rfl; exact hk ha⟩
  keys := fun tk => by
    have : tk ∈ (VarMap.set m v.tk x).map Prod.fst ↔ tk ∈ m.map Prod.fst ∨ tk = v.tk := by
      rw [VarMap.set_keys]
      split
      · rename_i hk
        exact ⟨.inl, fun hh => hh.elim (fun h => h) (fun e => e ▸ hk)⟩
      · simp only [List.mem_append, List.mem_singleton]
    rw [this, h.keys]
    constructor
    · rintro (⟨w, hw, h1⟩ | rfl)
      · exact ⟨w, List.mem_append_left _ hw, h1⟩
      · exact ⟨v, by simp, rfl, rfl⟩
    · rintro ⟨w, hw, h1, h2⟩
      rcases List.mem_append.1 hw with hw | hw
      · exact .inl ⟨w, hw, h1, h2⟩
      · rw [List.mem_singleton.1 hw] at h1; exact .inr h1.symm
  vals := fun e he => by
    rcases VarMap.mem_set h.nodup he with rfl | ⟨h1, h2⟩
    · exact hx
    · exact carries_other (by intro heq; exact h1 (Prod.mk.inj heq).1.symm) (h.vals e h2)

/-- The entry of the map the next selector applies to. -/
theorem VarInv.entry {rx : Bytes → Option (Bytes → Bool)} {pre : List PVar} {m : VarMap} {v : PVar} (h : VarInv rx pre v.count m)
    {fresh : Var} (hf : variableFactory v.tk = some fresh) :
    Carries rx pre (v.tk, v.count) ((m.lookup v.tk).getD (if v.count then .count fresh else fresh)) := by
  rcases lookup_cases m v.tk with ⟨x, h1, h2⟩ | ⟨h1, h2⟩
  · rw [h1]; exact h.vals _ h2
  · rw [h1]
    refine ⟨{}, fresh, fun _ => ?_, by rw [← variableFactory_eq]; exact hf, rfl⟩
    have : selectors pre v.tk v.count = [] := by
      simp only [selectors, List.map_eq_nil_iff, List.filter_eq_nil_iff, decide_eq_true_eq]
      rintro w hw ⟨e1, e2, _⟩
      exact h2 ((h.keys _).2 ⟨w, hw, e1, e2⟩)
    simp only [this, applySelectors]

theorem collectVars_spec {lib : Lib} : ∀ {vs pre : List PVar} {m cm : VarMap}, VarInv lib.rx pre false m → VarInv lib.rx pre true cm →
    ((∀ v ∈ vs, VarOk lib v) ∧ ∃ m' cm', collectVars lib vs m cm = .ok (m', cm') ∧ VarInv lib.rx (pre ++ vs) false m' ∧
        VarInv lib.rx (pre ++ vs) true cm') ∨
      ((¬ ∀ v ∈ vs, VarOk lib v) ∧ ∃ e, collectVars lib vs m cm = .error e) := by
  intro vs
  induction vs with
  | nil => intro pre m cm h1 h2; exact .inl ⟨by simp, m, cm, rfl, by simpa using h1, by simpa using h2⟩
  | cons v vs ih =>
    intro pre m cm h1 h2
    simp only [collectVars]
    cases hf : variableFactory v.tk with
    | none =>
      refine .inr ⟨fun h => ?_, _, rfl⟩
      obtain ⟨y, hy⟩ := variableOf_isSome (f := {}) (h v List.mem_cons_self).1
      rw [← variableFactory_eq, hf] at hy; cases hy
    | some fresh =>
      have e : pre ++ v :: vs = pre ++ [v] ++ vs := by simp
      cases hc : v.count with
      | false =>
        have hen := (hc ▸ h1 : VarInv lib.rx pre v.count m).entry hf
        rw [hc] at hen
        simp only [Bool.not_false, if_true, Bool.false_eq_true, if_false] at hen ⊢
        rcases applySelector_step (hc ▸ hen : Carries lib.rx pre (v.tk, v.count) _) with ⟨hok, x, hx, hx'⟩ | ⟨hok, er, her⟩
        · rw [hx]
          have := @ih (pre ++ [v]) (VarMap.set m v.tk x) cm
            (by have := (hc ▸ h1 : VarInv lib.rx pre v.count m).set hx'; rw [hc] at this; exact this)
            (h2.other (by simp [hc]))
          rw [e]
          rcases this with ⟨k1, k2⟩ | ⟨k1, k2⟩
          · exact .inl ⟨fun w hw => (List.mem_cons.1 hw).elim (fun e => e ▸ hok) (k1 w), k2⟩
          · exact .inr ⟨fun h => k1 fun w hw => h w (List.mem_cons_of_mem _ hw), k2⟩
        · rw [her]
          exact .inr ⟨fun h => hok (h v List.mem_cons_self), er, rfl⟩
      | true =>
        have hen := (hc ▸ h2 : VarInv lib.rx pre v.count cm).entry hf
        rw [hc] at hen
        simp only [Bool.not_true, if_true, Bool.false_eq_true, if_false] at hen ⊢
        rcases applySelector_step (hc ▸ hen : Carries lib.rx pre (v.tk, v.count) _) with ⟨hok, x, hx, hx'⟩ | ⟨hok, er, her⟩
        · rw [hx]
          have := @ih (pre ++ [v]) m (VarMap.set cm v.tk x) (h1.other (by simp [hc]))
            (by have := (hc ▸ h2 : VarInv lib.rx pre v.count cm).set hx'; rw [hc] at this; exact this)
          rw [e]
          rcases this with ⟨k1, k2⟩ | ⟨k1, k2⟩
          · exact .inl ⟨fun w hw => (List.mem_cons.1 hw).elim (fun e => e ▸ hok) (k1 w), k2⟩
          · exact .inr ⟨fun h => k1 fun w hw => h w (List.mem_cons_of_mem _ hw), k2⟩
        · rw [her]
          exact .inr ⟨fun h => hok (h v List.mem_cons_self), er, rfl⟩

theorem pairs_of_map {α β γ : Type} {R : β → γ → Prop} {f : α → β} {g : α → γ} : ∀ {l : List α}, (∀ a ∈ l, R (f a) (g a)) →
    Pairs R (l.map f) (l.map g) := by
  intro l
  induction l with
  | nil => intro _; exact .nil
  | cons a l ih => intro h; exact .cons (h a List.mem_cons_self) (ih fun b hb => h b (List.mem_cons_of_mem _ hb))

theorem nodup_pair {l : List VarTok} (h : l.Nodup) (c : Bool) : (l.map fun t => (t, c)).Nodup := by
  induction l with
  | nil => simp
  | cons a l ih =>
    simp only [List.nodup_cons] at h
    simp only [List.map_cons, List.nodup_cons]
    refine ⟨fun hm => ?_, ih h.2⟩
    obtain ⟨b, hb, e⟩ := List.mem_map.1 hm
    exact h.1 ((Prod.mk.inj e).1 ▸ hb)

theorem applyVariables_spec (lib : Lib) (vo : VarOrd) (vs : List PVar) :
    ((∀ v ∈ vs, VarOk lib v) ∧ ∃ xs, applyVariables lib vo vs = .ok xs ∧ ∃ ks : List (VarTok × Bool), ks.Nodup ∧
        (∀ k, k ∈ ks ↔ ∃ v ∈ vs, (v.tk, v.count) = k) ∧ Pairs (Carries lib.rx vs) ks xs) ∨
      ((¬ ∀ v ∈ vs, VarOk lib v) ∧ ∃ e, applyVariables lib vo vs = .error e) := by
  have base : ∀ c, VarInv lib.rx [] c [] := fun c => ⟨by simp, by simp, by simp⟩
  simp only [applyVariables]
  rcases @collectVars_spec lib vs [] [] [] (base false) (base true) with ⟨hok, m, cm, h, i1, i2⟩ | ⟨hok, e, h⟩
  · rw [h]
    rw [List.nil_append] at i1 i2
    refine .inl ⟨hok, _, rfl, (vo.run m).map (fun e => (e.1, false)) ++ (vo.run cm).map (fun e => (e.1, true)), ?_, ?_, ?_⟩
    · have n1 : ((vo.run m).map Prod.fst).Nodup := ((vo.perm m).map Prod.fst).nodup_iff.2 i1.nodup
      have n2 : ((vo.run cm).map Prod.fst).Nodup := ((vo.perm cm).map Prod.fst).nodup_iff.2 i2.nodup
      refine List.nodup_append.2 ⟨?_, ?_, ?_⟩
      · have := nodup_pair n1 false; rw [List.map_map] at this; exact this
      · have := nodup_pair n2 true; rw [List.map_map] at this; exact this
      · intro a ha b hb hab
        obtain ⟨x, _, rfl⟩ := List.mem_map.1 ha
        obtain ⟨y, _, rfl⟩ := List.mem_map.1 hb
        cases (Prod.mk.inj hab).2
    · rintro ⟨tk, c⟩
      have k1 : ∀ (n : VarMap) (c' : Bool), VarInv lib.rx vs c' n →
          ((tk, c) ∈ (vo.run n).map (fun e => (e.1, c')) ↔ c = c' ∧ ∃ v ∈ vs, v.tk = tk ∧ v.count = c') := by
        intro n c' hi
        rw [← hi.keys]
        constructor
        · intro hm
          obtain ⟨x, hx, e⟩ := List.mem_map.1 hm
          obtain ⟨rfl, rfl⟩ := Prod.mk.inj e
          exact ⟨rfl, List.mem_map_of_mem ((vo.perm n).mem_iff.1 hx)⟩
        · rintro ⟨rfl, hm⟩
          obtain ⟨x, hx, e⟩ := List.mem_map.1 hm
          exact List.mem_map.2 ⟨x, (vo.perm n).mem_iff.2 hx, by rw [e]⟩
      rw [List.mem_append, k1 m false i1, k1 cm true i2]
      simp only [Prod.mk.injEq]
      cases c <;> simp
    · refine Pairs.append (pairs_of_map fun e he => ?_) (pairs_of_map fun e he => ?_)
      · exact i1.vals e ((vo.perm m).mem_iff.1 he)
      · exact i2.vals e ((vo.perm cm).mem_iff.1 he)
  · rw [h]; exact .inr ⟨hok, e, rfl⟩

/-! ### Operator and actions -/

theorem applyOperator_spec (lib : Lib) (o : POp) :
    (∃ op, applyOperator lib o = .ok op ∧ OpMeans lib o op) ∨ (¬ OpOk lib o ∧ ∃ e, applyOperator lib o = .error e) := by
  have hcmp : ∀ k, cmpOf o.tk = some k → (∃ c, newOperatorCompare k o.arg = some c ∧ OpMeans lib o (.cmp c)) ∨
      (¬ OpOk lib o ∧ newOperatorCompare k o.arg = none) := by
    intro k hk
    cases h : newOperatorCompare k o.arg with
    | none =>
      refine .inr ⟨fun ⟨op, hop⟩ => ?_, rfl⟩
      cases hop with
      | rx h1 _ => rw [h1] at hk; cases hk
      | cmp _ h2 => exact (C11_bad_argument k o.arg).1 h ⟨_, h2⟩
    | some c =>
      have core : Core o.arg (trimSpace o.arg) := by
        obtain ⟨l, r, e, hl, hr⟩ := trimSpace_split o.arg
        exact ⟨trimSpace_is_trimmed _, l, r, e, hl, hr⟩
      refine .inl ⟨c, rfl, .cmp ?_ ?_ ?_⟩
      all_goals
        simp only [newOperatorCompare] at h
        split at h
        · cases h
        · rename_i v hv; cases h; first | exact hk | exact (parse_trim_iff _ _).1 hv | exact core
  simp only [applyOperator]
  cases ht : o.tk
  case rx =>
    simp only [newOperatorRx]
    cases hr : lib.rx o.arg with
    | none =>
      refine .inr ⟨fun ⟨op, hop⟩ => ?_, _, rfl⟩
      cases hop with
      | rx _ h2 => rw [hr] at h2; cases h2
      | cmp h1 _ => rw [ht] at h1; cases h1
    | some f => exact .inl ⟨_, rfl, .rx ht hr⟩
  all_goals
    rcases hcmp _ (by rw [ht]; rfl) with ⟨c, h1, h2⟩ | ⟨h1, h2⟩
    · simp only [h1]; exact .inl ⟨_, rfl, h2⟩
    · simp only [h2]; exact .inr ⟨h1, _, rfl⟩

/-- One action: it is added to the actions or to the meta data, or rejected. -/
theorem applyAction_spec (a : PAct) (acts : List Action) (md : GoMap) :
    (∃ x, ActMeans a x ∧ metaName a.tk = none ∧ applyAction a acts md = .ok (acts ++ [x], md)) ∨
      (∃ k u, metaName a.tk = some k ∧ Unquoted a.arg u ∧ applyAction a acts md = .ok (acts, md.append k [u])) ∨
      (¬ ActOk a ∧ ∃ e, applyAction a acts md = .error e) := by
  obtain ⟨tk, arg⟩ := a
  have hu : Unquoted arg (trimQuote arg) := (trimQuote_iff _ _).1 rfl
  cases tk
  case deny => exact .inl ⟨_, .deny, rfl, rfl⟩
  case skip => exact .inl ⟨_, .skip, rfl, rfl⟩
  case log => exact .inl ⟨_, .log, rfl, rfl⟩
  case block => exact .inl ⟨_, .block, rfl, rfl⟩
  case allow => exact .inl ⟨_, .allow hu, rfl, rfl⟩
  case status =>
    simp only [applyAction]
    cases h : atoi (trimQuote arg) with
    | some n => exact .inl ⟨_, .status hu ((atoi_iff _ _).1 h), rfl, rfl⟩
    | none =>
      refine .inr (.inr ⟨?_, _, rfl⟩)
      rintro (⟨x, hx⟩ | ⟨k, hk⟩)
      · cases hx with
        | status h1 h2 =>
          rw [(trimQuote_iff _ _).2 h1, (atoi_iff _ _).2 h2] at h; cases h
      · cases hk
  case tag => exact .inr (.inl ⟨_, _, rfl, hu, rfl⟩)
  case msg => exact .inr (.inl ⟨_, _, rfl, hu, rfl⟩)
  case rev => exact .inr (.inl ⟨_, _, rfl, hu, rfl⟩)
  case ver => exact .inr (.inl ⟨_, _, rfl, hu, rfl⟩)
  all_goals
    refine .inr (.inr ⟨?_, _, rfl⟩)
    rintro (⟨x, hx⟩ | ⟨k, hk⟩)
    · cases hx
    · cases hk

theorem applyActionList_spec : ∀ (as : List PAct) (acts : List Action) (md : GoMap),
    ((∀ a ∈ as, ActOk a) ∧ ∃ xs md', applyActionList as acts md = .ok (acts ++ xs, md') ∧
        Pairs ActMeans (as.filter fun a => (metaName a.tk).isNone) xs ∧
        ∀ k, ∃ us, (md'.get? k).getD [] = (md.get? k).getD [] ++ us ∧
          Pairs (fun a u => Unquoted a.arg u) (as.filter fun a => metaName a.tk = some k) us) ∨
      ((¬ ∀ a ∈ as, ActOk a) ∧ ∃ e, applyActionList as acts md = .error e) := by
  intro as
  induction as with
  | nil => intro acts md; exact .inl ⟨by simp, [], md, by simp [applyActionList], .nil, fun k => ⟨[], by simp, .nil⟩⟩
  | cons a as ih =>
    intro acts md
    simp only [applyActionList]
    rcases applyAction_spec a acts md with ⟨x, h1, h2, h3⟩ | ⟨k0, u, h1, h2, h3⟩ | ⟨h1, e, h2⟩
    · rw [h3]
      rcases ih (acts ++ [x]) md with ⟨k1, xs, md', k2, k3, k4⟩ | ⟨k1, k2⟩
      · refine .inl ⟨?_, x :: xs, md', by simpa using k2, ?_, fun k => ?_⟩
        · rintro w (_ | ⟨_, hw⟩)
          · exact .inl ⟨x, h1⟩
          · exact k1 w hw
        · rw [List.filter_cons, if_pos (by rw [h2]; rfl)]; exact .cons h1 k3
        · rw [List.filter_cons, if_neg (by rw [h2]; simp)]; exact k4 k
      · exact .inr ⟨fun h => k1 fun w hw => h w (List.mem_cons_of_mem _ hw), k2⟩
    · rw [h3]
      rcases ih acts (md.append k0 [u]) with ⟨k1, xs, md', k2, k3, k4⟩ | ⟨k1, k2⟩
      · refine .inl ⟨?_, xs, md', k2, ?_, fun k => ?_⟩
        · rintro w (_ | ⟨_, hw⟩)
          · exact .inr ⟨k0, h1⟩
          · exact k1 w hw
        · rw [List.filter_cons, if_neg (by rw [h1]; simp)]; exact k3
        · obtain ⟨us, e1, e2⟩ := k4 k
          rw [GoMap.append_get] at e1
          rw [List.filter_cons]
          by_cases hk : k = k0
          · subst hk
            refine ⟨u :: us, ?_, ?_⟩
            · rw [e1]; simp
            · rw [if_pos (by simpa using h1)]; exact .cons h2 e2
          · refine ⟨us, ?_, ?_⟩
            · rw [e1]; simp [hk]
            · rw [if_neg (by rw [h1]; simpa using fun e => hk e.symm)]; exact e2
      · exact .inr ⟨fun h => k1 fun w hw => h w (List.mem_cons_of_mem _ hw), k2⟩
    · rw [h2]; exact .inr ⟨fun h => h1 (h a List.mem_cons_self), e, rfl⟩

theorem transFactory_eq (t : TransTok) : transFactory t = transOf t := by cases t <;> rfl

theorem loadRule_spec (lib : Lib) (vo : VarOrd) (p : PRule) :
    (RuleOk lib p ∧ ∃ r, loadRule lib vo p = .ok (.rule r p.acts.chain) ∧ RuleMeans lib p r) ∨
      (¬ RuleOk lib p ∧ ∃ e, loadRule lib vo p = .error e) := by
  simp only [loadRule]
  rcases applyVariables_spec lib vo p.vars with ⟨v1, xs, v2, v3⟩ | ⟨v1, e, v2⟩
  · rw [v2]
    rcases applyOperator_spec lib p.op with ⟨op, o1, o2⟩ | ⟨o1, e, o2⟩
    · rw [o1]
      rcases applyActionList_spec p.acts.action [] [] with ⟨a1, as, md, a2, a3, a4⟩ | ⟨a1, e, a2⟩
      · rw [a2]
        refine .inl ⟨⟨v1, ⟨op, o2⟩, a1⟩, _, rfl, ?_⟩
        exact { id := rfl, phase := rfl, not := rfl, subRules := rfl, vars := v3,
                trans := by simp only [show transFactory = transOf from funext transFactory_eq]
                op := ⟨op, rfl, o2⟩, actions := by simpa using a3
                metaData := fun k => by
                  obtain ⟨us, e1, e2⟩ := a4 k
                  have : (md.get? k).getD [] = us := by simpa [GoMap.get?] using e1
                  rw [this]; exact e2 }
      · rw [a2]; exact .inr ⟨fun h => a1 h.acts, e, rfl⟩
    · rw [o2]; exact .inr ⟨fun h => o1 h.op, e, rfl⟩
  · rw [v2]; exact .inr ⟨fun h => v1 h.vars, e, rfl⟩

theorem direFactory_spec (lib : Lib) (vo : VarOrd) (p : PDir) :
    (DirOk lib p ∧ ∃ d, direFactory lib vo p = .ok d ∧ DirMeans lib p d) ∨
      (¬ DirOk lib p ∧ ∃ e, direFactory lib vo p = .error e) := by
  cases p with
  | rule p =>
    rcases loadRule_spec lib vo p with ⟨h, r, h1, h2⟩ | h
    · exact .inl ⟨h, _, h1, .rule h2⟩
    · exact .inr h
  | ruleEng v => exact .inl ⟨trivial, _, rfl, .ruleEng⟩
  | reqBody b => exact .inl ⟨trivial, _, rfl, .reqBody⟩
  | resBody b => exact .inl ⟨trivial, _, rfl, .resBody⟩

end Verif
