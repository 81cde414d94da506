import Verif.Props.SplitNames
/-! C137: exclusions. -/
namespace Verif
open Sample Spec

/-- `ws` is `vs` with exclusions put in anywhere. -/
def Spec.Excludes (vs ws : List PVar) : Prop := vs.Sublist ws ∧ ∀ w ∈ ws, w ∈ vs ∨ w.exclusion = true

/-- The same, each of a variable that is listed and not counted. -/
def Spec.Exempts (vs ws : List PVar) : Prop :=
  vs.Sublist ws ∧ ∀ w ∈ ws, w ∈ vs ∨ w.exclusion = true ∧ w.count = false ∧ ∃ v ∈ vs, v.tk = w.tk ∧ v.count = false

/-- Two rules that differ in their variables only, as `R` says. -/
def Spec.Varies (R : List PVar → List PVar → Prop) (p p' : PRule) : Prop := p'.acts = p.acts ∧ p'.op = p.op ∧ R p.vars p'.vars

/-- C137: putting exclusions into the rules of a text, none of which skips or allows, never makes
it refuse more: whatever the calls, each verdict that is disruptive with the exclusions is
disruptive without. -/
def C137_statement : Prop :=
  ∀ (lib : Lib) (vo : VarOrd) (ord : IterOrd) (text text' : Bytes) (dirs dirs' : List PDir) (set set' : DireSet), Program text dirs → Program text' dirs' →
    switches dirs = switches dirs' → Pairs (Pairs (Varies Excludes)) (chainsOf (rulesIn dirs)) (chainsOf (rulesIn dirs')) → StrictRules (chainsOf (rulesIn dirs)) →
    DireSet.addSecLangString lib vo [] text = .ok (set, none) → DireSet.addSecLangString lib vo [] text' = .ok (set', none) →
    ∀ (ops : List Op) (n : Nat) (t t' : Tx) (os os' : List Out) (tr tr' : Trace),
      (set.execute newEngine).newTransaction.steps ((set.execute newEngine).env lib ord) (set.execute newEngine).ruleSet n ops = .ok (t, os, tr) →
      (set'.execute newEngine).newTransaction.steps ((set'.execute newEngine).env lib ord) (set'.execute newEngine).ruleSet n ops = .ok (t', os', tr') →
      Pairs (fun v v' => v'.disruptive = true → v.disruptive = true) (shown os) (shown os')

/-! ### Two machines, of which the second refuses in fewer cases -/

section
variable {K : Type} {S : Sight K}

/-- Two machines that have gone as far, the second refusing no more. -/
structure Eased (m m' : Mach K) : Prop where
  known : m'.known = m.known
  aborted : m'.aborted = m.aborted
  phase : m'.phase = m.phase
  verdict : m'.verdict.disruptive = true → m.verdict.disruptive = true

theorem phase_walk {cs : List (List PRule)} (hs : StrictRules cs) (hb : ∀ c ∈ cs, 0 ≤ chainPhase c ∧ chainPhase c ≤ 5) (q : Int) (m : Mach K) :
    (walk S q 0 false (cs.filter fun c => chainPhase c = q) (goto q m)).known = m.known ∧
    (walk S q 0 false (cs.filter fun c => chainPhase c = q) (goto q m)).aborted = m.aborted ∧
    (walk S q 0 false (cs.filter fun c => chainPhase c = q) (goto q m)).phase = max 0 (min q 7) ∧
    ((walk S q 0 false (cs.filter fun c => chainPhase c = q) (goto q m)).verdict.disruptive = true ↔ m.verdict.disruptive = true ∨ Case S cs m.known q) := by
  by_cases he : (cs.filter fun c => chainPhase c = q) = []
  · rw [he]
    refine ⟨rfl, rfl, rfl, ?_⟩
    simp only [walk]
    refine ⟨fun h => .inl h, fun h => h.elim id fun ⟨c, c1, c2, _⟩ => ?_⟩
    rw [List.filter_eq_nil_iff] at he
    exact absurd c2 (by simpa using he c c1)
  · obtain ⟨c, hcm⟩ := List.exists_mem_of_ne_nil _ he
    obtain ⟨c1, c2⟩ := List.mem_filter.1 hcm
    have := hb c c1
    have c2 : chainPhase c = q := by simpa using c2
    obtain ⟨w1, w2, w3, w4⟩ := strict_walk (S := S) (q := q) (cs := cs.filter fun c => chainPhase c = q) (fun c hc => hs c (List.mem_filter.1 hc).1) 0
      (goto q m) (by show max 0 (min q 7) = q; omega)
    refine ⟨w1, w2, w3, w4.trans (or_congr .rfl ?_)⟩
    simp only [Case, List.mem_filter, decide_eq_true_eq]
    exact ⟨fun ⟨c, ⟨a, b⟩, d, e⟩ => ⟨c, a, b, d, e⟩, fun ⟨c, a, b, d, e⟩ => ⟨c, ⟨a, b⟩, d, e⟩⟩

theorem eased_call {cs ds : List (List PRule)} (hc : StrictRules cs) (hd : StrictRules ds) (he : ∀ k q, Case S ds k q → Case S cs k q)
    (h5 : ∀ c ∈ cs, 0 ≤ chainPhase c ∧ chainPhase c ≤ 5) (h5' : ∀ c ∈ ds, 0 ≤ chainPhase c ∧ chainPhase c ≤ 5) (op : Op) {m m' : Mach K} (hm : Eased m m') :
    Eased (call S cs m op).1 (call S ds m' op).1 ∧
      Pairs (fun v v' : Intervention => v'.disruptive = true → v.disruptive = true) (call S cs m op).2 (call S ds m' op).2 := by
  obtain ⟨h1, h2, h3, h4⟩ := hm
  have hk : S.learn m'.known op = S.learn m.known op := by rw [h1]
  cases hq : phaseOf op with
  | some q =>
    simp only [call, hq]
    by_cases g1 : q ≤ m.phase
    · rw [if_pos g1, if_pos (show q ≤ m'.phase by rw [h3]; exact g1)]
      exact ⟨⟨hk, h2, h3, h4⟩, .nil⟩
    · rw [if_neg g1, if_neg (show ¬ q ≤ m'.phase by rw [h3]; exact g1)]
      by_cases g2 : m.aborted = true
      · rw [if_pos g2, if_pos (h2.trans g2)]
        exact ⟨⟨hk, h2, rfl, h4⟩, .nil⟩
      · rw [if_neg g2, if_neg (show ¬ m'.aborted = true by rw [h2]; exact g2)]
        obtain ⟨a1, a2, a3, a4⟩ := phase_walk (S := S) hc h5 q { m with known := S.learn m.known op }
        obtain ⟨b1, b2, b3, b4⟩ := phase_walk (S := S) hd h5' q { m' with known := S.learn m'.known op }
        refine ⟨⟨(b1.trans hk).trans a1.symm, (b2.trans h2).trans a2.symm, b3.trans a3.symm, fun h => a4.2 ?_⟩, .nil⟩
        rcases b4.1 h with h | h
        · exact .inl (h4 h)
        · refine .inr (he _ _ ?_)
          have h : Case S ds (S.learn m'.known op) q := h
          rw [hk] at h
          exact h
  | none =>
    cases op <;> simp only [phaseOf, reduceCtorEq] at hq <;> simp only [call, phaseOf]
    case result =>
      rw [h2]
      refine ⟨?_, .cons h4 .nil⟩
      split
      · exact ⟨hk, rfl, h3, h4⟩
      · exact ⟨hk, rfl, h3, id⟩
    case intervention => exact ⟨⟨hk, h2, h3, h4⟩, .cons h4 .nil⟩
    case resetIntervention => exact ⟨⟨hk, h2, h3, id⟩, .nil⟩
    case abortWithStatus => exact ⟨⟨hk, rfl, h3, id⟩, .nil⟩
    case abortWithError => exact ⟨⟨hk, rfl, h3, id⟩, .nil⟩
    case jumpToPhase i => exact ⟨⟨hk, h2, rfl, h4⟩, .nil⟩
    case nextPhase => exact ⟨⟨hk, h2, by simp only [goto, h3], h4⟩, .nil⟩
    all_goals exact ⟨⟨hk, h2, h3, h4⟩, .nil⟩

theorem eased_run {cs ds : List (List PRule)} (hc : StrictRules cs) (hd : StrictRules ds) (he : ∀ k q, Case S ds k q → Case S cs k q)
    (h5 : ∀ c ∈ cs, 0 ≤ chainPhase c ∧ chainPhase c ≤ 5) (h5' : ∀ c ∈ ds, 0 ≤ chainPhase c ∧ chainPhase c ≤ 5) : ∀ (ops : List Op) {m m' : Mach K},
    Eased m m' → Pairs (fun v v' : Intervention => v'.disruptive = true → v.disruptive = true) (Spec.run S cs m ops).2 (Spec.run S ds m' ops).2
  | [], _, _, _ => .nil
  | op :: ops, _, _, hm => by
    obtain ⟨g1, g2⟩ := eased_call (S := S) hc hd he h5 h5' op hm
    simp only [Spec.run]
    exact g2.append (eased_run hc hd he h5 h5' ops g1)

end

/-! ### Exclusions -/

theorem Spec.Additive.mono {L : (Bytes → Prop) → List Bytes → VarTok → Prop} (h : Additive L) {P Q : Bytes → Prop} (hPQ : ∀ k, P k → Q k) {tk : VarTok} {y : Bytes}
    (hy : ∃ vals, L P vals tk ∧ y ∈ vals) : ∃ vals, L Q vals tk ∧ y ∈ vals := by
  have e : (fun k => P k ∨ Q k) = Q := funext fun k => propext ⟨fun h => h.elim (hPQ k) id, .inr⟩
  rw [← e]
  exact (h P Q tk y).2 (.inl hy)

/-- What is picked depends on which selectors there are only; inclusions being the same, more
exclusions pick no more. -/
theorem picked_mono {rx : Bytes → Option (Bytes → Bool)} {ss ts : List Selector} (hi : ∀ s, .incl s ∈ ts ↔ .incl s ∈ ss) (he : ∀ s, .excl s ∈ ss → .excl s ∈ ts)
    {k : Bytes} (h : Picked rx ts k) : Picked rx ss k := by
  simp only [Picked, hi] at h ⊢
  exact ⟨h.1, h.2.1, fun ⟨s, h1, h2⟩ => h.2.2 ⟨s, he s h1, h2⟩⟩

theorem incl_shared {vs ws : List PVar} (hsub : vs.Sublist ws) (h : ∀ w ∈ ws, w ∈ vs ∨ w.exclusion = true) {tk : VarTok} {c : Bool} (s : Bytes) :
    .incl s ∈ selectors ws tk c ↔ .incl s ∈ selectors vs tk c := by
  simp only [selectors_mem]
  constructor
  · rintro ⟨w, h1, h2, h3, h4, h5⟩
    rcases h w h1 with hw | hw
    · exact ⟨w, hw, h2, h3, h4, h5⟩
    · simp [selectorOf, hw] at h5
  · rintro ⟨v, h1, h2⟩
    exact ⟨v, hsub.subset h1, h2⟩

theorem excl_shared {vs ws : List PVar} (hsub : vs.Sublist ws) {tk : VarTok} {c : Bool} {s : Selector} (hs : s ∈ selectors vs tk c) : s ∈ selectors ws tk c := by
  obtain ⟨v, h1, h2⟩ := selectors_mem.1 hs
  exact selectors_mem.2 ⟨v, hsub.subset h1, h2⟩

theorem exempt_holds {lib : Lib} {L : (Bytes → Prop) → List Bytes → VarTok → Prop} (hL : Additive L) {p p' : PRule} (h : Varies Exempts p p') (hh : HoldsBy lib L p') :
    HoldsBy lib L p := by
  obtain ⟨ha, ho, hsub, hw⟩ := h
  obtain ⟨w, hw1, y, htest, hacc⟩ := hh
  rw [ha, ho] at hacc
  have hx : ∀ w ∈ p'.vars, w ∈ p.vars ∨ w.exclusion = true := fun w h => (hw w h).imp id fun h => h.1
  obtain ⟨v, hv, e1, e2⟩ : ∃ v ∈ p.vars, v.tk = w.tk ∧ v.count = w.count := by
    rcases hw w hw1 with h | ⟨_, h2, v, h3, h4, h5⟩
    · exact ⟨w, h, rfl, rfl⟩
    · exact ⟨v, h3, h4, h5.trans h2.symm⟩
  refine ⟨v, hv, y, ?_, hacc⟩
  rw [e1, e2]
  obtain ⟨vals, h1, h2⟩ := htest
  cases hc : w.count with
  | false =>
    simp only [hc, Bool.false_eq_true, if_false] at h1 h2
    obtain ⟨vals', g1, g2⟩ := hL.mono (fun k => picked_mono (incl_shared hsub hx) fun s => excl_shared hsub) ⟨vals, h1, h2⟩
    exact ⟨vals', g1, by simpa only [Bool.false_eq_true, if_false] using g2⟩
  | true =>
    simp only [hc] at h1 h2
    have e : Picked lib.rx (selectors p'.vars w.tk true) = Picked lib.rx (selectors p.vars w.tk true) := by
      funext k
      refine propext ⟨picked_mono (incl_shared hsub hx) fun s => excl_shared hsub, picked_mono (fun s => (incl_shared hsub hx s).symm) fun s hs => ?_⟩
      obtain ⟨u, u1, u2, u3, u4⟩ := selectors_mem.1 hs
      rcases hw u u1 with hu | ⟨_, hu, _⟩
      · exact selectors_mem.2 ⟨u, hu, u2, u3, u4⟩
      · rw [u3] at hu; cases hu
    rw [e] at h1
    exact ⟨vals, h1, h2⟩

theorem varies_stems {R : List PVar → List PVar → Prop} (hR : ∀ vs ws, R vs ws → vs.Sublist ws) {cs ds : List (List PRule)} (h : Pairs (Pairs (Varies R)) cs ds) :
    StemsFrom ds cs := by
  intro c hc
  obtain ⟨d, hd, hcd⟩ := h.left c hc
  refine ⟨d, hd, ?_, fun p hp => ?_⟩
  · cases hcd with
    | nil => rfl
    | cons h _ => show (_ : PRule).acts.phase = (_ : PRule).acts.phase; rw [h.1]
  · obtain ⟨p', hp', e1, e2, e3⟩ := hcd.left p hp
    exact ⟨p', hp', e1.symm, e2.symm, fun v hv => (hR _ _ e3).subset hv⟩

theorem exempt_case {K : Type} {S : Sight K} {lib : Lib} {L : K → (Bytes → Prop) → List Bytes → VarTok → Prop} (hS : ∀ k p, S.holds k p ↔ HoldsBy lib (L k) p)
    (hL : ∀ k, Additive (L k)) {cs ds : List (List PRule)} (h : Pairs (Pairs (Varies Exempts)) cs ds) (k : K) (q : Int) (hd : Case S ds k q) : Case S cs k q := by
  obtain ⟨d, h1, h2, ⟨p', p1, a, a1, a2⟩, h4⟩ := hd
  obtain ⟨c, hc, hcd⟩ := h.right d h1
  refine ⟨c, hc, ?_, ?_, fun p hp => ?_⟩
  · rw [← h2]
    cases hcd with
    | nil => rfl
    | cons h _ => show (_ : PRule).acts.phase = (_ : PRule).acts.phase; rw [h.1]
  · obtain ⟨p, hp, e, _⟩ := hcd.right p' p1
    exact ⟨p, hp, a, e ▸ a1, a2⟩
  · obtain ⟨p', hp', e⟩ := hcd.left p hp
    exact (hS k p).2 (exempt_holds (hL k) e ((hS k p').1 (h4 p' hp')))

theorem varies_strict {R : List PVar → List PVar → Prop} {cs ds : List (List PRule)} (h : Pairs (Pairs (Varies R)) cs ds) (hs : StrictRules cs) : StrictRules ds := by
  intro d hd p' hp' a ha
  obtain ⟨c, hc, hcd⟩ := h.right d hd
  obtain ⟨p, hp, e, _⟩ := hcd.right p' hp'
  exact hs c hc p hp a (e ▸ ha)

/-- C137 for rules that read no body, if only variables that are listed have exclusions.
Missing: bodies, see below. -/
theorem C137_exempt_partial {lib : Lib} {vo : VarOrd} {ord : IterOrd} {text text' : Bytes} {dirs dirs' : List PDir} (ht : Program text dirs)
    (ht' : Program text' dirs') (hok : ∀ d ∈ dirs', DirOk lib d) (h : Pairs (Pairs (Varies Exempts)) (chainsOf (rulesIn dirs)) (chainsOf (rulesIn dirs')))
    (hv : ∀ p ∈ rulesIn dirs', ∀ v ∈ p.vars, readsBody v.tk = false) (hs : StrictRules (chainsOf (rulesIn dirs))) (ops : List Op) :
    BothShow (Pairs fun v v' => v'.disruptive = true → v.disruptive = true) lib vo ord text text' (enough dirs dirs') ops := by
  have hst := varies_stems (fun _ _ h => h.1) h
  have hs' := varies_strict h hs
  obtain ⟨set, h1, h2⟩ := C87_machine (vo := vo) (ord := ord) ht (hst.ok hok) (fun p hp v hv' => by
    obtain ⟨p', p1, _, _, p4⟩ := hst.rule hp
    exact hv p' p1 v (p4 v hv')) (strict_noReturn hs)
  obtain ⟨set', h1', h2'⟩ := C87_machine (vo := vo) (ord := ord) ht' hok hv (strict_noReturn hs')
  refine ⟨set, set', h1, h1', fun n hn => ?_⟩
  obtain ⟨t, os, tr, g1, g2⟩ := h2 ops n (by simp only [enough] at hn; omega)
  obtain ⟨t', os', tr', g1', g2'⟩ := h2' ops n (by simp only [enough] at hn; omega)
  refine ⟨t, t', os, os', tr, tr', g1, g1', ?_⟩
  rw [g2, g2']
  exact eased_run hs hs' (exempt_case (lib := lib) (L := Lists lib) (fun _ _ => .rfl) (lists_additive lib) h)
    (fun c h => ⟨chain_low ht h, chain_five ht h⟩) (fun c h => ⟨chain_low ht' h, chain_five ht' h⟩) ops ⟨rfl, rfl, rfl, id⟩

/-- C137 likewise with bodies of up to 131072 bytes, if rules read arguments from the body only
once the form is settled, and well-formed.  Missing: larger bodies, malformed forms. -/
theorem C137_bodies_partial {lib : Lib} {vo : VarOrd} {ord : IterOrd} {text text' : Bytes} {dirs dirs' : List PDir} (ht : Program text dirs)
    (ht' : Program text' dirs') (hok : ∀ d ∈ dirs', DirOk lib d) (hsw : switches dirs = switches dirs')
    (h : Pairs (Pairs (Varies Exempts)) (chainsOf (rulesIn dirs)) (chainsOf (rulesIn dirs'))) (hs : StrictRules (chainsOf (rulesIn dirs)))
    {ops : List Op} {q : Int} (hsize : (sent false ops).length ≤ 131072)
    (hform : ∀ c ∈ chainsOf (rulesIn dirs'), 1 ≤ chainPhase c → (∃ p ∈ c, ∃ v ∈ p.vars, readsArgs v.tk = true) → q ≤ chainPhase c ∧ FormSettled lib q ops) :
    BothShow (Pairs fun v v' => v'.disruptive = true → v.disruptive = true) lib vo ord text text' (enough dirs dirs') ops := by
  have hst := varies_stems (fun _ _ h => h.1) h
  have hs' := varies_strict h hs
  obtain ⟨set, h1, h2⟩ := C88_machine (vo := vo) (ord := ord) ht (hst.ok hok) (strict_noReturn hs)
  obtain ⟨set', h1', h2'⟩ := C88_machine (vo := vo) (ord := ord) ht' hok (strict_noReturn hs')
  refine ⟨set, set', h1, h1', fun n hn => ?_⟩
  obtain ⟨t, os, tr, g1, g2⟩ := h2 (q := q) hsize (fun c hc h1 ⟨p, hp, v, hv, ha⟩ => by
    obtain ⟨d, d1, d2, d3⟩ := hst c hc
    obtain ⟨p', p1, _, _, p4⟩ := d3 p hp
    rw [d2] at h1 ⊢
    exact hform d d1 h1 ⟨p', p1, v, p4 v hv, ha⟩) n (by simp only [enough] at hn; omega)
  obtain ⟨t', os', tr', g1', g2'⟩ := h2' hsize hform n (by simp only [enough] at hn; omega)
  refine ⟨t, t', os, os', tr, tr', g1, g1', ?_⟩
  obtain ⟨e1, e2⟩ := switches_access hsw
  rw [g2, g2', ← e1, ← e2]
  exact eased_run hs hs' (exempt_case (lib := lib) (fun _ _ => .rfl) (listsAll_additive lib _ _) h)
    (fun c h => ⟨chain_low ht h, chain_five ht h⟩) (fun c h => ⟨chain_low ht' h, chain_five ht' h⟩) ops ⟨rfl, rfl, rfl, id⟩

/-- C137 likewise with a multipart form of up to 131072 bytes.  Missing: larger bodies, malformed forms. -/
theorem C137_multipart_partial {lib : Lib} (hm : lib.ReadsMedia) (hl : lib.ReadsForms) {vo : VarOrd} {ord : IterOrd} {text text' : Bytes} {dirs dirs' : List PDir}
    (ht : Program text dirs) (ht' : Program text' dirs') (hok : ∀ d ∈ dirs', DirOk lib d) (hsw : switches dirs = switches dirs')
    (h : Pairs (Pairs (Varies Exempts)) (chainsOf (rulesIn dirs)) (chainsOf (rulesIn dirs'))) (hs : StrictRules (chainsOf (rulesIn dirs)))
    {ops : List Op} {q : Int} {bnd : Bytes} {ps : List (Option Bytes × Bytes)} (hf : ReadsSentForm (chainsOf (rulesIn dirs')) q bnd ps ops) :
    BothShow (Pairs fun v v' => v'.disruptive = true → v.disruptive = true) lib vo ord text text' (enough dirs dirs') ops := by
  have hst := varies_stems (fun _ _ h => h.1) h
  have hs' := varies_strict h hs
  obtain ⟨set, h1, h2⟩ := C133_machine hm hl (vo := vo) (ord := ord) ht (hst.ok hok) (strict_noReturn hs)
  obtain ⟨set', h1', h2'⟩ := C133_machine hm hl (vo := vo) (ord := ord) ht' hok (strict_noReturn hs')
  refine ⟨set, set', h1, h1', fun n hn => ?_⟩
  obtain ⟨t, os, tr, g1, g2⟩ := h2 (q := q) (bnd := bnd) (ps := ps) hf.size (fun c hc h1 ⟨p, hp, v, hv, ha⟩ => by
    obtain ⟨d, d1, d2, d3⟩ := hst c hc
    obtain ⟨p', p1, _, _, p4⟩ := d3 p hp
    rw [d2] at h1 ⊢
    exact hf.form d d1 h1 ⟨p', p1, v, p4 v hv, ha⟩) n (by simp only [enough] at hn; omega)
  obtain ⟨t', os', tr', g1', g2'⟩ := h2' hf.size hf.form n (by simp only [enough] at hn; omega)
  refine ⟨t, t', os, os', tr, tr', g1, g1', ?_⟩
  obtain ⟨e1, e2⟩ := switches_access hsw
  rw [g2, g2', ← e1, ← e2]
  exact eased_run hs hs' (exempt_case (lib := lib) (fun _ _ => .rfl) (listsForm_additive lib _ _ _) h)
    (fun c h => ⟨chain_low ht h, chain_five ht h⟩) (fun c h => ⟨chain_low ht' h, chain_five ht' h⟩) ops ⟨rfl, rfl, rfl, id⟩

/-! ### The refutation -/

theorem textVerdicts_run {lib : Lib} {text : Bytes} {n : Nat} {ops : List Op} {a : List Bool} (h : textVerdicts lib text n ops = some a) :
    ∃ set t os tr, DireSet.addSecLangString lib varOrd [] text = .ok (set, none) ∧
      (set.execute newEngine).newTransaction.steps ((set.execute newEngine).env lib Sample.ord) (set.execute newEngine).ruleSet n ops = .ok (t, os, tr) ∧
      (shown os).map (·.disruptive) = a := by
  simp only [textVerdicts] at h
  split at h
  · rename_i set e1
    split at h
    · rename_i t os tr r1
      simp only [Option.some.injEq] at h
      exact ⟨set, t, os, tr, e1, r1, h⟩
    · cases h
  · cases h

/-- The rule is about the method; with the exclusion of a header, about the other headers, too. -/
theorem C137_refuted : ¬ C137_statement := by
  intro h
  have p1 : Program b!"SecRule REQUEST_METHOD \"@rx evil\" \"id:1,phase:3,deny\"\n" [.rule (evilIn [theMethod] false)] := (C53_exact id _ _).1 (by decide +kernel)
  have p2 : Program b!"SecRule REQUEST_METHOD|!REQUEST_HEADERS:a \"@rx evil\" \"id:1,phase:3,deny\"\n"
    [.rule (evilIn [theMethod, { tk := .requestHeaders, index := b!"a", exclusion := true }] false)] := (C53_exact id _ _).1 (by decide +kernel)
  obtain ⟨set, t, os, tr, a1, a2, a3⟩ := textVerdicts_run (lib := lib) (text := b!"SecRule REQUEST_METHOD \"@rx evil\" \"id:1,phase:3,deny\"\n") (n := 9)
    (ops := [.processRequestHeader (some [(b!"b", [b!"evil"])]), .processRequestBody, .result]) (a := [false]) (by decide +kernel)
  obtain ⟨set', t', os', tr', b1, b2, b3⟩ := textVerdicts_run (lib := lib) (text := b!"SecRule REQUEST_METHOD|!REQUEST_HEADERS:a \"@rx evil\" \"id:1,phase:3,deny\"\n") (n := 9)
    (ops := [.processRequestHeader (some [(b!"b", [b!"evil"])]), .processRequestBody, .result]) (a := [true]) (by decide +kernel)
  have hp := h lib varOrd Sample.ord _ _ _ _ set set' p1 p2 rfl
    (.cons (.cons ⟨rfl, rfl, (List.Sublist.refl [theMethod]).trans (List.sublist_append_left _ _), by
      intro w hw
      simp only [evilIn, List.mem_cons, List.not_mem_nil, or_false] at hw ⊢
      exact hw.imp id fun e => by rw [e]⟩ .nil) .nil)
    (by
      intro c hc p hp a ha
      have hc : c ∈ [[evilIn [theMethod] false]] := hc
      rw [List.mem_singleton.1 hc] at hp
      rw [List.mem_singleton.1 hp] at ha; rw [List.mem_singleton.1 ha]; exact ⟨nofun, nofun⟩) a1 b1 _ 9 t t' os os' tr tr' a2 b2
  generalize shown os = l at a3 hp
  generalize shown os' = l' at b3 hp
  cases hp with
  | nil => cases a3
  | cons hv _ =>
    simp only [List.map_cons, List.cons.injEq] at a3 b3
    have := hv b3.1
    rw [a3.1] at this; cases this

/-- Nor does an exclusion change what is counted: it adds the other values to what is compared with
the number. -/
theorem C137_counted :
    textVerdicts lib b!"SecRule &REQUEST_HEADERS \"@eq 1\" \"id:1,phase:2,deny\"\n" 9
      [.processRequestHeader (some [(b!"a", [b!"x"]), (b!"b", [b!"1"])]), .result] = some [false] ∧
    textVerdicts lib b!"SecRule &REQUEST_HEADERS|!REQUEST_HEADERS:a \"@eq 1\" \"id:1,phase:2,deny\"\n" 9
      [.processRequestHeader (some [(b!"a", [b!"x"]), (b!"b", [b!"1"])]), .result] = some [true] := by
  decide +kernel

/-! ### Examples -/

theorem Sample.exempt_one (tk : VarTok) : Exempts [{ tk := tk }] [{ tk := tk }, { tk := tk, index := b!"a", exclusion := true }] := by
  refine ⟨(List.Sublist.refl [_]).trans (List.sublist_append_left _ _), fun w hw => ?_⟩
  simp only [List.mem_cons, List.not_mem_nil, or_false] at hw
  rcases hw with rfl | rfl
  · exact .inl (.head _)
  · exact .inr ⟨rfl, rfl, _, .head _, rfl, rfl⟩

theorem Sample.exempt_ok {lib : Lib} (hrx : ∃ f, lib.rx b!"evil" = some f) {tk : VarTok} (htk : tk ≠ .xml) :
    ∀ d ∈ PDir.reqBody true :: [evilIn [{ tk := tk }, { tk := tk, index := b!"a", exclusion := true }] false].map .rule, DirOk lib d := by
  intro d hd
  obtain ⟨f, hf⟩ := hrx
  simp only [List.map_cons, List.map_nil, List.mem_cons, List.not_mem_nil, or_false] at hd
  rcases hd with rfl | rfl
  · trivial
  · exact {
      vars := by
        intro v hv
        have hv : v = { tk := tk } ∨ v = { tk := tk, index := b!"a", exclusion := true } := by simpa [evilIn] using hv
        rcases hv with rfl | rfl
        · exact ⟨htk, fun _ re hre => absurd ⟨re, hre⟩ (notRegex (s := []) (by decide))⟩
        · exact ⟨htk, fun _ re hre => absurd ⟨re, hre⟩ (notRegex (s := b!"a") (by decide))⟩
      op := ⟨_, .rx rfl hf⟩
      acts := by intro a ha; rw [List.mem_singleton.1 ha]; exact .inl ⟨_, .deny⟩ }

theorem Sample.exempt_strict (vs : List PVar) : StrictRules [[evilIn vs false]] := by
  intro c hc p hp a ha
  rw [List.mem_singleton.1 hc] at hp
  rw [List.mem_singleton.1 hp] at ha; rw [List.mem_singleton.1 ha]; exact ⟨nofun, nofun⟩

/-- The headers, but one. -/
example (ops : List Op) : BothShow (Pairs fun v v' => v'.disruptive = true → v.disruptive = true) lib varOrd Sample.ord
    b!"SecRequestBodyAccess On\nSecRule REQUEST_HEADERS \"@rx evil\" \"id:1,phase:3,deny\"\n"
    b!"SecRequestBodyAccess On\nSecRule REQUEST_HEADERS|!REQUEST_HEADERS:a \"@rx evil\" \"id:1,phase:3,deny\"\n" 3 ops := by
  refine C137_exempt_partial (dirs := .reqBody true :: [evilIn [{ tk := .requestHeaders }] false].map .rule)
    (dirs' := .reqBody true :: [evilIn [{ tk := .requestHeaders }, { tk := .requestHeaders, index := b!"a", exclusion := true }] false].map .rule)
    ((C53_exact id _ _).1 (by decide +kernel)) ((C53_exact id _ _).1 (by decide +kernel)) (exempt_ok ⟨_, rfl⟩ (by decide))
    (.cons (.cons ⟨rfl, rfl, exempt_one _⟩ .nil) .nil) ?_ (exempt_strict _) ops
  intro p hp v hv
  have hp : p ∈ [evilIn [{ tk := .requestHeaders }, { tk := .requestHeaders, index := b!"a", exclusion := true }] false] := hp
  rw [List.mem_singleton.1 hp] at hv
  simp only [evilIn, List.mem_cons, List.not_mem_nil, or_false] at hv
  rcases hv with rfl | rfl <;> rfl

/-- The fields of an urlencoded form, but one. -/
example (x y : Bytes) (hsize : x.length + y.length ≤ 131072) : BothShow (Pairs fun v v' => v'.disruptive = true → v.disruptive = true) lib varOrd Sample.ord
    b!"SecRequestBodyAccess On\nSecRule ARGS_POST \"@rx evil\" \"id:1,phase:3,deny\"\n"
    b!"SecRequestBodyAccess On\nSecRule ARGS_POST|!ARGS_POST:a \"@rx evil\" \"id:1,phase:3,deny\"\n" 3 (formOps x y ++ [.result]) := by
  refine C137_bodies_partial (q := 3) (dirs := .reqBody true :: [evilIn [{ tk := .argsPost }] false].map .rule)
    (dirs' := .reqBody true :: [evilIn [{ tk := .argsPost }, { tk := .argsPost, index := b!"a", exclusion := true }] false].map .rule)
    ((C53_exact id _ _).1 (by decide +kernel)) ((C53_exact id _ _).1 (by decide +kernel)) (exempt_ok ⟨_, rfl⟩ (by decide)) rfl
    (.cons (.cons ⟨rfl, rfl, exempt_one _⟩ .nil) .nil) (exempt_strict _) (by simpa [formOps, sent, chunkOf] using hsize) ?_
  intro c hc _ _
  have hc : c ∈ [[evilIn [{ tk := .argsPost }, { tk := .argsPost, index := b!"a", exclusion := true }] false]] := hc
  rw [List.mem_singleton.1 hc]
  exact ⟨by show (3 : Int) ≤ 3; omega, (formOps_settled x y).result⟩

/-- And of a multipart form. -/
example {x y v : Bytes} (hxy : x ++ y = sentBody v) (h : 13 ∉ v) (hd : v.head? ≠ some 45) (hlen : (sentBody v).length ≤ 4096) :
    BothShow (Pairs fun v v' => v'.disruptive = true → v.disruptive = true) formLib varOrd Sample.ord
    b!"SecRequestBodyAccess On\nSecRule ARGS_POST \"@rx evil\" \"id:1,phase:3,deny\"\n"
    b!"SecRequestBodyAccess On\nSecRule ARGS_POST|!ARGS_POST:a \"@rx evil\" \"id:1,phase:3,deny\"\n" 3 (sentOps x y ++ [.result]) := by
  refine C137_multipart_partial (dirs := .reqBody true :: [evilIn [{ tk := .argsPost }] false].map .rule)
    (dirs' := .reqBody true :: [evilIn [{ tk := .argsPost }, { tk := .argsPost, index := b!"a", exclusion := true }] false].map .rule) formEnv_media formLib_reads
    ((C53_exact id _ _).1 (by decide +kernel)) ((C53_exact id _ _).1 (by decide +kernel)) (exempt_ok ⟨_, rfl⟩ (by decide)) rfl
    (.cons (.cons ⟨rfl, rfl, exempt_one _⟩ .nil) .nil) (exempt_strict _) (evil_reads ?_ hxy h hd hlen)
  intro c hc
  have hc : c ∈ [[evilIn [{ tk := .argsPost }, { tk := .argsPost, index := b!"a", exclusion := true }] false]] := hc
  exact ⟨_, _, _, _, List.mem_singleton.1 hc, rfl⟩

end Verif
