import Verif.Props.Exempt
/-! C138: a rule and the rule with `!`. -/
namespace Verif
open Sample Spec

/-- The rule with `!` put before its operator, or taken away. -/
def Spec.negated (p : PRule) : PRule := { p with op := { p.op with not := !p.op.not } }

/-- The calls process the phase `q`. -/
def Spec.PhaseProcessed (ops : List Op) (q : Int) : Prop := 1 ≤ q ∧ ∃ k, Processed ops q k

/-- C138: if two texts have one rule, which denies, and differ in its `!` only, exactly one of them
refuses, whatever the calls that process the phase of the rule. -/
def C138_statement : Prop :=
  ∀ (lib : Lib) (vo : VarOrd) (ord : IterOrd) (text text' : Bytes) (dirs dirs' : List PDir) (p : PRule) (set set' : DireSet),
    Program text dirs → Program text' dirs' → switches dirs = switches dirs' →
    chainsOf (rulesIn dirs) = [[p]] → chainsOf (rulesIn dirs') = [[negated p]] → Denies [p] → (∀ a ∈ p.acts.action, Spec.Mild a) →
    DireSet.addSecLangString lib vo [] text = .ok (set, none) → DireSet.addSecLangString lib vo [] text' = .ok (set', none) →
    ∀ (ops : List Op), (∀ o ∈ ops, o.keepsCursor = true ∧ o.aborts = false ∧ o.readsVerdict = false) → PhaseProcessed ops p.acts.phase →
    ∀ (n : Nat) (t t' : Tx) (os os' : List Out) (i i' : Intervention) (tr tr' : Trace),
      (set.execute newEngine).newTransaction.steps ((set.execute newEngine).env lib ord) (set.execute newEngine).ruleSet n (ops ++ [.result]) =
        .ok (t, os ++ [.intervention i], tr) →
      (set'.execute newEngine).newTransaction.steps ((set'.execute newEngine).env lib ord) (set'.execute newEngine).ruleSet n (ops ++ [.result]) =
        .ok (t', os' ++ [.intervention i'], tr') →
      (i.disruptive = true ↔ i'.disruptive = false)

/-- `y` is compared by the rule, and `Meets` the operator, `!` apart. -/
def Spec.Compared (lib : Lib) (L : (Bytes → Prop) → List Bytes → VarTok → Prop) (p : PRule) (y : Bytes) : Prop :=
  ∃ v ∈ p.vars, TestedBy lib.rx L p.vars (v.tk, v.count) y

def Spec.Meets (lib : Lib) (p : PRule) (y : Bytes) : Prop :=
  Accepts lib p.op (pipe lib (newTransaction newDefaultLimits) (p.acts.trans.map transOf) y)

theorem holds_compared {lib : Lib} {L : (Bytes → Prop) → List Bytes → VarTok → Prop} {p : PRule} :
    HoldsBy lib L p ↔ ∃ y, Compared lib L p y ∧ (Meets lib p y ↔ p.op.not = false) :=
  ⟨fun ⟨v, h1, y, h2, h3⟩ => ⟨y, ⟨v, h1, h2⟩, h3⟩, fun ⟨y, ⟨v, h1, h2⟩, h3⟩ => ⟨v, h1, y, h2, h3⟩⟩

theorem holds_negated {lib : Lib} {L : (Bytes → Prop) → List Bytes → VarTok → Prop} {p : PRule} :
    HoldsBy lib L (negated p) ↔ ∃ y, Compared lib L p y ∧ ¬ (Meets lib p y ↔ p.op.not = false) := by
  rw [holds_compared]
  refine exists_congr fun y => and_congr .rfl ?_
  show (Meets lib p y ↔ (!p.op.not) = false) ↔ _
  cases p.op.not <;> simp

/-- What the two verdicts are: at least one refuses exactly if there is a value to compare, and
both do exactly if there is one that meets the operator and one that does not. -/
structure Spec.Divided (C M : Bytes → Prop) (v v' : Bool) : Prop where
  some : (v = true ∨ v' = true) ↔ ∃ y, C y
  both : (v = true ∧ v' = true) ↔ (∃ y, C y ∧ M y) ∧ ∃ y, C y ∧ ¬ M y

theorem divided {C M : Bytes → Prop} {v v' : Bool} {b : Prop} (h : v = true ↔ ∃ y, C y ∧ (M y ↔ b)) (h' : v' = true ↔ ∃ y, C y ∧ ¬ (M y ↔ b)) : Divided C M v v' where
  some := by
    rw [h, h']
    constructor
    · rintro (⟨y, h, _⟩ | ⟨y, h, _⟩) <;> exact ⟨y, h⟩
    · rintro ⟨y, h⟩
      by_cases hy : M y ↔ b
      · exact .inl ⟨y, h, hy⟩
      · exact .inr ⟨y, h, hy⟩
  both := by
    rw [h, h']
    by_cases hb : b <;> simp only [hb, iff_true, iff_false, Classical.not_not]
    exact And.comm

theorem processedBy_unique {K : Type} {after : List Op → K} {ops : List Op} {q : Int} {k k' : K} (h : ProcessedBy after ops q k) (h' : ProcessedBy after ops q k') :
    k = k' := by
  obtain ⟨pre, c, post, rfl, h1, h2, rfl⟩ := h
  obtain ⟨pre', c', post', e, h1', h2', rfl⟩ := h'
  suffices pre ++ [c] = pre' ++ [c'] by rw [this]
  rcases List.append_eq_append_iff.1 e with ⟨as, ha, hb⟩ | ⟨as, ha, hb⟩
  · cases as with
    | nil => simp only [List.nil_append, List.cons.injEq] at hb; rw [ha, hb.1, List.append_nil]
    | cons a as =>
      simp only [List.cons_append, List.cons.injEq] at hb
      have := h2' c (by rw [ha, hb.1]; simp) q h1
      omega
  · cases as with
    | nil => simp only [List.nil_append, List.cons.injEq] at hb; rw [ha, hb.1, List.append_nil]
    | cons a as =>
      simp only [List.cons_append, List.cons.injEq] at hb
      have := h2 c' (by rw [ha, hb.1]; simp) q h1'
      omega

/-- The verdict on one rule that denies. -/
theorem one_rule {K : Type} {after : List Op → K} {H : K → PRule → Prop} {p : PRule} {ops : List Op} {k : K} (h1 : 1 ≤ p.acts.phase)
    (hk : ProcessedBy after ops p.acts.phase k) (hd : Denies [p]) :
    (∃ c ∈ [[p]], ∃ k, 1 ≤ chainPhase c ∧ ProcessedBy after ops (chainPhase c) k ∧ Denies c ∧ ∀ p ∈ c, H k p) ↔ H k p := by
  constructor
  · rintro ⟨c, hc, k', _, h2, _, h4⟩
    rw [List.mem_singleton.1 hc] at h2 h4
    rw [processedBy_unique hk h2]
    exact h4 p (.head _)
  · intro h
    refine ⟨[p], .head _, k, h1, hk, hd, fun p' hp => ?_⟩
    rw [List.mem_singleton.1 hp]; exact h

theorem denies_negated {p : PRule} (h : Denies [p]) : Denies [negated p] := by
  obtain ⟨r, hr, ha⟩ := h
  rw [List.mem_singleton.1 hr] at ha
  exact ⟨negated p, .head _, ha⟩

theorem only_rule {ds : List PDir} {q : PRule} (e : chainsOf (rulesIn ds) = [[q]]) {r : PRule} (hr : r ∈ rulesIn ds) : r = q := by
  obtain ⟨c, c1, c2⟩ := in_chain hr
  rw [e] at c1
  rw [List.mem_singleton.1 c1] at c2
  exact List.mem_singleton.1 c2

/-- Both texts load; made the calls `ops` and asked for the verdict, they say what `R` relates. -/
def Spec.BothSay (R : Bool → Bool → Prop) (lib : Lib) (vo : VarOrd) (ord : IterOrd) (text text' : Bytes) (k : Nat) (ops : List Op) : Prop :=
  ∃ set set', DireSet.addSecLangString lib vo [] text = .ok (set, none) ∧ DireSet.addSecLangString lib vo [] text' = .ok (set', none) ∧
    ∀ n ≥ k, ∃ t t' os os' i i' tr tr',
      (set.execute newEngine).newTransaction.steps ((set.execute newEngine).env lib ord) (set.execute newEngine).ruleSet n (ops ++ [.result]) =
        .ok (t, os ++ [.intervention i], tr) ∧
      (set'.execute newEngine).newTransaction.steps ((set'.execute newEngine).env lib ord) (set'.execute newEngine).ruleSet n (ops ++ [.result]) =
        .ok (t', os' ++ [.intervention i'], tr') ∧ R i.disruptive i'.disruptive

/-- What the two rules do, if they read no body: at least one refuses exactly if there is a value to
compare, and both do exactly if there are one that meets the operator and one that does not. -/
theorem C138_exact {lib : Lib} {vo : VarOrd} {ord : IterOrd} {text text' : Bytes} {dirs dirs' : List PDir} {p : PRule} (ht : Program text dirs)
    (ht' : Program text' dirs') (hok : ∀ d ∈ dirs, DirOk lib d) (hok' : ∀ d ∈ dirs', DirOk lib d)
    (hp : chainsOf (rulesIn dirs) = [[p]]) (hp' : chainsOf (rulesIn dirs') = [[negated p]])
    (hd : Denies [p]) (hm : ∀ a ∈ p.acts.action, Spec.Mild a) (hv : ∀ v ∈ p.vars, readsBody v.tk = false)
    {ops : List Op} (hops : ∀ o ∈ ops, o.keepsCursor = true ∧ o.aborts = false ∧ o.readsVerdict = false) {k : Facts} (h1 : 1 ≤ p.acts.phase)
    (hk : Processed ops p.acts.phase k) :
    BothSay (Divided (Compared lib (Lists lib k) p) (Meets lib p)) lib vo ord text text' 3 ops := by
  obtain ⟨set, a1, a2⟩ := C83_policy (vo := vo) (ord := ord) ht hok (fun r hr => by rw [only_rule hp hr]; exact hv) (fun r hr => by rw [only_rule hp hr]; exact hm) hops
  obtain ⟨set', b1, b2⟩ := C83_policy (vo := vo) (ord := ord) ht' hok' (fun r hr => by rw [only_rule hp' hr]; exact hv) (fun r hr => by rw [only_rule hp' hr]; exact hm) hops
  refine ⟨set, set', a1, b1, fun n hn => ?_⟩
  obtain ⟨t, os, i, tr, a3, a4, _⟩ := a2 n (by rw [hp]; exact hn)
  obtain ⟨t', os', i', tr', b3, b4, _⟩ := b2 n (by rw [hp']; exact hn)
  refine ⟨t, t', os, os', i, i', tr, tr', a3, b3, ?_⟩
  rw [hp] at a4
  rw [hp'] at b4
  refine divided (b := p.op.not = false) ?_ ?_
  · exact (a4.trans (one_rule (H := Holds lib) h1 hk hd)).trans holds_compared
  · exact (b4.trans (one_rule (H := Holds lib) (p := negated p) h1 hk (denies_negated hd))).trans holds_negated

/-- The same for rules that read bodies of up to 131072 bytes, a form being settled and
well-formed when it is read. -/
theorem C138_exact_bodies {lib : Lib} {vo : VarOrd} {ord : IterOrd} {text text' : Bytes} {dirs dirs' : List PDir} {p : PRule} (ht : Program text dirs)
    (ht' : Program text' dirs') (hok : ∀ d ∈ dirs, DirOk lib d) (hok' : ∀ d ∈ dirs', DirOk lib d) (hsw : switches dirs = switches dirs')
    (hp : chainsOf (rulesIn dirs) = [[p]]) (hp' : chainsOf (rulesIn dirs') = [[negated p]])
    (hd : Denies [p]) (hm : ∀ a ∈ p.acts.action, Spec.Mild a)
    {ops : List Op} (hops : ∀ o ∈ ops, o.keepsCursor = true ∧ o.aborts = false ∧ o.readsVerdict = false) (hsize : (sent false ops).length ≤ 131072) {q : Int}
    (hform : (∃ v ∈ p.vars, readsArgs v.tk = true) → q ≤ p.acts.phase ∧ FormSettled lib q ops) {k : Known} (h1 : 1 ≤ p.acts.phase)
    (hk : ProcessedBy (fun pre => pre.foldl learn {}) ops p.acts.phase k) :
    BothSay (Divided (Compared lib (ListsAll lib (reqAccess dirs) (respAccess dirs) k) p) (Meets lib p)) lib vo ord text text' 3 ops := by
  obtain ⟨set, a1, a2⟩ := C84_policy (vo := vo) (ord := ord) ht hok (fun r hr => by rw [only_rule hp hr]; exact hm) hops hsize (q := q) (by
    rw [hp]
    intro c hc _ ⟨r, hr, hv⟩
    rw [List.mem_singleton.1 hc] at hr ⊢
    rw [List.mem_singleton.1 hr] at hv
    exact hform hv)
  obtain ⟨set', b1, b2⟩ := C84_policy (vo := vo) (ord := ord) ht' hok' (fun r hr => by rw [only_rule hp' hr]; exact hm) hops hsize (q := q) (by
    rw [hp']
    intro c hc _ ⟨r, hr, hv⟩
    rw [List.mem_singleton.1 hc] at hr ⊢
    rw [List.mem_singleton.1 hr] at hv
    exact hform hv)
  refine ⟨set, set', a1, b1, fun n hn => ?_⟩
  obtain ⟨t, os, i, tr, a3, a4, _⟩ := a2 n (by rw [hp]; exact hn)
  obtain ⟨t', os', i', tr', b3, b4, _⟩ := b2 n (by rw [hp']; exact hn)
  refine ⟨t, t', os, os', i, i', tr, tr', a3, b3, ?_⟩
  obtain ⟨e1, e2⟩ := switches_access hsw
  rw [hp] at a4
  rw [hp', ← e1, ← e2] at b4
  refine divided (b := p.op.not = false) ?_ ?_
  · exact (a4.trans (one_rule (H := HoldsAll lib _ _) h1 hk hd)).trans holds_compared
  · exact (b4.trans (one_rule (H := HoldsAll lib _ _) (p := negated p) h1 hk (denies_negated hd))).trans holds_negated

/-- And for rules that read multipart forms, as in C133. -/
theorem C138_exact_multipart {lib : Lib} (hmt : lib.ReadsMedia) (hl : lib.ReadsForms) {vo : VarOrd} {ord : IterOrd} {text text' : Bytes} {dirs dirs' : List PDir}
    {p : PRule} (ht : Program text dirs) (ht' : Program text' dirs') (hok : ∀ d ∈ dirs, DirOk lib d) (hok' : ∀ d ∈ dirs', DirOk lib d)
    (hsw : switches dirs = switches dirs') (hp : chainsOf (rulesIn dirs) = [[p]]) (hp' : chainsOf (rulesIn dirs') = [[negated p]])
    (hd : Denies [p]) (hm : ∀ a ∈ p.acts.action, Spec.Mild a)
    {ops : List Op} (hops : ∀ o ∈ ops, o.keepsCursor = true ∧ o.aborts = false ∧ o.readsVerdict = false) (hsize : (sent false ops).length ≤ 131072) {q : Int}
    {bnd : Bytes} {ps : List (Option Bytes × Bytes)} (hform : (∃ v ∈ p.vars, readsArgs v.tk = true) → q ≤ p.acts.phase ∧ FormSent q bnd ps ops) {k : Known}
    (h1 : 1 ≤ p.acts.phase) (hk : ProcessedBy (fun pre => pre.foldl learn {}) ops p.acts.phase k) :
    BothSay (Divided (Compared lib (ListsForm lib (reqAccess dirs) (respAccess dirs) (fieldsOf ps) k) p) (Meets lib p)) lib vo ord text text' 3 ops := by
  obtain ⟨set, a1, a2⟩ := C133_policy hmt hl (vo := vo) (ord := ord) ht hok (fun r hr => by rw [only_rule hp hr]; exact hm) hops hsize (q := q) (bnd := bnd) (ps := ps) (by
    rw [hp]
    intro c hc _ ⟨r, hr, hv⟩
    rw [List.mem_singleton.1 hc] at hr ⊢
    rw [List.mem_singleton.1 hr] at hv
    exact hform hv)
  obtain ⟨set', b1, b2⟩ := C133_policy hmt hl (vo := vo) (ord := ord) ht' hok' (fun r hr => by rw [only_rule hp' hr]; exact hm) hops hsize (q := q) (bnd := bnd) (ps := ps) (by
    rw [hp']
    intro c hc _ ⟨r, hr, hv⟩
    rw [List.mem_singleton.1 hc] at hr ⊢
    rw [List.mem_singleton.1 hr] at hv
    exact hform hv)
  refine ⟨set, set', a1, b1, fun n hn => ?_⟩
  obtain ⟨t, os, i, tr, a3, a4, _⟩ := a2 n (by rw [hp]; exact hn)
  obtain ⟨t', os', i', tr', b3, b4, _⟩ := b2 n (by rw [hp']; exact hn)
  refine ⟨t, t', os, os', i, i', tr, tr', a3, b3, ?_⟩
  obtain ⟨e1, e2⟩ := switches_access hsw
  rw [hp] at a4
  rw [hp', ← e1, ← e2] at b4
  refine divided (b := p.op.not = false) ?_ ?_
  · exact (a4.trans (one_rule (H := HoldsForm lib _ _ _) h1 hk hd)).trans holds_compared
  · exact (b4.trans (one_rule (H := HoldsForm lib _ _ _) (p := negated p) h1 hk (denies_negated hd))).trans holds_negated

/-- With one value to compare, one of them refuses. -/
theorem Spec.Divided.one {C M : Bytes → Prop} {v v' : Bool} (h : Divided C M v v') {y : Bytes} (hy : ∀ z, C z ↔ z = y) : v = true ↔ v' = false := by
  have h1 := h.some.2 ⟨y, (hy y).2 rfl⟩
  have h2 : ¬ (v = true ∧ v' = true) := by
    rw [h.both]
    rintro ⟨⟨a, a1, a2⟩, b, b1, b2⟩
    rw [(hy a).1 a1] at a2
    rw [(hy b).1 b1] at b2
    exact b2 a2
  cases v <;> cases v' <;> simp at h1 h2 ⊢

/-- C138 for rules that read no body and have one value to compare.  Missing: rules with several,
or none, for which it is false. -/
theorem C138_one_value_partial {lib : Lib} {vo : VarOrd} {ord : IterOrd} {text text' : Bytes} {dirs dirs' : List PDir} {p : PRule} (ht : Program text dirs)
    (ht' : Program text' dirs') (hok : ∀ d ∈ dirs, DirOk lib d) (hok' : ∀ d ∈ dirs', DirOk lib d)
    (hp : chainsOf (rulesIn dirs) = [[p]]) (hp' : chainsOf (rulesIn dirs') = [[negated p]])
    (hd : Denies [p]) (hm : ∀ a ∈ p.acts.action, Spec.Mild a) (hv : ∀ v ∈ p.vars, readsBody v.tk = false)
    {ops : List Op} (hops : ∀ o ∈ ops, o.keepsCursor = true ∧ o.aborts = false ∧ o.readsVerdict = false) {k : Facts} (h1 : 1 ≤ p.acts.phase)
    (hk : Processed ops p.acts.phase k) {y : Bytes} (hy : ∀ z, Compared lib (Lists lib k) p z ↔ z = y) :
    BothSay (fun v v' => v = true ↔ v' = false) lib vo ord text text' 3 ops := by
  obtain ⟨set, set', h1, h2, h3⟩ := C138_exact (vo := vo) (ord := ord) ht ht' hok hok' hp hp' hd hm hv hops h1 hk
  refine ⟨set, set', h1, h2, fun n hn => ?_⟩
  obtain ⟨t, t', os, os', i, i', tr, tr', g1, g2, g3⟩ := h3 n hn
  exact ⟨t, t', os, os', i, i', tr, tr', g1, g2, g3.one hy⟩

/-! ### Concrete cases, and where the property fails -/

theorem Sample.evilOn_ok {v : PVar} (h : v.index = []) (hx : v.tk ≠ .xml) {d : PDir}
    (hd : d ∈ [PDir.rule (evilIn [v] false)] ∨ d ∈ [PDir.rule (negated (evilIn [v] false))]) : DirOk lib d := by
  rcases hd with hd | hd <;> rw [List.mem_singleton.1 hd]
  all_goals exact {
    vars := by
      intro w hw
      rw [List.mem_singleton.1 hw]
      exact ⟨hx, fun _ re hre => absurd ⟨re, hre⟩ (notRegex (by rw [h]; rfl))⟩
    op := ⟨_, .rx rfl rfl⟩
    acts := by intro a ha; rw [List.mem_singleton.1 ha]; exact .inl ⟨_, .deny⟩ }

theorem Sample.evilIn_denies (vs : List PVar) (b : Bool) : Denies [evilIn vs b] := ⟨_, .head _, _, .head _, rfl⟩

theorem Sample.evilIn_mild (vs : List PVar) (b : Bool) : ∀ a ∈ (evilIn vs b).acts.action, Spec.Mild a := by
  intro a ha; rw [List.mem_singleton.1 ha]; exact .inl rfl

/-- Any method: one of the rules refuses it. -/
example (u : Option URL) (m v : Bytes) (hs : GoMap) :
    BothSay (fun v v' => v = true ↔ v' = false) lib varOrd Sample.ord
      b!"SecRule REQUEST_METHOD \"@rx evil\" \"id:1,phase:3,deny\"\n" b!"SecRule REQUEST_METHOD \"!@rx evil\" \"id:1,phase:3,deny\"\n" 3
      [.processRequestURL u m v, .processRequestHeader (some hs), .processRequestBody] := by
  refine C138_one_value_partial (p := evilIn [theMethod] false) (dirs := [.rule (evilIn [theMethod] false)]) (dirs' := [.rule (negated (evilIn [theMethod] false))])
    ((C53_exact id _ _).1 (by decide +kernel)) ((C53_exact id _ _).1 (by decide +kernel)) (fun d hd => evilOn_ok rfl (by decide) (.inl hd)) (fun d hd => evilOn_ok rfl (by decide) (.inr hd))
    rfl rfl (evilIn_denies _ _) (evilIn_mild _ _) ?_ ?_ (by decide)
    ⟨[.processRequestURL u m v, .processRequestHeader (some hs)], .processRequestBody, [], rfl, rfl, ?_, rfl⟩ (y := m) ?_
  · intro v hv; rw [List.mem_singleton.1 hv]; rfl
  · intro o ho
    simp only [List.mem_cons, List.not_mem_nil, or_false] at ho
    rcases ho with rfl | rfl | rfl <;> exact ⟨rfl, rfl, rfl⟩
  · intro o ho q hq
    simp only [List.mem_cons, List.not_mem_nil, or_false] at ho
    rcases ho with rfl | rfl
    · cases hq
    · rw [show q = 2 from (Option.some.inj hq).symm]; decide
  · intro z
    constructor
    · rintro ⟨w, hw, vals, h1, h2⟩
      rw [List.mem_singleton.1 hw] at h1 h2
      have h1 : some [m] = some vals := h1
      have h2 : z ∈ vals := h2
      rw [← Option.some.inj h1] at h2
      exact List.mem_singleton.1 h2
    · rintro rfl
      exact ⟨theMethod, .head _, [z], rfl, List.mem_singleton.2 rfl⟩

/-- The headers. -/
def Sample.allHeaders : PVar := { tk := .requestHeaders }

theorem Sample.headers_compared {k : Facts} {y : Bytes} :
    Compared lib (Lists lib k) (evilIn [allHeaders] false) y ↔ ∃ e ∈ k.headers.getD [], y ∈ e.2 := by
  have any : ∀ x, Picked lib.rx (selectors (evilIn [allHeaders] false).vars .requestHeaders false) x := by
    intro x
    refine ⟨.inl ?_, .inl ?_, ?_⟩ <;> simp [selectors, evilIn, allHeaders]
  constructor
  · rintro ⟨w, hw, vals, h1, h2⟩
    rw [List.mem_singleton.1 hw] at h1 h2
    have h2 : y ∈ vals := h2
    obtain ⟨keep, _, h1⟩ : ValuesIn _ (k.headers.getD []) vals := h1
    obtain ⟨e, he, hy⟩ := List.mem_flatMap.1 (h1.mem_iff.1 h2)
    exact ⟨e, (List.mem_filter.1 he).1, hy⟩
  · rintro ⟨e, h1, h2⟩
    exact ⟨allHeaders, .head _, _, ⟨fun _ => true, fun x => ⟨fun _ => any x, fun _ => rfl⟩, .refl _⟩, by
      show y ∈ List.flatMap Prod.snd _
      exact List.mem_flatMap.2 ⟨e, List.mem_filter.2 ⟨h1, rfl⟩, h2⟩⟩

/-- What the rules on the headers do. -/
theorem Sample.headers_say (hs : GoMap) : BothSay (Divided (fun y => ∃ e ∈ hs, y ∈ e.2) (Meets lib (evilIn [allHeaders] false))) lib varOrd Sample.ord
    b!"SecRule REQUEST_HEADERS \"@rx evil\" \"id:1,phase:3,deny\"\n" b!"SecRule REQUEST_HEADERS \"!@rx evil\" \"id:1,phase:3,deny\"\n" 3
    [.processRequestHeader (some hs), .processRequestBody] := by
  have := C138_exact (vo := varOrd) (ord := Sample.ord) (p := evilIn [allHeaders] false) (dirs := [.rule (evilIn [allHeaders] false)])
    (dirs' := [.rule (negated (evilIn [allHeaders] false))]) (ops := [.processRequestHeader (some hs), .processRequestBody])
    (text := b!"SecRule REQUEST_HEADERS \"@rx evil\" \"id:1,phase:3,deny\"\n") (text' := b!"SecRule REQUEST_HEADERS \"!@rx evil\" \"id:1,phase:3,deny\"\n")
    ((C53_exact id _ _).1 (by decide +kernel)) ((C53_exact id _ _).1 (by decide +kernel)) (fun d hd => evilOn_ok rfl (by decide) (.inl hd)) (fun d hd => evilOn_ok rfl (by decide) (.inr hd))
    rfl rfl (evilIn_denies _ _) (evilIn_mild _ _) (by intro v hv; rw [List.mem_singleton.1 hv]; rfl)
    (by
      intro o ho
      simp only [List.mem_cons, List.not_mem_nil, or_false] at ho
      rcases ho with rfl | rfl <;> exact ⟨rfl, rfl, rfl⟩) (by decide)
    ⟨[.processRequestHeader (some hs)], .processRequestBody, [], rfl, rfl, by
      intro o ho q hq
      rw [List.mem_singleton.1 ho] at hq
      rw [show q = 2 from (Option.some.inj hq).symm]; decide, rfl⟩
  rw [show Compared lib _ (evilIn [allHeaders] false) = fun y => ∃ e ∈ hs, y ∈ e.2 from funext fun y => propext headers_compared] at this
  exact this

/-- With no header, neither refuses. -/
theorem C138_refuted : ¬ C138_statement := by
  intro h
  obtain ⟨set, set', a1, b1, r⟩ := headers_say []
  obtain ⟨t, t', os, os', i, i', tr, tr', a2, b2, r⟩ := r 3 (Nat.le_refl _)
  have := h lib varOrd Sample.ord _ _ [.rule (evilIn [allHeaders] false)] [.rule (negated (evilIn [allHeaders] false))] (evilIn [allHeaders] false) set set'
    ((C53_exact id _ _).1 (by decide +kernel)) ((C53_exact id _ _).1 (by decide +kernel)) rfl rfl rfl (evilIn_denies _ _) (evilIn_mild _ _) a1 b1 [.processRequestHeader (some []), .processRequestBody] (by
      intro o ho
      simp only [List.mem_cons, List.not_mem_nil, or_false] at ho
      rcases ho with rfl | rfl <;> exact ⟨rfl, rfl, rfl⟩) ⟨by decide, _, [.processRequestHeader (some [])], .processRequestBody, [], rfl, rfl, (by
        intro o ho q hq
        rw [List.mem_singleton.1 ho] at hq
        rw [show q = 2 from (Option.some.inj hq).symm]; decide), rfl⟩ 3 t t' os os' i i' tr tr' a2 b2
  have none := r.some
  revert none this
  cases i.disruptive <;> cases i'.disruptive <;> simp

/-- With two headers, both may. -/
example : textVerdicts lib b!"SecRule REQUEST_HEADERS \"@rx evil\" \"id:1,phase:3,deny\"\n" 9
      [.processRequestHeader (some [(b!"a", [b!"evil"]), (b!"b", [b!"good"])]), .processRequestBody, .result] = some [true] ∧
    textVerdicts lib b!"SecRule REQUEST_HEADERS \"!@rx evil\" \"id:1,phase:3,deny\"\n" 9
      [.processRequestHeader (some [(b!"a", [b!"evil"]), (b!"b", [b!"good"])]), .processRequestBody, .result] = some [true] := by
  decide +kernel

/-- The arguments of any urlencoded form. -/
example (x y : Bytes) (hsize : x.length + y.length ≤ 131072) :
    BothSay (Divided (Compared lib (ListsAll lib true false ((formOps x y).foldl learn {})) (evilIn [{ tk := .argsPost }] false))
      (Meets lib (evilIn [{ tk := .argsPost }] false))) lib varOrd Sample.ord
      b!"SecRequestBodyAccess On\nSecRule ARGS_POST \"@rx evil\" \"id:1,phase:3,deny\"\n"
      b!"SecRequestBodyAccess On\nSecRule ARGS_POST \"!@rx evil\" \"id:1,phase:3,deny\"\n" 3 (formOps x y) := by
  refine C138_exact_bodies (p := evilIn [{ tk := .argsPost }] false) (q := 3) (dirs := [.reqBody true, .rule (evilIn [{ tk := .argsPost }] false)])
    (dirs' := [.reqBody true, .rule (negated (evilIn [{ tk := .argsPost }] false))])
    ((C53_exact id _ _).1 (by decide +kernel)) ((C53_exact id _ _).1 (by decide +kernel)) ?_ ?_
    rfl rfl rfl (evilIn_denies _ _) (evilIn_mild _ _) ?_ (by simpa [formOps, sent, chunkOf] using hsize) (fun _ => ⟨by decide, formOps_settled x y⟩) (by decide) ?_
  · intro d hd
    rcases List.mem_cons.1 hd with rfl | hd
    · trivial
    · exact evilOn_ok rfl (by decide) (.inl hd)
  · intro d hd
    rcases List.mem_cons.1 hd with rfl | hd
    · trivial
    · exact evilOn_ok rfl (by decide) (.inr hd)
  · intro o ho
    simp only [formOps, List.mem_cons, List.not_mem_nil, or_false] at ho
    rcases ho with rfl | rfl | rfl | rfl | rfl | rfl <;> exact ⟨rfl, rfl, rfl⟩
  · refine ⟨(formOps x y).dropLast, .processRequestBody, [], rfl, rfl, ?_, rfl⟩
    intro o ho q hq
    simp only [formOps, List.dropLast, List.mem_cons, List.not_mem_nil, or_false] at ho
    rcases ho with rfl | rfl | rfl | rfl | rfl <;> cases hq <;> decide

/-- And of a multipart form. -/
example {x y v : Bytes} (hxy : x ++ y = sentBody v) (h : 13 ∉ v) (hd : v.head? ≠ some 45) (hlen : (sentBody v).length ≤ 4096) :
    BothSay (Divided (Compared formLib (ListsForm formLib true false (fieldsOf [(some b!"a", v), (none, b!"evil")]) ((sentOps x y).foldl learn {})) (evilIn [fieldA] false))
      (Meets formLib (evilIn [fieldA] false))) formLib varOrd Sample.ord
      b!"SecRequestBodyAccess On\nSecRule ARGS_POST:a \"@rx evil\" \"id:1,phase:3,deny\"\n"
      b!"SecRequestBodyAccess On\nSecRule ARGS_POST:a \"!@rx evil\" \"id:1,phase:3,deny\"\n" 3 (sentOps x y) := by
  refine C138_exact_multipart formEnv_media formLib_reads (p := evilIn [fieldA] false) (q := 3) (dirs := .reqBody true :: [evilIn [fieldA] false].map .rule)
    (dirs' := [.reqBody true, .rule (negated (evilIn [fieldA] false))])
    ((C53_exact id _ _).1 (by decide +kernel)) ((C53_exact id _ _).1 (by decide +kernel))
    (evilIn_ok fun p hp => ⟨_, _, List.mem_singleton.1 hp, fun v hv => .inl (List.mem_singleton.1 hv)⟩) ?_
    rfl rfl rfl (evilIn_denies _ _) (evilIn_mild _ _) ?_ ?_ (fun _ => ⟨by decide, sentOps_sent hxy h hd hlen⟩) (by decide) ?_
  · intro d hd
    rcases List.mem_cons.1 hd with rfl | hd
    · trivial
    · rw [List.mem_singleton.1 hd]
      exact {
        vars := by
          intro w hw
          rw [List.mem_singleton.1 hw]
          exact ⟨by decide, fun _ re hre => absurd ⟨re, hre⟩ (notRegex (s := b!"a") (by decide))⟩
        op := ⟨_, .rx rfl rfl⟩
        acts := by intro a ha; rw [List.mem_singleton.1 ha]; exact .inl ⟨_, .deny⟩ }
  · intro o ho
    simp only [sentOps, List.mem_cons, List.not_mem_nil, or_false] at ho
    rcases ho with rfl | rfl | rfl | rfl | rfl | rfl <;> exact ⟨rfl, rfl, rfl⟩
  · have e : sent false (sentOps x y) = sentBody v := by
      rw [← hxy]; simp [sentOps, sent, chunkOf]
    rw [e]; omega
  · refine ⟨(sentOps x y).dropLast, .processRequestBody, [], rfl, rfl, ?_, rfl⟩
    intro o ho q hq
    simp only [sentOps, List.dropLast, List.mem_cons, List.not_mem_nil, or_false] at ho
    rcases ho with rfl | rfl | rfl | rfl | rfl <;> cases hq <;> decide

end Verif
