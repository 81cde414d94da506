import Verif.Props.Narrow
/-! C144: a rule with alternatives. -/
namespace Verif
open Sample Spec

/-- Three rules with the same variables, phase and actions; a value passes the test of the first
exactly if it passes that of one of the others. -/
structure Spec.OneOf (lib : Lib) (p a b : PRule) : Prop where
  vars : a.vars = p.vars ∧ b.vars = p.vars
  phase : a.acts.phase = p.acts.phase ∧ b.acts.phase = p.acts.phase
  actions : a.acts.action = p.acts.action ∧ b.acts.action = p.acts.action
  passes : ∀ y, Passes lib p y ↔ Passes lib a y ∨ Passes lib b y

/-- `ds` is `cs` with chains replaced by two, each with one of the alternatives of one of the rules. -/
inductive Spec.Unfolds (lib : Lib) : List (List PRule) → List (List PRule) → Prop
  | nil : Unfolds lib [] []
  | same {c : List PRule} {cs ds : List (List PRule)} : Unfolds lib cs ds → Unfolds lib (c :: cs) (c :: ds)
  | alt {l r : List PRule} {p a b : PRule} {cs ds : List (List PRule)} : OneOf lib p a b → Unfolds lib cs ds →
      Unfolds lib ((l ++ p :: r) :: cs) ((l ++ a :: r) :: (l ++ b :: r) :: ds)

/-- C144: writing two rules for one, each with one of its alternatives, makes no difference to
what is refused, if no rule skips or allows. -/
def C144_statement : Prop :=
  ∀ (lib : Lib) (vo : VarOrd) (ord : IterOrd) (text text' : Bytes) (dirs dirs' : List PDir), Program text dirs → Program text' dirs' →
    switches dirs = switches dirs' → Unfolds lib (chainsOf (rulesIn dirs)) (chainsOf (rulesIn dirs')) → StrictRules (chainsOf (rulesIn dirs)) →
    RefuseAlike lib vo ord text text'

/-! ### The proof -/

theorem oneOf_holds {lib : Lib} {L : (Bytes → Prop) → List Bytes → VarTok → Prop} {p a b : PRule} (h : OneOf lib p a b) :
    HoldsBy lib L p ↔ HoldsBy lib L a ∨ HoldsBy lib L b := by
  have e : ∀ q : PRule, HoldsBy lib L q ↔ ∃ v ∈ q.vars, ∃ y, TestedBy lib.rx L q.vars (v.tk, v.count) y ∧ Passes lib q y := fun _ => .rfl
  rw [e, e, e, h.vars.1, h.vars.2]
  simp only [h.passes]
  grind

theorem swap_phase {l r : List PRule} {p a : PRule} (h : a.acts.phase = p.acts.phase) : chainPhase (l ++ a :: r) = chainPhase (l ++ p :: r) := by
  cases l with
  | nil => simpa [chainPhase] using h
  | cons => rfl

theorem swap_denies {l r : List PRule} {p a : PRule} (h : a.acts.action = p.acts.action) : Denies (l ++ a :: r) ↔ Denies (l ++ p :: r) := by
  simp only [Denies, List.mem_append, List.mem_cons]
  constructor
  · rintro ⟨q, h1 | rfl | h1, h2⟩
    · exact ⟨q, .inl h1, h2⟩
    · exact ⟨p, .inr (.inl rfl), h ▸ h2⟩
    · exact ⟨q, .inr (.inr h1), h2⟩
  · rintro ⟨q, h1 | rfl | h1, h2⟩
    · exact ⟨q, .inl h1, h2⟩
    · exact ⟨a, .inr (.inl rfl), h ▸ h2⟩
    · exact ⟨q, .inr (.inr h1), h2⟩

theorem unfolds_case {K : Type} {S : Sight K} {lib : Lib} {L : K → (Bytes → Prop) → List Bytes → VarTok → Prop} (hS : ∀ k p, S.holds k p ↔ HoldsBy lib (L k) p)
    {cs ds : List (List PRule)} (h : Unfolds lib cs ds) (k : K) (q : Int) : Case S cs k q ↔ Case S ds k q := by
  induction h with
  | nil => exact .rfl
  | same _ ih =>
    simp only [Case, List.mem_cons, exists_eq_or_imp] at ih ⊢
    rw [ih]
  | @alt l r p a b cs ds ho _ ih =>
    have hh : (∀ x ∈ l ++ p :: r, S.holds k x) ↔ (∀ x ∈ l ++ a :: r, S.holds k x) ∨ ∀ x ∈ l ++ b :: r, S.holds k x := by
      have := oneOf_holds (L := L k) ho
      simp only [List.mem_append, List.mem_cons, hS]
      grind
    simp only [Case, List.mem_cons, exists_eq_or_imp] at ih ⊢
    rw [ih, swap_phase ho.phase.1, swap_phase ho.phase.2, swap_denies ho.actions.1, swap_denies ho.actions.2, hh]
    grind

theorem unfolds_strict {lib : Lib} {cs ds : List (List PRule)} (h : Unfolds lib cs ds) (hs : StrictRules cs) : StrictRules ds := by
  induction h with
  | nil => exact hs
  | same _ ih =>
    have := ih fun c hc => hs c (.tail _ hc)
    intro c hc
    rcases List.mem_cons.1 hc with rfl | hc
    · exact hs _ (.head _)
    · exact this c hc
  | @alt l r p a b cs ds ho _ ih =>
    have := ih fun c hc => hs c (.tail _ hc)
    have one : ∀ {a : PRule}, a.acts.action = p.acts.action → ∀ x ∈ l ++ a :: r, ∀ y ∈ x.acts.action, Strict y := fun {a} ha x hx y hy => by
      rcases List.mem_append.1 hx with hx | hx
      · exact hs _ (.head _) x (List.mem_append_left _ hx) y hy
      · rcases List.mem_cons.1 hx with rfl | hx
        · exact hs _ (.head _) p (List.mem_append_right _ (.head _)) y (ha ▸ hy)
        · exact hs _ (.head _) x (List.mem_append_right _ (.tail _ hx)) y hy
    intro c hc
    rcases List.mem_cons.1 hc with rfl | hc
    · exact one ho.actions.1
    · rcases List.mem_cons.1 hc with rfl | hc
      · exact one ho.actions.2
      · exact this c hc

/-- For each chain of the second text there is one of the first, with the same phase and variables. -/
theorem unfolds_stem {lib : Lib} {cs ds : List (List PRule)} (h : Unfolds lib cs ds) : ∀ d ∈ ds, ∃ c ∈ cs, chainPhase d = chainPhase c ∧
    ∀ p' ∈ d, ∃ p ∈ c, p'.vars = p.vars := by
  have swap : ∀ {l r : List PRule} {p a : PRule}, a.vars = p.vars → ∀ p' ∈ l ++ a :: r, ∃ q ∈ l ++ p :: r, p'.vars = q.vars := fun {l r p a} h p' hp => by
    rcases List.mem_append.1 hp with hp | hp
    · exact ⟨p', List.mem_append_left _ hp, rfl⟩
    · rcases List.mem_cons.1 hp with rfl | hp
      · exact ⟨p, List.mem_append_right _ (.head _), h⟩
      · exact ⟨p', List.mem_append_right _ (.tail _ hp), rfl⟩
  induction h with
  | nil => exact fun _ h => nomatch h
  | same _ ih =>
    intro d hd
    rcases List.mem_cons.1 hd with rfl | hd
    · exact ⟨_, .head _, rfl, fun p hp => ⟨p, hp, rfl⟩⟩
    · obtain ⟨c, hc, h⟩ := ih d hd
      exact ⟨c, .tail _ hc, h⟩
  | alt ho _ ih =>
    intro d hd
    rcases List.mem_cons.1 hd with rfl | hd
    · exact ⟨_, .head _, swap_phase ho.phase.1, swap ho.vars.1⟩
    · rcases List.mem_cons.1 hd with rfl | hd
      · exact ⟨_, .head _, swap_phase ho.phase.2, swap ho.vars.2⟩
      · obtain ⟨c, hc, h⟩ := ih d hd
        exact ⟨c, .tail _ hc, h⟩

/-- C144 for rules that read no body.  Missing: bodies, see below. -/
theorem C144_alternatives_partial {lib : Lib} {vo : VarOrd} {ord : IterOrd} {text text' : Bytes} {dirs dirs' : List PDir} (ht : Program text dirs)
    (ht' : Program text' dirs') (hok : ∀ d ∈ dirs, DirOk lib d) (hok' : ∀ d ∈ dirs', DirOk lib d) (h : Unfolds lib (chainsOf (rulesIn dirs)) (chainsOf (rulesIn dirs')))
    (hv : ∀ p ∈ rulesIn dirs, ∀ v ∈ p.vars, readsBody v.tk = false) (hs : StrictRules (chainsOf (rulesIn dirs))) (ops : List Op) :
    AlikeOn lib vo ord text text' (enough dirs dirs') ops := by
  obtain ⟨set, h1, h2⟩ := C87_machine (vo := vo) (ord := ord) ht hok hv (strict_noReturn hs)
  obtain ⟨set', h1', h2'⟩ := C87_machine (vo := vo) (ord := ord) ht' hok' (fun p' hp v hv' => by
    obtain ⟨d, d1, d2⟩ := in_chain hp
    obtain ⟨c, c1, _, c2⟩ := unfolds_stem h d d1
    obtain ⟨p, p1, e⟩ := c2 p' d2
    exact hv p (mem_chainsOf c1 p1) v (e ▸ hv')) (strict_noReturn (unfolds_strict h hs))
  refine ⟨set, set', h1, h1', fun n hn => ?_⟩
  obtain ⟨t, os, tr, g1, g2⟩ := h2 ops n (by simp only [enough] at hn; omega)
  obtain ⟨t', os', tr', g1', g2'⟩ := h2' ops n (by simp only [enough] at hn; omega)
  refine ⟨t, t', os, os', tr, tr', g1, g1', ?_⟩
  rw [g2, g2']
  exact peers_run hs (unfolds_strict h hs) (unfolds_case (lib := lib) (L := Lists lib) (fun _ _ => .rfl) h) (fun c h => ⟨chain_low ht h, chain_five ht h⟩)
    (fun c h => ⟨chain_low ht' h, chain_five ht' h⟩) ops ⟨rfl, rfl, rfl, rfl⟩

/-- C144 with bodies of up to 131072 bytes, if rules read arguments from the body only once the
form is settled, and well-formed.  Missing: larger bodies, malformed forms. -/
theorem C144_bodies_partial {lib : Lib} {vo : VarOrd} {ord : IterOrd} {text text' : Bytes} {dirs dirs' : List PDir} (ht : Program text dirs)
    (ht' : Program text' dirs') (hok : ∀ d ∈ dirs, DirOk lib d) (hok' : ∀ d ∈ dirs', DirOk lib d) (hsw : switches dirs = switches dirs')
    (h : Unfolds lib (chainsOf (rulesIn dirs)) (chainsOf (rulesIn dirs'))) (hs : StrictRules (chainsOf (rulesIn dirs)))
    {ops : List Op} {q : Int} (hsize : (sent false ops).length ≤ 131072)
    (hform : ∀ c ∈ chainsOf (rulesIn dirs), 1 ≤ chainPhase c → (∃ p ∈ c, ∃ v ∈ p.vars, readsArgs v.tk = true) → q ≤ chainPhase c ∧ FormSettled lib q ops) :
    AlikeOn lib vo ord text text' (enough dirs dirs') ops := by
  obtain ⟨set, h1, h2⟩ := C88_machine (vo := vo) (ord := ord) ht hok (strict_noReturn hs)
  obtain ⟨set', h1', h2'⟩ := C88_machine (vo := vo) (ord := ord) ht' hok' (strict_noReturn (unfolds_strict h hs))
  refine ⟨set, set', h1, h1', fun n hn => ?_⟩
  obtain ⟨t, os, tr, g1, g2⟩ := h2 hsize hform n (by simp only [enough] at hn; omega)
  obtain ⟨t', os', tr', g1', g2'⟩ := h2' (q := q) hsize (fun d hd h1 ⟨p', hp, v, hv, ha⟩ => by
    obtain ⟨c, c1, c2, c3⟩ := unfolds_stem h d hd
    obtain ⟨p, p1, e⟩ := c3 p' hp
    rw [c2] at h1 ⊢
    exact hform c c1 h1 ⟨p, p1, v, e ▸ hv, ha⟩) n (by simp only [enough] at hn; omega)
  refine ⟨t, t', os, os', tr, tr', g1, g1', ?_⟩
  obtain ⟨e1, e2⟩ := switches_access hsw
  rw [g2, g2', ← e1, ← e2]
  exact peers_run hs (unfolds_strict h hs) (unfolds_case (lib := lib) (fun _ _ => .rfl) h) (fun c h => ⟨chain_low ht h, chain_five ht h⟩)
    (fun c h => ⟨chain_low ht' h, chain_five ht' h⟩) ops ⟨rfl, rfl, rfl, rfl⟩

/-- C144 with a multipart form of up to 131072 bytes.  Missing: larger bodies, malformed forms. -/
theorem C144_multipart_partial {lib : Lib} (hm : lib.ReadsMedia) (hl : lib.ReadsForms) {vo : VarOrd} {ord : IterOrd} {text text' : Bytes} {dirs dirs' : List PDir}
    (ht : Program text dirs) (ht' : Program text' dirs') (hok : ∀ d ∈ dirs, DirOk lib d) (hok' : ∀ d ∈ dirs', DirOk lib d) (hsw : switches dirs = switches dirs')
    (h : Unfolds lib (chainsOf (rulesIn dirs)) (chainsOf (rulesIn dirs'))) (hs : StrictRules (chainsOf (rulesIn dirs)))
    {ops : List Op} {q : Int} {bnd : Bytes} {ps : List (Option Bytes × Bytes)} (hf : ReadsSentForm (chainsOf (rulesIn dirs)) q bnd ps ops) :
    AlikeOn lib vo ord text text' (enough dirs dirs') ops := by
  obtain ⟨set, h1, h2⟩ := C133_machine hm hl (vo := vo) (ord := ord) ht hok (strict_noReturn hs)
  obtain ⟨set', h1', h2'⟩ := C133_machine hm hl (vo := vo) (ord := ord) ht' hok' (strict_noReturn (unfolds_strict h hs))
  refine ⟨set, set', h1, h1', fun n hn => ?_⟩
  obtain ⟨t, os, tr, g1, g2⟩ := h2 hf.size hf.form n (by simp only [enough] at hn; omega)
  obtain ⟨t', os', tr', g1', g2'⟩ := h2' (q := q) (bnd := bnd) (ps := ps) hf.size (fun d hd h1 ⟨p', hp, v, hv, ha⟩ => by
    obtain ⟨c, c1, c2, c3⟩ := unfolds_stem h d hd
    obtain ⟨p, p1, e⟩ := c3 p' hp
    rw [c2] at h1 ⊢
    exact hf.form c c1 h1 ⟨p, p1, v, e ▸ hv, ha⟩) n (by simp only [enough] at hn; omega)
  refine ⟨t, t', os, os', tr, tr', g1, g1', ?_⟩
  obtain ⟨e1, e2⟩ := switches_access hsw
  rw [g2, g2', ← e1, ← e2]
  exact peers_run hs (unfolds_strict h hs) (unfolds_case (lib := lib) (fun _ _ => .rfl) h) (fun c h => ⟨chain_low ht h, chain_five ht h⟩)
    (fun c h => ⟨chain_low ht' h, chain_five ht' h⟩) ops ⟨rfl, rfl, rfl, rfl⟩

/-! ### What has alternatives -/

/-- `@ge n` is `@gt n` or `@eq n`, `@le n` is `@lt n` or `@eq n`, `!@eq n` is `@lt n` or `@gt n`. -/
inductive Spec.Halves : POp → POp → POp → Prop
  | ge (arg : Bytes) : Halves { tk := .ge, arg := arg } { tk := .gt, arg := arg } { tk := .eq, arg := arg }
  | le (arg : Bytes) : Halves { tk := .le, arg := arg } { tk := .lt, arg := arg } { tk := .eq, arg := arg }
  | ne (arg : Bytes) : Halves { not := true, tk := .eq, arg := arg } { tk := .lt, arg := arg } { tk := .gt, arg := arg }

/-- Comparisons have these alternatives, under any number `id`. -/
theorem C144_comparisons {lib : Lib} (p : PRule) {a b : POp} (h : Halves p.op a b) {n : Int} (hn : Numeral p.op.arg n) (id : Int) :
    OneOf lib p { p with op := a } { p with op := b, acts := { p.acts with id := id } } where
  vars := ⟨rfl, rfl⟩
  phase := ⟨rfl, rfl⟩
  actions := ⟨rfl, rfl⟩
  passes y := by
    obtain ⟨vars, op, acts⟩ := p
    simp only at h hn
    cases h with
    | ge arg =>
      simp only [Passes]
      rw [accepts_cmp (k := .ge) rfl hn, accepts_cmp (o := { tk := .gt, arg := arg }) (k := .gt) rfl hn, accepts_cmp (o := { tk := .eq, arg := arg }) (k := .eq) rfl hn]
      simp only [Cmp, iff_true]
      omega
    | le arg =>
      simp only [Passes]
      rw [accepts_cmp (k := .le) rfl hn, accepts_cmp (o := { tk := .lt, arg := arg }) (k := .lt) rfl hn, accepts_cmp (o := { tk := .eq, arg := arg }) (k := .eq) rfl hn]
      simp only [Cmp, iff_true]
      omega
    | ne arg =>
      simp only [Passes]
      rw [accepts_cmp (k := .eq) rfl hn, accepts_cmp (o := { tk := .lt, arg := arg }) (k := .lt) rfl hn, accepts_cmp (o := { tk := .gt, arg := arg }) (k := .gt) rfl hn]
      simp only [Cmp, iff_true, Bool.true_eq_false, iff_false]
      omega

theorem accepts_rx {lib : Lib} {o : POp} (ho : o.tk = .rx) {f : Bytes → Bool} (hf : lib.rx o.arg = some f) (s : Bytes) : Accepts lib o s ↔ f s = true := by
  constructor
  · rintro (⟨_, g, h1, h2⟩ | ⟨k, n, h, _⟩)
    · rw [hf] at h1; cases h1; exact h2
    · rw [ho] at h; cases h
  · exact fun h => .inl ⟨ho, f, hf, h⟩

/-- So has a pattern that matches what one of two patterns matches (as `x|y` does). -/
theorem C144_patterns {lib : Lib} (p : PRule) {x y : Bytes} {f g h : Bytes → Bool} (hp : p.op.tk = .rx) (hnot : p.op.not = false) (hf : lib.rx p.op.arg = some f)
    (hg : lib.rx x = some g) (hh : lib.rx y = some h) (hor : ∀ s, f s = (g s || h s)) (id : Int) :
    OneOf lib p { p with op := { tk := .rx, arg := x } } { p with op := { tk := .rx, arg := y }, acts := { p.acts with id := id } } where
  vars := ⟨rfl, rfl⟩
  phase := ⟨rfl, rfl⟩
  actions := ⟨rfl, rfl⟩
  passes z := by
    simp only [Passes]
    rw [accepts_rx hp hf, accepts_rx (o := { tk := .rx, arg := x }) rfl hg, accepts_rx (o := { tk := .rx, arg := y }) rfl hh, hor]
    simp [hnot]

/-! ### The refutation -/

/-- A rule on how many there are of a variable. -/
def Sample.counted (tk : VarTok) (o : OpTok) (arg : Bytes) (id : Int) : PRule where
  vars := [{ tk := tk, count := true }]
  op := { tk := o, arg := arg }
  acts := { id := id, phase := 3, action := [⟨.deny, []⟩] }

theorem Sample.counted_unfolds {lib : Lib} (tk : VarTok) {arg : Bytes} {n : Int} (hn : Numeral arg n) :
    Unfolds lib [[counted tk .ge arg 1]] [[counted tk .gt arg 1], [counted tk .eq arg 2]] :=
  .alt (l := []) (r := []) (C144_comparisons (counted tk .ge arg 1) (.ge arg) hn 2) .nil

theorem Sample.counted_strict (tk : VarTok) (arg : Bytes) : StrictRules [[counted tk .ge arg 1]] :=
  denying_strict fun c hc p hp => by
    rw [List.mem_singleton.1 hc] at hp
    rw [List.mem_singleton.1 hp]; rfl

/-- A malformed form shows no arguments when it is first looked at, and one from then on: the two
rules look at it twice. -/
theorem C144_refuted : ¬ C144_statement := by
  intro h
  have p1 : Program b!"SecRequestBodyAccess On\nSecRule &ARGS_POST \"@ge 1\" \"id:1,phase:3,deny\"\n" [.reqBody true, .rule (counted .argsPost .ge b!"1" 1)] :=
    (C53_exact id _ _).1 (by decide +kernel)
  have p2 : Program b!"SecRequestBodyAccess On\nSecRule &ARGS_POST \"@gt 1\" \"id:1,phase:3,deny\"\nSecRule &ARGS_POST \"@eq 1\" \"id:2,phase:3,deny\"\n"
    [.reqBody true, .rule (counted .argsPost .gt b!"1" 1), .rule (counted .argsPost .eq b!"1" 2)] := (C53_exact id _ _).1 (by decide +kernel)
  have := alike_verdicts (h mediaLib varOrd Sample.ord _ _ _ _ p1 p2 rfl (counted_unfolds _ ((parse_trim_iff _ 1).1 (by decide))) (counted_strict _ _))
    (n := 9) (ops := badForm) (a := [false]) (b := [true]) (by decide +kernel) (by decide +kernel)
  cases this

/-! ### Examples -/

theorem Sample.two : Numeral b!"2" 2 := (parse_trim_iff _ _).1 (by decide)

theorem Sample.counted_ok {lib : Lib} {tk : VarTok} (htk : tk ≠ .xml) {ps : List PRule} (h : ∀ p ∈ ps, ∃ o k id, cmpOf o = some k ∧ p = counted tk o b!"2" id) :
    ∀ d ∈ PDir.reqBody true :: ps.map .rule, DirOk lib d := by
  intro d hd
  rcases List.mem_cons.1 hd with rfl | hd
  · trivial
  · obtain ⟨p, hp, rfl⟩ := List.mem_map.1 hd
    obtain ⟨o, k, id, hk, rfl⟩ := h p hp
    exact {
      vars := by
        intro w hw
        rw [List.mem_singleton.1 hw]
        exact ⟨htk, fun _ re hre => absurd ⟨re, hre⟩ (notRegex rfl)⟩
      op := ⟨.cmp ⟨k, 2, b!"2"⟩, .cmp hk two ⟨trimSpace_is_trimmed b!"2", [], [], rfl, ⟨[], by simp, rfl⟩, ⟨[], by simp, rfl⟩⟩⟩
      acts := by intro a ha; rw [List.mem_singleton.1 ha]; exact .inl ⟨_, .deny⟩ }

theorem Sample.counted_left {lib : Lib} {tk : VarTok} (htk : tk ≠ .xml) : ∀ d ∈ PDir.reqBody true :: [counted tk .ge b!"2" 1].map .rule, DirOk lib d :=
  counted_ok htk fun p hp => by rw [List.mem_singleton.1 hp]; exact ⟨_, _, _, rfl, rfl⟩

theorem Sample.counted_right {lib : Lib} {tk : VarTok} (htk : tk ≠ .xml) :
    ∀ d ∈ PDir.reqBody true :: [counted tk .gt b!"2" 1, counted tk .eq b!"2" 2].map .rule, DirOk lib d :=
  counted_ok htk fun p hp => by
    simp only [List.mem_cons, List.not_mem_nil, or_false] at hp
    rcases hp with rfl | rfl <;> exact ⟨_, _, _, rfl, rfl⟩

/-- Two headers or more. -/
example (ops : List Op) : AlikeOn lib varOrd Sample.ord b!"SecRequestBodyAccess On\nSecRule &REQUEST_HEADERS \"@ge 2\" \"id:1,phase:3,deny\"\n"
    b!"SecRequestBodyAccess On\nSecRule &REQUEST_HEADERS \"@gt 2\" \"id:1,phase:3,deny\"\nSecRule &REQUEST_HEADERS \"@eq 2\" \"id:2,phase:3,deny\"\n" 4 ops := by
  refine C144_alternatives_partial (dirs := .reqBody true :: [counted .requestHeaders .ge b!"2" 1].map .rule)
    (dirs' := .reqBody true :: [counted .requestHeaders .gt b!"2" 1, counted .requestHeaders .eq b!"2" 2].map .rule) ((C53_exact id _ _).1 (by decide +kernel))
    ((C53_exact id _ _).1 (by decide +kernel)) (counted_left (by decide)) (counted_right (by decide)) (counted_unfolds _ two) ?_ (counted_strict _ _) ops
  intro p hp v hv
  have hp : p ∈ [counted .requestHeaders .ge b!"2" 1] := hp
  rw [List.mem_singleton.1 hp] at hv
  rw [List.mem_singleton.1 hv]; rfl

/-- Two fields of a form or more. -/
example (x y : Bytes) (hsize : x.length + y.length ≤ 131072) : AlikeOn lib varOrd Sample.ord b!"SecRequestBodyAccess On\nSecRule &ARGS_POST \"@ge 2\" \"id:1,phase:3,deny\"\n"
    b!"SecRequestBodyAccess On\nSecRule &ARGS_POST \"@gt 2\" \"id:1,phase:3,deny\"\nSecRule &ARGS_POST \"@eq 2\" \"id:2,phase:3,deny\"\n" 4 (formOps x y ++ [.result]) := by
  refine C144_bodies_partial (q := 3) (dirs := .reqBody true :: [counted .argsPost .ge b!"2" 1].map .rule)
    (dirs' := .reqBody true :: [counted .argsPost .gt b!"2" 1, counted .argsPost .eq b!"2" 2].map .rule) ((C53_exact id _ _).1 (by decide +kernel))
    ((C53_exact id _ _).1 (by decide +kernel)) (counted_left (by decide)) (counted_right (by decide)) rfl (counted_unfolds _ two) (counted_strict _ _)
    (by simpa [formOps, sent, chunkOf] using hsize) ?_
  intro c hc _ _
  have hc : c ∈ [[counted .argsPost .ge b!"2" 1]] := hc
  rw [List.mem_singleton.1 hc]
  exact ⟨by show (3 : Int) ≤ 3; omega, (formOps_settled x y).result⟩

/-- Two fields of a multipart form or more. -/
example {x y v : Bytes} (hxy : x ++ y = sentBody v) (h : 13 ∉ v) (hd : v.head? ≠ some 45) (hlen : (sentBody v).length ≤ 4096) :
    AlikeOn formLib varOrd Sample.ord b!"SecRequestBodyAccess On\nSecRule &ARGS_POST \"@ge 2\" \"id:1,phase:3,deny\"\n"
    b!"SecRequestBodyAccess On\nSecRule &ARGS_POST \"@gt 2\" \"id:1,phase:3,deny\"\nSecRule &ARGS_POST \"@eq 2\" \"id:2,phase:3,deny\"\n" 4 (sentOps x y ++ [.result]) := by
  refine C144_multipart_partial formEnv_media formLib_reads (dirs := .reqBody true :: [counted .argsPost .ge b!"2" 1].map .rule)
    (dirs' := .reqBody true :: [counted .argsPost .gt b!"2" 1, counted .argsPost .eq b!"2" 2].map .rule) ((C53_exact id _ _).1 (by decide +kernel))
    ((C53_exact id _ _).1 (by decide +kernel)) (counted_left (by decide)) (counted_right (by decide)) rfl (counted_unfolds _ two) (counted_strict _ _)
    (q := 3) (bnd := b!"foo") (ps := [(some b!"a", v), (none, b!"evil")]) ⟨?_, ?_⟩
  · have e : sent false (sentOps x y ++ [.result]) = sentBody v := by
      rw [← hxy]; simp [sentOps, sent, chunkOf]
    rw [e]; omega
  · intro c hc _ _
    have hc : c ∈ [[counted .argsPost .ge b!"2" 1]] := hc
    rw [List.mem_singleton.1 hc]
    exact ⟨by show (3 : Int) ≤ 3; omega, (sentOps_sent hxy h hd hlen).result⟩

/-- A pattern with two alternatives. -/
example (p : PRule) (h : p.op = { tk := .rx, arg := b!"x|y" }) {lib : Lib} {g k : Bytes → Bool} (hx : lib.rx b!"x" = some g) (hy : lib.rx b!"y" = some k)
    (hxy : lib.rx b!"x|y" = some fun s => g s || k s) : OneOf lib p { p with op := { tk := .rx, arg := b!"x" } } { p with op := { tk := .rx, arg := b!"y" }, acts := { p.acts with id := 2 } } :=
  C144_patterns p (by rw [h]) (by rw [h]) (by rw [h]; exact hxy) hx hy (fun _ => rfl) 2

/-- One header passes, two and three are refused, by different rules of the second text. -/
example : [1, 2, 3].map (fun k => textVerdicts lib
    b!"SecRule &REQUEST_HEADERS \"@gt 2\" \"id:1,phase:2,deny\"\nSecRule &REQUEST_HEADERS \"@eq 2\" \"id:2,phase:2,deny\"\n" 9
    [.processRequestHeader (some ([(b!"A", [b!"1"]), (b!"B", [b!"2"]), (b!"C", [b!"3"])].take k)), .result]) = [some [false], some [true], some [true]] := by decide +kernel

/-- With a negated test it does not hold: `!@ge 2` is not `!@gt 2` or `!@eq 2`. -/
example : ¬ OneOf lib { vars := [], op := { not := true, tk := .ge, arg := b!"2" }, acts := {} } { vars := [], op := { not := true, tk := .gt, arg := b!"2" }, acts := {} }
    { vars := [], op := { not := true, tk := .eq, arg := b!"2" }, acts := {} } := by
  intro h
  have := h.passes b!"2"
  simp only [Passes, Bool.true_eq_false, iff_false] at this
  rw [accepts_cmp (k := .ge) rfl two, accepts_cmp (o := { not := true, tk := .gt, arg := b!"2" }) (k := .gt) rfl two,
    accepts_cmp (o := { not := true, tk := .eq, arg := b!"2" }) (k := .eq) rfl two] at this
  have e : comparedAs (pipe lib (newTransaction newDefaultLimits) (List.map transOf []) b!"2") = 2 := by decide
  simp only [e] at this
  revert this; simp [Cmp]

end Verif
