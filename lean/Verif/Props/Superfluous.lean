import Verif.Props.Present
import Verif.Props.FormLaws
/-! C149: rules that add nothing can be left out. -/
namespace Verif
open Sample Spec

/-- Next to the chains `ds`, the chain adds nothing: it does not deny, or one of its tests is passed
by no value, or one of `ds` denies in the same phase and asks no more. -/
inductive Spec.Superfluous (lib : Lib) (ds : List (List PRule)) (c : List PRule) : Prop
  | harmless : ¬ Denies c → Superfluous lib ds c
  | dead {p : PRule} : p ∈ c → (∀ y, ¬ Passes lib p y) → Superfluous lib ds c
  | covered {d : List PRule} : d ∈ ds → AsksMore lib d c → Superfluous lib ds c

/-- `ds` are chains of `cs`, and those left out add nothing. -/
structure Spec.Pruned (lib : Lib) (cs ds : List (List PRule)) : Prop where
  kept : ∀ d ∈ ds, d ∈ cs
  left : ∀ c ∈ cs, c ∈ ds ∨ Superfluous lib ds c

/-- C149: leaving out rules that add nothing makes no difference to what is refused, if no rule
skips or allows. -/
def C149_statement : Prop :=
  ∀ (lib : Lib) (vo : VarOrd) (ord : IterOrd) (text text' : Bytes) (dirs dirs' : List PDir), Program text dirs → Program text' dirs' →
    switches dirs = switches dirs' → Pruned lib (chainsOf (rulesIn dirs)) (chainsOf (rulesIn dirs')) → StrictRules (chainsOf (rulesIn dirs)) →
    RefuseAlike lib vo ord text text'

theorem Spec.Pruned.stems {lib : Lib} {cs ds : List (List PRule)} (h : Pruned lib cs ds) : StemsFrom cs ds :=
  fun d hd => ⟨d, h.kept d hd, rfl, fun p hp => ⟨p, hp, rfl, rfl, fun _ h => h⟩⟩

theorem Spec.Pruned.case {K : Type} {S : Sight K} {lib : Lib} {L : K → (Bytes → Prop) → List Bytes → VarTok → Prop} (hS : ∀ k p, S.holds k p ↔ HoldsBy lib (L k) p)
    {cs ds : List (List PRule)} (h : Pruned lib cs ds) (k : K) (q : Int) : Case S cs k q ↔ Case S ds k q := by
  constructor
  · rintro ⟨c, h1, h2, h3, h4⟩
    rcases h.left c h1 with hc | hc
    · exact ⟨c, hc, h2, h3, h4⟩
    · cases hc with
      | harmless hn => exact absurd h3 hn
      | dead hp hn =>
        obtain ⟨_, _, y, _, hy⟩ := (hS k _).1 (h4 _ hp)
        exact absurd hy (hn y)
      | covered hd ha =>
        refine ⟨_, hd, ha.phase ▸ h2, ha.denies, fun p hp => ?_⟩
        obtain ⟨p', hp', e⟩ := ha.tests p hp
        exact (hS k p).2 (tighter_holds e ((hS k p').1 (h4 p' hp')))
  · rintro ⟨d, h1, h2⟩
    exact ⟨d, h.kept d h1, h2⟩

/-- C149 for rules that read no body.  Missing: bodies, see below. -/
theorem C149_pruned_partial {lib : Lib} {vo : VarOrd} {ord : IterOrd} {text text' : Bytes} {dirs dirs' : List PDir} (ht : Program text dirs)
    (ht' : Program text' dirs') (hok : ∀ d ∈ dirs, DirOk lib d) (h : Pruned lib (chainsOf (rulesIn dirs)) (chainsOf (rulesIn dirs')))
    (hv : ∀ p ∈ rulesIn dirs, ∀ v ∈ p.vars, readsBody v.tk = false) (hs : StrictRules (chainsOf (rulesIn dirs))) (ops : List Op) :
    AlikeOn lib vo ord text text' (enough dirs dirs') ops :=
  told_alike ht ht' hok h.stems hv hs (h.case (L := Lists lib) fun _ _ => .rfl) ops

/-- C149 with bodies of up to 131072 bytes, if rules read arguments from the body only once the
form is settled, and well-formed.  Missing: larger bodies, malformed forms. -/
theorem C149_bodies_partial {lib : Lib} {vo : VarOrd} {ord : IterOrd} {text text' : Bytes} {dirs dirs' : List PDir} (ht : Program text dirs)
    (ht' : Program text' dirs') (hok : ∀ d ∈ dirs, DirOk lib d) (hsw : switches dirs = switches dirs')
    (h : Pruned lib (chainsOf (rulesIn dirs)) (chainsOf (rulesIn dirs'))) (hs : StrictRules (chainsOf (rulesIn dirs)))
    {ops : List Op} {q : Int} (hsize : (sent false ops).length ≤ 131072)
    (hform : ∀ c ∈ chainsOf (rulesIn dirs), 1 ≤ chainPhase c → (∃ p ∈ c, ∃ v ∈ p.vars, readsArgs v.tk = true) → q ≤ chainPhase c ∧ FormSettled lib q ops) :
    AlikeOn lib vo ord text text' (enough dirs dirs') ops :=
  body_alike ht ht' hok hsw h.stems hs (h.case fun _ _ => .rfl) hsize hform

/-- C149 with a multipart form of up to 131072 bytes.  Missing: larger bodies, malformed forms. -/
theorem C149_multipart_partial {lib : Lib} (hm : lib.ReadsMedia) (hl : lib.ReadsForms) {vo : VarOrd} {ord : IterOrd} {text text' : Bytes} {dirs dirs' : List PDir}
    (ht : Program text dirs) (ht' : Program text' dirs') (hok : ∀ d ∈ dirs, DirOk lib d) (hsw : switches dirs = switches dirs')
    (h : Pruned lib (chainsOf (rulesIn dirs)) (chainsOf (rulesIn dirs'))) (hs : StrictRules (chainsOf (rulesIn dirs)))
    {ops : List Op} {q : Int} {bnd : Bytes} {ps : List (Option Bytes × Bytes)} (hf : ReadsSentForm (chainsOf (rulesIn dirs)) q bnd ps ops) :
    AlikeOn lib vo ord text text' (enough dirs dirs') ops :=
  form_alike hm hl ht ht' hok hsw h.stems hs (h.case fun _ _ => .rfl) hf

/-! ### The refutation -/

/-- No value is less than the smallest number. -/
theorem never_less {lib : Lib} {p : PRule} (hp : p.op.tk = .lt) (hnot : p.op.not = false) (hn : Numeral p.op.arg (-2 ^ 63)) (s : Bytes) : ¬ Passes lib p s := by
  simp only [Passes, hnot, iff_true]
  rw [accepts_cmp (k := .lt) (by rw [hp]; rfl) hn]
  simp only [Cmp, comparedAs]
  cases h : parseInt (trimSpace (pipe lib (newTransaction newDefaultLimits) (List.map transOf p.acts.trans) s)) with
  | none => simp
  | some v =>
    have := ((parseInt_iff _ _).1 h).2.1
    simpa using this

/-- A rule on the number of entries that never matches, before one that refuses two. -/
theorem Sample.dead_pruned {lib : Lib} (tk : VarTok) (arg : Bytes) :
    Pruned lib [[counted tk .lt b!"-9223372036854775808" 2], [counted tk .ge arg 1]] [[counted tk .ge arg 1]] where
  kept d hd := .tail _ hd
  left c hc := by
    rcases List.mem_cons.1 hc with rfl | hc
    · exact .inr (.dead (.head _) (never_less rfl rfl smallest))
    · exact .inl hc

theorem Sample.dead_strict (tk : VarTok) (arg : Bytes) : StrictRules [[counted tk .lt b!"-9223372036854775808" 2], [counted tk .ge arg 1]] :=
  denying_strict fun c hc p hp => by
    simp only [List.mem_cons, List.not_mem_nil, or_false] at hc
    rcases hc with rfl | rfl <;> rw [List.mem_singleton.1 hp] <;> rfl

/-- A rule that never matches still looks at the form: a malformed one shows nothing to whoever
looks first, and an argument to the next. -/
theorem C149_refuted : ¬ C149_statement := by
  intro h
  have p1 : Program b!"SecRequestBodyAccess On\nSecRule &ARGS_POST \"@lt -9223372036854775808\" \"id:2,phase:3,deny\"\nSecRule &ARGS_POST \"@ge 1\" \"id:1,phase:3,deny\"\n"
    [.reqBody true, .rule (counted .argsPost .lt b!"-9223372036854775808" 2), .rule (counted .argsPost .ge b!"1" 1)] := (C53_exact id _ _).1 (by decide +kernel)
  have p2 : Program b!"SecRequestBodyAccess On\nSecRule &ARGS_POST \"@ge 1\" \"id:1,phase:3,deny\"\n" [.reqBody true, .rule (counted .argsPost .ge b!"1" 1)] :=
    (C53_exact id _ _).1 (by decide +kernel)
  have := alike_verdicts (h mediaLib varOrd Sample.ord _ _ _ _ p1 p2 rfl (dead_pruned _ _) (dead_strict _ _))
    (n := 9) (ops := badForm) (a := [true]) (b := [false]) (by decide +kernel) (by decide +kernel)
  cases this

/-! ### Examples -/

/-- The second rule asks more than the first. -/
theorem Sample.covered_pruned {lib : Lib} (tk : VarTok) :
    Pruned lib [[counted tk .ge b!"2" 1], [counted tk .gt b!"2" 2]] [[counted tk .ge b!"2" 1]] where
  kept d hd := by rw [List.mem_singleton.1 hd]; exact .head _
  left c hc := by
    simp only [List.mem_cons, List.not_mem_nil, or_false] at hc
    rcases hc with rfl | rfl
    · exact .inl (.head _)
    · refine .inr (.covered (.head _) ⟨rfl, ⟨_, .head _, _, .head _, rfl⟩, fun p hp => ?_⟩)
      rw [List.mem_singleton.1 hp]
      refine ⟨_, .head _, rfl, fun y => ?_⟩
      simp only [Passes, counted, iff_true]
      rw [accepts_cmp (o := { tk := .gt, arg := b!"2" }) (k := .gt) rfl two, accepts_cmp (o := { tk := .ge, arg := b!"2" }) (k := .ge) rfl two]
      simp only [Cmp]
      omega

theorem Sample.covered_strict (tk : VarTok) : StrictRules [[counted tk .ge b!"2" 1], [counted tk .gt b!"2" 2]] :=
  denying_strict fun c hc p hp => by
    simp only [List.mem_cons, List.not_mem_nil, or_false] at hc
    rcases hc with rfl | rfl <;> rw [List.mem_singleton.1 hp] <;> rfl

theorem Sample.covered_ok {lib : Lib} {tk : VarTok} (htk : tk ≠ .xml) : ∀ d ∈ PDir.reqBody true :: [counted tk .ge b!"2" 1, counted tk .gt b!"2" 2].map .rule, DirOk lib d :=
  counted_ok htk fun p hp => by
    simp only [List.mem_cons, List.not_mem_nil, or_false] at hp
    rcases hp with rfl | rfl <;> exact ⟨_, _, _, rfl, rfl⟩

/-- More than two headers need not be refused next to two or more. -/
example (ops : List Op) : AlikeOn lib varOrd Sample.ord
    b!"SecRequestBodyAccess On\nSecRule &REQUEST_HEADERS \"@ge 2\" \"id:1,phase:3,deny\"\nSecRule &REQUEST_HEADERS \"@gt 2\" \"id:2,phase:3,deny\"\n"
    b!"SecRequestBodyAccess On\nSecRule &REQUEST_HEADERS \"@ge 2\" \"id:1,phase:3,deny\"\n" 4 ops := by
  refine C149_pruned_partial (dirs := .reqBody true :: [counted .requestHeaders .ge b!"2" 1, counted .requestHeaders .gt b!"2" 2].map .rule)
    (dirs' := [.reqBody true, .rule (counted .requestHeaders .ge b!"2" 1)]) ((C53_exact id _ _).1 (by decide +kernel))
    ((C53_exact id _ _).1 (by decide +kernel)) (covered_ok (by decide)) (covered_pruned _) ?_ (covered_strict _) ops
  intro p hp v hv
  have hp : p ∈ [counted .requestHeaders .ge b!"2" 1, counted .requestHeaders .gt b!"2" 2] := hp
  simp only [List.mem_cons, List.not_mem_nil, or_false] at hp
  rcases hp with rfl | rfl <;> rw [List.mem_singleton.1 hv] <;> rfl

theorem Sample.covered_phase {tk : VarTok} {c : List PRule} (hc : c ∈ [[counted tk .ge b!"2" 1], [counted tk .gt b!"2" 2]]) : chainPhase c = 3 := by
  simp only [List.mem_cons, List.not_mem_nil, or_false] at hc
  rcases hc with rfl | rfl <;> rfl

/-- Nor more than two fields of a form. -/
example (x y : Bytes) (hsize : x.length + y.length ≤ 131072) : AlikeOn lib varOrd Sample.ord
    b!"SecRequestBodyAccess On\nSecRule &ARGS_POST \"@ge 2\" \"id:1,phase:3,deny\"\nSecRule &ARGS_POST \"@gt 2\" \"id:2,phase:3,deny\"\n"
    b!"SecRequestBodyAccess On\nSecRule &ARGS_POST \"@ge 2\" \"id:1,phase:3,deny\"\n" 4 (formOps x y ++ [.result]) := by
  refine C149_bodies_partial (q := 3) (dirs := .reqBody true :: [counted .argsPost .ge b!"2" 1, counted .argsPost .gt b!"2" 2].map .rule)
    (dirs' := [.reqBody true, .rule (counted .argsPost .ge b!"2" 1)]) ((C53_exact id _ _).1 (by decide +kernel))
    ((C53_exact id _ _).1 (by decide +kernel)) (covered_ok (by decide)) rfl (covered_pruned _) (covered_strict _)
    (by simpa [formOps, sent, chunkOf] using hsize) ?_
  intro c hc _ _
  rw [covered_phase (tk := .argsPost) hc]
  exact ⟨by omega, (formOps_settled x y).result⟩

/-- Nor more than two fields of a multipart form. -/
example {x y v : Bytes} (hxy : x ++ y = sentBody v) (h : 13 ∉ v) (hd : v.head? ≠ some 45) (hlen : (sentBody v).length ≤ 4096) :
    AlikeOn formLib varOrd Sample.ord
    b!"SecRequestBodyAccess On\nSecRule &ARGS_POST \"@ge 2\" \"id:1,phase:3,deny\"\nSecRule &ARGS_POST \"@gt 2\" \"id:2,phase:3,deny\"\n"
    b!"SecRequestBodyAccess On\nSecRule &ARGS_POST \"@ge 2\" \"id:1,phase:3,deny\"\n" 4 (sentOps x y ++ [.result]) := by
  refine C149_multipart_partial formEnv_media formLib_reads (dirs := .reqBody true :: [counted .argsPost .ge b!"2" 1, counted .argsPost .gt b!"2" 2].map .rule)
    (dirs' := [.reqBody true, .rule (counted .argsPost .ge b!"2" 1)]) ((C53_exact id _ _).1 (by decide +kernel))
    ((C53_exact id _ _).1 (by decide +kernel)) (covered_ok (by decide)) rfl (covered_pruned _) (covered_strict _)
    (q := 3) (bnd := b!"foo") (ps := [(some b!"a", v), (none, b!"evil")]) ⟨?_, ?_⟩
  · have e : sent false (sentOps x y ++ [.result]) = sentBody v := by
      rw [← hxy]; simp [sentOps, sent, chunkOf]
    rw [e]; omega
  · intro c hc _ _
    rw [covered_phase (tk := .argsPost) hc]
    exact ⟨by omega, (sentOps_sent hxy h hd hlen).result⟩

/-- The rule that asks less may not be left out instead. -/
example : textVerdicts lib b!"SecRule &REQUEST_HEADERS \"@ge 2\" \"id:1,phase:2,deny\"\nSecRule &REQUEST_HEADERS \"@gt 2\" \"id:2,phase:2,deny\"\n" 9
      [.processRequestHeader (some [(b!"A", [b!"1"]), (b!"B", [b!"2"])]), .result] = some [true] ∧
    textVerdicts lib b!"SecRule &REQUEST_HEADERS \"@gt 2\" \"id:2,phase:2,deny\"\n" 9
      [.processRequestHeader (some [(b!"A", [b!"1"]), (b!"B", [b!"2"])]), .result] = some [false] := by decide +kernel

end Verif
