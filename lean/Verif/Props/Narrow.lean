import Verif.Props.Exempt
/-! C139: chains that ask more. -/
namespace Verif
open Sample Spec

/-- Two rules with the same variables; what passes the test of the second passes that of the first. -/
structure Spec.Tighter (lib : Lib) (p p' : PRule) : Prop where
  vars : p'.vars = p.vars
  passes : ∀ y, Passes lib p' y → Passes lib p y

/-- Two chains of the same phase, of which the first denies, and the second asks all that the
first asks, or more. -/
structure Spec.AsksMore (lib : Lib) (c d : List PRule) : Prop where
  phase : chainPhase d = chainPhase c
  denies : Denies c
  tests : ∀ p ∈ c, ∃ p' ∈ d, Tighter lib p p'

/-- For every chain of the second list that denies there is one in the first that asks no more. -/
def Spec.Narrower (lib : Lib) (cs ds : List (List PRule)) : Prop := ∀ d ∈ ds, Denies d → ∃ c ∈ cs, AsksMore lib c d

/-- C139: if for every chain with deny of a text there is one in another text, of the same phase,
that denies and asks no more than some of the same questions, or weaker ones, the first text never refuses what
the other lets through, whatever the calls (none of their rules skipping or allowing). -/
def C139_statement : Prop :=
  ∀ (lib : Lib) (vo : VarOrd) (ord : IterOrd) (text text' : Bytes) (dirs dirs' : List PDir) (set set' : DireSet), Program text dirs → Program text' dirs' →
    switches dirs = switches dirs' → Narrower lib (chainsOf (rulesIn dirs)) (chainsOf (rulesIn dirs')) →
    StrictRules (chainsOf (rulesIn dirs)) → StrictRules (chainsOf (rulesIn dirs')) →
    DireSet.addSecLangString lib vo [] text = .ok (set, none) → DireSet.addSecLangString lib vo [] text' = .ok (set', none) →
    ∀ (ops : List Op) (n : Nat) (t t' : Tx) (os os' : List Out) (tr tr' : Trace),
      (set.execute newEngine).newTransaction.steps ((set.execute newEngine).env lib ord) (set.execute newEngine).ruleSet n ops = .ok (t, os, tr) →
      (set'.execute newEngine).newTransaction.steps ((set'.execute newEngine).env lib ord) (set'.execute newEngine).ruleSet n ops = .ok (t', os', tr') →
      Pairs (fun v v' => v'.disruptive = true → v.disruptive = true) (shown os) (shown os')

theorem tighter_holds {lib : Lib} {L : (Bytes → Prop) → List Bytes → VarTok → Prop} {p p' : PRule} (h : Tighter lib p p') (hh : HoldsBy lib L p') : HoldsBy lib L p := by
  obtain ⟨v, h1, y, h2, h3⟩ := hh
  rw [h.vars] at h1 h2
  exact ⟨v, h1, y, h2, h.passes y h3⟩

theorem narrower_case {K : Type} {S : Sight K} {lib : Lib} {L : K → (Bytes → Prop) → List Bytes → VarTok → Prop} (hS : ∀ k p, S.holds k p ↔ HoldsBy lib (L k) p)
    {cs ds : List (List PRule)} (h : Narrower lib cs ds) (k : K) (q : Int) (hd : Case S ds k q) : Case S cs k q := by
  obtain ⟨d, h1, h2, h3, h4⟩ := hd
  obtain ⟨c, hc, e1, e2, e3⟩ := h d h1 h3
  refine ⟨c, hc, e1 ▸ h2, e2, fun p hp => ?_⟩
  obtain ⟨p', hp', e⟩ := e3 p hp
  exact (hS k p).2 (tighter_holds e ((hS k p').1 (h4 p' hp')))

/-- C139 for rules that read no body.  Missing: bodies, see below. -/
theorem C139_narrower_partial {lib : Lib} {vo : VarOrd} {ord : IterOrd} {text text' : Bytes} {dirs dirs' : List PDir} (ht : Program text dirs)
    (ht' : Program text' dirs') (hok : ∀ d ∈ dirs, DirOk lib d) (hok' : ∀ d ∈ dirs', DirOk lib d) (h : Narrower lib (chainsOf (rulesIn dirs)) (chainsOf (rulesIn dirs')))
    (hv : ∀ p ∈ rulesIn dirs, ∀ v ∈ p.vars, readsBody v.tk = false) (hv' : ∀ p ∈ rulesIn dirs', ∀ v ∈ p.vars, readsBody v.tk = false)
    (hs : StrictRules (chainsOf (rulesIn dirs))) (hs' : StrictRules (chainsOf (rulesIn dirs'))) (ops : List Op) :
    BothShow (Pairs fun v v' => v'.disruptive = true → v.disruptive = true) lib vo ord text text' (enough dirs dirs') ops := by
  obtain ⟨set, h1, h2⟩ := C87_machine (vo := vo) (ord := ord) ht hok hv (strict_noReturn hs)
  obtain ⟨set', h1', h2'⟩ := C87_machine (vo := vo) (ord := ord) ht' hok' hv' (strict_noReturn hs')
  refine ⟨set, set', h1, h1', fun n hn => ?_⟩
  obtain ⟨t, os, tr, g1, g2⟩ := h2 ops n (by simp only [enough] at hn; omega)
  obtain ⟨t', os', tr', g1', g2'⟩ := h2' ops n (by simp only [enough] at hn; omega)
  refine ⟨t, t', os, os', tr, tr', g1, g1', ?_⟩
  rw [g2, g2']
  exact eased_run hs hs' (narrower_case (lib := lib) (L := Lists lib) (fun _ _ => .rfl) h)
    (fun c h => ⟨chain_low ht h, chain_five ht h⟩) (fun c h => ⟨chain_low ht' h, chain_five ht' h⟩) ops ⟨rfl, rfl, rfl, id⟩

/-- C139 likewise with bodies of up to 131072 bytes, if rules read arguments from the body only
once the form is settled, and well-formed.  Missing: larger bodies, malformed forms. -/
theorem C139_bodies_partial {lib : Lib} {vo : VarOrd} {ord : IterOrd} {text text' : Bytes} {dirs dirs' : List PDir} (ht : Program text dirs)
    (ht' : Program text' dirs') (hok : ∀ d ∈ dirs, DirOk lib d) (hok' : ∀ d ∈ dirs', DirOk lib d) (hsw : switches dirs = switches dirs')
    (h : Narrower lib (chainsOf (rulesIn dirs)) (chainsOf (rulesIn dirs'))) (hs : StrictRules (chainsOf (rulesIn dirs))) (hs' : StrictRules (chainsOf (rulesIn dirs')))
    {ops : List Op} {q : Int} (hsize : (sent false ops).length ≤ 131072)
    (hform : ∀ c ∈ chainsOf (rulesIn dirs) ++ chainsOf (rulesIn dirs'), 1 ≤ chainPhase c → (∃ p ∈ c, ∃ v ∈ p.vars, readsArgs v.tk = true) →
      q ≤ chainPhase c ∧ FormSettled lib q ops) :
    BothShow (Pairs fun v v' => v'.disruptive = true → v.disruptive = true) lib vo ord text text' (enough dirs dirs') ops := by
  obtain ⟨set, h1, h2⟩ := C88_machine (vo := vo) (ord := ord) ht hok (strict_noReturn hs)
  obtain ⟨set', h1', h2'⟩ := C88_machine (vo := vo) (ord := ord) ht' hok' (strict_noReturn hs')
  refine ⟨set, set', h1, h1', fun n hn => ?_⟩
  obtain ⟨t, os, tr, g1, g2⟩ := h2 (q := q) hsize (fun c hc => hform c (List.mem_append_left _ hc)) n (by simp only [enough] at hn; omega)
  obtain ⟨t', os', tr', g1', g2'⟩ := h2' hsize (fun c hc => hform c (List.mem_append_right _ hc)) n (by simp only [enough] at hn; omega)
  refine ⟨t, t', os, os', tr, tr', g1, g1', ?_⟩
  obtain ⟨e1, e2⟩ := switches_access hsw
  rw [g2, g2', ← e1, ← e2]
  exact eased_run hs hs' (narrower_case (lib := lib) (fun _ _ => .rfl) h)
    (fun c h => ⟨chain_low ht h, chain_five ht h⟩) (fun c h => ⟨chain_low ht' h, chain_five ht' h⟩) ops ⟨rfl, rfl, rfl, id⟩

/-- C139 likewise with a multipart form.  Missing: larger bodies, malformed forms. -/
theorem C139_multipart_partial {lib : Lib} (hm : lib.ReadsMedia) (hl : lib.ReadsForms) {vo : VarOrd} {ord : IterOrd} {text text' : Bytes} {dirs dirs' : List PDir}
    (ht : Program text dirs) (ht' : Program text' dirs') (hok : ∀ d ∈ dirs, DirOk lib d) (hok' : ∀ d ∈ dirs', DirOk lib d) (hsw : switches dirs = switches dirs')
    (h : Narrower lib (chainsOf (rulesIn dirs)) (chainsOf (rulesIn dirs'))) (hs : StrictRules (chainsOf (rulesIn dirs))) (hs' : StrictRules (chainsOf (rulesIn dirs')))
    {ops : List Op} {q : Int} {bnd : Bytes} {ps : List (Option Bytes × Bytes)} (hf : ReadsSentForm (chainsOf (rulesIn dirs) ++ chainsOf (rulesIn dirs')) q bnd ps ops) :
    BothShow (Pairs fun v v' => v'.disruptive = true → v.disruptive = true) lib vo ord text text' (enough dirs dirs') ops := by
  obtain ⟨set, h1, h2⟩ := C133_machine hm hl (vo := vo) (ord := ord) ht hok (strict_noReturn hs)
  obtain ⟨set', h1', h2'⟩ := C133_machine hm hl (vo := vo) (ord := ord) ht' hok' (strict_noReturn hs')
  refine ⟨set, set', h1, h1', fun n hn => ?_⟩
  obtain ⟨t, os, tr, g1, g2⟩ := h2 (q := q) (bnd := bnd) (ps := ps) hf.size (fun c hc => hf.form c (List.mem_append_left _ hc)) n (by simp only [enough] at hn; omega)
  obtain ⟨t', os', tr', g1', g2'⟩ := h2' hf.size (fun c hc => hf.form c (List.mem_append_right _ hc)) n (by simp only [enough] at hn; omega)
  refine ⟨t, t', os, os', tr, tr', g1, g1', ?_⟩
  obtain ⟨e1, e2⟩ := switches_access hsw
  rw [g2, g2', ← e1, ← e2]
  exact eased_run hs hs' (narrower_case (lib := lib) (fun _ _ => .rfl) h)
    (fun c h => ⟨chain_low ht h, chain_five ht h⟩) (fun c h => ⟨chain_low ht' h, chain_five ht' h⟩) ops ⟨rfl, rfl, rfl, id⟩

/-- A rule with a threshold that is harder to reach is tighter. -/
theorem C139_threshold {lib : Lib} (p : PRule) {arg : Bytes} {k : CmpKind} {n m : Int} (hk : cmpOf p.op.tk = some k) (hn : Numeral p.op.arg n) (hm : Numeral arg m)
    (h : ((k = .gt ∨ k = .ge) ∧ p.op.not = false ∨ (k = .lt ∨ k = .le) ∧ p.op.not = true) ∧ n ≤ m ∨
      ((k = .lt ∨ k = .le) ∧ p.op.not = false ∨ (k = .gt ∨ k = .ge) ∧ p.op.not = true) ∧ m ≤ n) :
    Tighter lib p { p with op := { p.op with arg := arg } } where
  vars := rfl
  passes y := by
    simp only [Passes]
    rw [accepts_cmp hk hn, accepts_cmp (o := { p.op with arg := arg }) hk hm]
    rcases h with ⟨(⟨rfl | rfl, h2⟩ | ⟨rfl | rfl, h2⟩), h3⟩ | ⟨(⟨rfl | rfl, h2⟩ | ⟨rfl | rfl, h2⟩), h3⟩ <;> rw [h2] <;> simp only [Cmp, iff_true, iff_false, reduceCtorEq] <;> omega

/-! ### Concrete cases -/

/-- A rule on the number of headers. -/
def Sample.manyHeaders (arg : Bytes) (chain : Bool) : PRule where
  vars := [{ tk := .requestHeaders, count := true }]
  op := { tk := .gt, arg := arg }
  acts := { id := 1, phase := 3, chain := chain, action := [⟨.deny, []⟩] }

theorem Sample.denying_strict {cs : List (List PRule)} (h : ∀ c ∈ cs, ∀ p ∈ c, p.acts.action = [⟨.deny, []⟩]) : StrictRules cs := by
  intro c hc p hp a ha
  rw [h c hc p hp] at ha
  rw [List.mem_singleton.1 ha]; exact ⟨nofun, nofun⟩

/-- Five headers, against seven and a method. -/
example (ops : List Op) : BothShow (Pairs fun v v' => v'.disruptive = true → v.disruptive = true) lib varOrd Sample.ord
    b!"SecRule &REQUEST_HEADERS \"@gt 5\" \"id:1,phase:3,deny\"\n"
    b!"SecRule &REQUEST_HEADERS \"@gt 7\" \"id:1,phase:3,chain,deny\"\nSecRule REQUEST_METHOD \"@rx evil\" \"id:1,phase:3,deny\"\n" 3 ops := by
  have d1 : ∀ (arg : Bytes) (n : Int) (b : Bool), Numeral arg n → trimSpace arg = arg → DirOk lib (.rule (manyHeaders arg b)) := by
    intro arg n b h ht
    exact {
      vars := by
        intro w hw
        rw [List.mem_singleton.1 hw]
        exact ⟨by decide, fun _ re hre => absurd ⟨re, hre⟩ (notRegex rfl)⟩
      op := ⟨.cmp ⟨.gt, n, arg⟩, .cmp rfl h ⟨(by show Trimmed arg; rw [← ht]; exact trimSpace_is_trimmed arg), [], [], (by simp [manyHeaders]), ⟨[], by decide, by decide⟩, ⟨[], by decide, by decide⟩⟩⟩
      acts := by intro a ha; rw [List.mem_singleton.1 ha]; exact .inl ⟨_, .deny⟩ }
  have n5 : Numeral b!"5" 5 := (parse_trim_iff _ _).1 (by decide)
  have n7 : Numeral b!"7" 7 := (parse_trim_iff _ _).1 (by decide)
  refine C139_narrower_partial (dirs := [.rule (manyHeaders b!"5" false)]) (dirs' := [.rule (manyHeaders b!"7" true), .rule (evilIn [theMethod] false)])
    ((C53_exact id _ _).1 (by decide +kernel)) ((C53_exact id _ _).1 (by decide +kernel)) ?_ ?_ ?_ ?_ ?_ (denying_strict ?_) (denying_strict ?_) ops
  · intro d hd
    rw [List.mem_singleton.1 hd]
    exact d1 _ 5 _ n5 (by decide)
  · intro d hd
    rcases List.mem_cons.1 hd with rfl | hd
    · exact d1 _ 7 _ n7 (by decide)
    · rw [List.mem_singleton.1 hd]
      exact {
        vars := by
          intro w hw
          rw [List.mem_singleton.1 hw]
          exact ⟨by decide, fun _ re hre => absurd ⟨re, hre⟩ (notRegex rfl)⟩
        op := ⟨_, .rx rfl rfl⟩
        acts := by intro a ha; rw [List.mem_singleton.1 ha]; exact .inl ⟨_, .deny⟩ }
  · intro d hd _
    have hd : d ∈ [[manyHeaders b!"7" true, evilIn [theMethod] false]] := hd
    rw [List.mem_singleton.1 hd]
    refine ⟨[manyHeaders b!"5" false], .head _, rfl, ⟨_, .head _, _, .head _, rfl⟩, fun p hp => ⟨_, .head _, ?_⟩⟩
    rw [List.mem_singleton.1 hp]
    have := C139_threshold (lib := lib) (manyHeaders b!"5" false) (arg := b!"7") (k := .gt) rfl n5 n7 (.inl ⟨.inl ⟨.inl rfl, rfl⟩, by decide⟩)
    exact ⟨this.vars, this.passes⟩
  · intro p hp v hv
    have hp : p ∈ [manyHeaders b!"5" false] := hp
    rw [List.mem_singleton.1 hp] at hv
    rw [List.mem_singleton.1 hv]; rfl
  · intro p hp v hv
    have hp : p ∈ [manyHeaders b!"7" true, evilIn [theMethod] false] := hp
    simp only [List.mem_cons, List.not_mem_nil, or_false] at hp
    rcases hp with rfl | rfl <;> rw [List.mem_singleton.1 hv] <;> rfl
  · intro c hc p hp
    have hc : c ∈ [[manyHeaders b!"5" false]] := hc
    rw [List.mem_singleton.1 hc] at hp
    rw [List.mem_singleton.1 hp]; rfl
  · intro c hc p hp
    have hc : c ∈ [[manyHeaders b!"7" true, evilIn [theMethod] false]] := hc
    rw [List.mem_singleton.1 hc] at hp
    simp only [List.mem_cons, List.not_mem_nil, or_false] at hp
    rcases hp with rfl | rfl <;> rfl

/-- A field of a form, against two. -/
theorem Sample.twoFields {lib : Lib} (tk : VarTok) : Narrower lib [[evilIn [named tk b!"a"] false]] [[evilIn [named tk b!"b"] true, evilIn [named tk b!"a"] false]] := by
  intro d hd _
  rw [List.mem_singleton.1 hd]
  refine ⟨_, .head _, rfl, ⟨_, .head _, _, .head _, rfl⟩, fun p hp => ⟨p, ?_, rfl, fun _ h => h⟩⟩
  rw [List.mem_singleton.1 hp]; exact .tail _ (.head _)

/-- A rule that denies if there are no arguments, in a chain or not; one that asks for "1". -/
def Sample.noArgs (chain : Bool) : PRule where
  vars := [{ tk := .argsPost, count := true }]
  op := { tk := .eq, arg := b!"0" }
  acts := { id := 1, phase := 3, chain := chain, action := [⟨.deny, []⟩] }
def Sample.oneIn (as : List PAct) : PRule where
  vars := [{ tk := .argsPost }]
  op := { tk := .rx, arg := b!"1" }
  acts := { id := 2, phase := 3, action := as }

theorem Sample.twoFields_actions {tk : VarTok} {c : List PRule}
    (hc : c ∈ [[evilIn [named tk b!"a"] false]] ∨ c ∈ [[evilIn [named tk b!"b"] true, evilIn [named tk b!"a"] false]]) {p : PRule} (hp : p ∈ c) :
    p.acts.action = [⟨.deny, []⟩] := by
  rcases hc with hc | hc
  · rw [List.mem_singleton.1 hc] at hp
    rw [List.mem_singleton.1 hp]; rfl
  · rw [List.mem_singleton.1 hc] at hp
    simp only [List.mem_cons, List.not_mem_nil, or_false] at hp
    rcases hp with rfl | rfl <;> rfl

theorem Sample.twoFields_ok {lib : Lib} (hrx : ∃ f, lib.rx b!"evil" = some f) {rs : List PRule} (h : ∀ p ∈ rs, ∃ x b, (x = b!"a" ∨ x = b!"b") ∧ p = evilIn [named .argsPost x] b) :
    ∀ d ∈ PDir.reqBody true :: rs.map .rule, DirOk lib d := by
  refine named_ok hrx fun p hp => ?_
  obtain ⟨x, b, hx, rfl⟩ := h p hp
  refine ⟨rfl, rfl, fun v hv => ⟨.argsPost, .inl rfl, ?_⟩⟩
  rw [List.mem_singleton.1 hv]
  exact hx.imp (fun h => by rw [h]) fun h => by rw [h]

/-- A urlencoded form with anything in it. -/
example (x y : Bytes) (hsize : x.length + y.length ≤ 131072) :
    BothShow (Pairs fun v v' => v'.disruptive = true → v.disruptive = true) lib varOrd Sample.ord
    b!"SecRequestBodyAccess On\nSecRule ARGS_POST:a \"@rx evil\" \"id:1,phase:3,deny\"\n"
    b!"SecRequestBodyAccess On\nSecRule ARGS_POST:b \"@rx evil\" \"id:1,phase:3,chain,deny\"\nSecRule ARGS_POST:a \"@rx evil\" \"id:1,phase:3,deny\"\n" 3
    (formOps x y ++ [.result]) := by
  refine C139_bodies_partial (q := 3) (dirs := .reqBody true :: [evilIn [named .argsPost b!"a"] false].map .rule)
    (dirs' := .reqBody true :: [evilIn [named .argsPost b!"b"] true, evilIn [named .argsPost b!"a"] false].map .rule)
    ((C53_exact id _ _).1 (by decide +kernel)) ((C53_exact id _ _).1 (by decide +kernel)) (twoFields_ok ⟨_, rfl⟩ ?_) (twoFields_ok ⟨_, rfl⟩ ?_) rfl (twoFields _)
    (denying_strict fun c hc p hp => twoFields_actions (.inl hc) hp) (denying_strict fun c hc p hp => twoFields_actions (.inr hc) hp)
    (by simpa [formOps, sent, chunkOf] using hsize) ?_
  · intro p hp
    rw [List.mem_singleton.1 hp]; exact ⟨_, _, .inl rfl, rfl⟩
  · intro p hp
    simp only [List.mem_cons, List.not_mem_nil, or_false] at hp
    rcases hp with rfl | rfl
    · exact ⟨_, _, .inr rfl, rfl⟩
    · exact ⟨_, _, .inl rfl, rfl⟩
  · intro c hc _ _
    have hc : c ∈ [[evilIn [named .argsPost b!"a"] false], [evilIn [named .argsPost b!"b"] true, evilIn [named .argsPost b!"a"] false]] := hc
    simp only [List.mem_cons, List.not_mem_nil, or_false] at hc
    rcases hc with rfl | rfl <;> exact ⟨by show (3 : Int) ≤ 3; omega, (formOps_settled x y).result⟩

/-- A multipart form with anything in its field. -/
example {x y v : Bytes} (hxy : x ++ y = sentBody v) (h : 13 ∉ v) (hd : v.head? ≠ some 45) (hlen : (sentBody v).length ≤ 4096) :
    BothShow (Pairs fun v v' => v'.disruptive = true → v.disruptive = true) formLib varOrd Sample.ord
    b!"SecRequestBodyAccess On\nSecRule ARGS_POST:a \"@rx evil\" \"id:1,phase:3,deny\"\n"
    b!"SecRequestBodyAccess On\nSecRule ARGS_POST:b \"@rx evil\" \"id:1,phase:3,chain,deny\"\nSecRule ARGS_POST:a \"@rx evil\" \"id:1,phase:3,deny\"\n" 3
    (sentOps x y ++ [.result]) := by
  refine C139_multipart_partial formEnv_media formLib_reads (q := 3) (dirs := .reqBody true :: [evilIn [named .argsPost b!"a"] false].map .rule)
    (dirs' := .reqBody true :: [evilIn [named .argsPost b!"b"] true, evilIn [named .argsPost b!"a"] false].map .rule)
    ((C53_exact id _ _).1 (by decide +kernel)) ((C53_exact id _ _).1 (by decide +kernel)) (twoFields_ok ⟨_, rfl⟩ ?_) (twoFields_ok ⟨_, rfl⟩ ?_) rfl (twoFields _)
    (denying_strict fun c hc p hp => twoFields_actions (.inl hc) hp) (denying_strict fun c hc p hp => twoFields_actions (.inr hc) hp)
    (evil_reads ?_ hxy h hd hlen)
  · intro p hp
    rw [List.mem_singleton.1 hp]; exact ⟨_, _, .inl rfl, rfl⟩
  · intro p hp
    simp only [List.mem_cons, List.not_mem_nil, or_false] at hp
    rcases hp with rfl | rfl
    · exact ⟨_, _, .inr rfl, rfl⟩
    · exact ⟨_, _, .inl rfl, rfl⟩
  · intro c hc
    have hc : c ∈ [[evilIn [named .argsPost b!"a"] false], [evilIn [named .argsPost b!"b"] true, evilIn [named .argsPost b!"a"] false]] := hc
    simp only [List.mem_cons, List.not_mem_nil, or_false] at hc
    rcases hc with rfl | rfl <;> exact ⟨_, _, _, _, rfl, rfl⟩

/-- A form that is malformed shows nothing when it is first looked at: the rule finds no "1" in it,
but does if it is first asked whether there is nothing. -/
theorem C139_refuted : ¬ C139_statement := by
  intro h
  have p1 : Program b!"SecRequestBodyAccess On\nSecRule ARGS_POST \"@rx 1\" \"id:2,phase:3,deny\"\n" [.reqBody true, .rule (oneIn [⟨.deny, []⟩])] :=
    (C53_exact id _ _).1 (by decide +kernel)
  have p2 : Program b!"SecRequestBodyAccess On\nSecRule &ARGS_POST \"@eq 0\" \"id:1,phase:3,chain,deny\"\nSecRule ARGS_POST \"@rx 1\" \"id:2,phase:3,deny\"\n"
    [.reqBody true, .rule (noArgs true), .rule (oneIn [⟨.deny, []⟩])] := (C53_exact id _ _).1 (by decide +kernel)
  obtain ⟨set, t, os, tr, a1, a2, a3⟩ := textVerdicts_run (lib := mediaLib) (text := b!"SecRequestBodyAccess On\nSecRule ARGS_POST \"@rx 1\" \"id:2,phase:3,deny\"\n") (n := 9)
    (ops := badForm) (a := [false]) (by decide +kernel)
  obtain ⟨set', t', os', tr', b1, b2, b3⟩ := textVerdicts_run (lib := mediaLib)
    (text := b!"SecRequestBodyAccess On\nSecRule &ARGS_POST \"@eq 0\" \"id:1,phase:3,chain,deny\"\nSecRule ARGS_POST \"@rx 1\" \"id:2,phase:3,deny\"\n") (n := 9)
    (ops := badForm) (a := [true]) (by decide +kernel)
  have hp := h mediaLib varOrd Sample.ord _ _ _ _ set set' p1 p2 rfl
    (by
      intro d hd _
      have hd : d ∈ [[noArgs true, oneIn [⟨.deny, []⟩]]] := hd
      rw [List.mem_singleton.1 hd]
      refine ⟨[oneIn [⟨.deny, []⟩]], .head _, rfl, ⟨_, .head _, _, .head _, rfl⟩, fun p hp => ⟨p, ?_, rfl, fun _ h => h⟩⟩
      rw [List.mem_singleton.1 hp]; exact .tail _ (.head _))
    (denying_strict (by
      intro c hc p hp
      have hc : c ∈ [[oneIn [⟨.deny, []⟩]]] := hc
      rw [List.mem_singleton.1 hc] at hp
      rw [List.mem_singleton.1 hp]; rfl))
    (denying_strict (by
      intro c hc p hp
      have hc : c ∈ [[noArgs true, oneIn [⟨.deny, []⟩]]] := hc
      rw [List.mem_singleton.1 hc] at hp
      simp only [List.mem_cons, List.not_mem_nil, or_false] at hp
      rcases hp with rfl | rfl <;> rfl)) a1 b1 _ 9 t t' os os' tr tr' a2 b2
  generalize shown os = l at a3 hp
  generalize shown os' = l' at b3 hp
  cases hp with
  | nil => cases a3
  | cons hv _ =>
    simp only [List.map_cons, List.cons.injEq] at a3 b3
    have := hv b3.1
    rw [a3.1] at this; cases this

end Verif
