import Verif.Props.Retold
/-! C121: a chain may ask its questions in any order. -/
namespace Verif
open Sample Spec

/-- What a written rule tests. -/
def Spec.question (p : PRule) : List PVar × POp × List TransTok := (p.vars, p.op, p.acts.trans)

/-- The chain `d` is `c` with the tests in another order: phase and actions stay where they are. -/
structure Spec.Shuffled (c d : List PRule) : Prop where
  acts : d.map (fun p => (p.acts.phase, p.acts.action)) = c.map fun p => (p.acts.phase, p.acts.action)
  tests : (d.map question).Perm (c.map question)

/-- The two texts show the same verdicts. -/
def Spec.JudgeAlike (lib : Lib) (vo : VarOrd) (ord : IterOrd) (text text' : Bytes) : Prop :=
  ∀ (set set' : DireSet), DireSet.addSecLangString lib vo [] text = .ok (set, none) → DireSet.addSecLangString lib vo [] text' = .ok (set', none) →
    ∀ (ops : List Op) (n : Nat) (t t' : Tx) (os os' : List Out) (tr tr' : Trace),
      (set.execute newEngine).newTransaction.steps ((set.execute newEngine).env lib ord) (set.execute newEngine).ruleSet n ops = .ok (t, os, tr) →
      (set'.execute newEngine).newTransaction.steps ((set'.execute newEngine).env lib ord) (set'.execute newEngine).ruleSet n ops = .ok (t', os', tr') →
      shown os = shown os'

/-- C121: if two texts have the same switches, and the chains of one are those of the other with
the tests in another order, both show the same verdicts. -/
def C121_statement : Prop :=
  ∀ (lib : Lib) (vo : VarOrd) (ord : IterOrd) (text text' : Bytes) (dirs dirs' : List PDir), Program text dirs → Program text' dirs' →
    switches dirs = switches dirs' → Pairs Shuffled (chainsOf (rulesIn dirs)) (chainsOf (rulesIn dirs')) → JudgeAlike lib vo ord text text'

/-! ### The machine -/

theorem Spec.Shuffled.phase {c d : List PRule} (h : Shuffled c d) : chainPhase d = chainPhase c := by
  have e := congrArg (fun l : List (Int × List PAct) => (l.head?.map Prod.fst).getD 0) h.acts
  simpa [chainPhase, List.head?_map, Function.comp_def] using e

theorem Spec.Shuffled.actions {c d : List PRule} (h : Shuffled c d) : d.map (fun p => p.acts.action) = c.map fun p => p.acts.action := by
  have e := congrArg (List.map Prod.snd) h.acts
  simpa [Function.comp_def] using e

theorem Spec.Shuffled.rule {c d : List PRule} (h : Shuffled c d) {p' : PRule} (hp : p' ∈ d) : ∃ p ∈ c, p'.vars = p.vars ∧ p'.op = p.op ∧ p'.acts.trans = p.acts.trans := by
  have := h.tests.mem_iff.1 (List.mem_map_of_mem (f := question) hp)
  obtain ⟨p, p1, p2⟩ := List.mem_map.1 this
  obtain ⟨e1, e2⟩ := Prod.mk.inj p2
  obtain ⟨e2, e3⟩ := Prod.mk.inj e2
  exact ⟨p, p1, e1.symm, e2.symm, e3.symm⟩

theorem Spec.Shuffled.symm {c d : List PRule} (h : Shuffled c d) : Shuffled d c := ⟨h.acts.symm, h.tests.symm⟩

theorem Spec.Shuffled.acts_mem {c d : List PRule} (h : Shuffled c d) {p' : PRule} (hp : p' ∈ d) : ∃ p ∈ c, p'.acts.action = p.acts.action := by
  have : p'.acts.action ∈ c.map fun p => p.acts.action := by
    rw [← h.actions]
    exact List.mem_map_of_mem (f := fun p : PRule => p.acts.action) hp
  obtain ⟨p, p1, p2⟩ := List.mem_map.1 this
  exact ⟨p, p1, p2.symm⟩

section
variable {K : Type} {S : Sight K}

/-- What holds depends on the test only. -/
def ByQuestion (S : Sight K) : Prop := ∀ k p p', question p = question p' → (S.holds k p ↔ S.holds k p')

theorem shuffled_holds (hS : ByQuestion S) {c d : List PRule} (h : Shuffled c d) (k : K) : (∀ p ∈ d, S.holds k p) ↔ ∀ p ∈ c, S.holds k p := by
  have one : ∀ {c d : List PRule}, Shuffled c d → (∀ p ∈ c, S.holds k p) → ∀ p ∈ d, S.holds k p := by
    intro c d h hc p' hp
    obtain ⟨p, p1, e1, e2, e3⟩ := h.rule hp
    exact (hS k p p' (by simp only [question, e1, e2, e3])).1 (hc p p1)
  exact ⟨one h.symm, one h⟩

theorem shuffled_fire {c d : List PRule} (h : Shuffled c d) (m : Mach K) : fire S m d = fire S m c := by
  have key : ∀ (c : List PRule) (m : Mach K), fire S m c = (c.map fun p => p.acts.action).foldl (fun m as => (Spec.inOrder as).foldl (act S) m) m := by
    intro c m
    simp only [fire, List.foldl_map]
  rw [key, key, h.actions]

theorem shuffled_skips {c d : List PRule} (h : Shuffled c d) : skips d = skips c := by
  have key : ∀ c : List PRule, skips c = (c.map fun p => p.acts.action).any fun as => as.any fun a => a.tk = .skip := by
    intro c
    simp only [skips, List.any_map]
    rfl
  rw [key, key, h.actions]

theorem shuffled_walk (hS : ByQuestion S) (q : Int) {cs ds : List (List PRule)} (h : Pairs Shuffled cs ds) : ∀ (i : Nat) (b : Bool) (m : Mach K),
    walk S q i b ds m = walk S q i b cs m := by
  induction h with
  | nil => intro i b m; cases b <;> rfl
  | cons h1 _ ih =>
    intro i b m
    cases b with
    | true => simp only [walk, ih]
    | false =>
      have hh := shuffled_holds hS h1 m.known
      simp only [walk, ih, shuffled_fire h1, shuffled_skips h1]
      split
      · rename_i g
        rw [if_pos (hh.1 g)]
      · rename_i g
        rw [if_neg fun g' => g (hh.2 g')]

theorem shuffled_run (hS : ByQuestion S) {cs ds : List (List PRule)} (h : Pairs Shuffled cs ds) : ∀ (ops : List Op) (m : Mach K),
    Spec.run S ds m ops = Spec.run S cs m ops
  | [], _ => rfl
  | op :: ops, m => by
    have hc : call S ds m op = call S cs m op := by
      have hq : ∀ q : Int, Pairs Shuffled (cs.filter fun c => chainPhase c = q) (ds.filter fun c => chainPhase c = q) :=
        fun q => h.filter fun a b hab => by rw [hab.phase]
      simp only [call, shuffled_walk hS _ (hq _)]
    simp only [Spec.run, hc, shuffled_run hS h ops]

end

/-! ### Texts -/

theorem shuffled_rule {dirs dirs' : List PDir} (h : Pairs Shuffled (chainsOf (rulesIn dirs)) (chainsOf (rulesIn dirs'))) {p' : PRule} (hp : p' ∈ rulesIn dirs') :
    (∃ p ∈ rulesIn dirs, p'.vars = p.vars ∧ p'.op = p.op) ∧ ∃ p ∈ rulesIn dirs, p'.acts.action = p.acts.action := by
  obtain ⟨d, d1, d2⟩ := in_chain hp
  obtain ⟨c, c1, c2⟩ := h.right d d1
  obtain ⟨p, p1, p2, p3, _⟩ := c2.rule d2
  obtain ⟨r, r1, r2⟩ := c2.acts_mem d2
  exact ⟨⟨p, mem_chainsOf c1 p1, p2, p3⟩, r, mem_chainsOf c1 r1, r2⟩

theorem shuffled_ok {lib : Lib} {dirs dirs' : List PDir} (h : Pairs Shuffled (chainsOf (rulesIn dirs)) (chainsOf (rulesIn dirs'))) (hok : ∀ d ∈ dirs, DirOk lib d) :
    ∀ d ∈ dirs', DirOk lib d := by
  intro d hd
  cases d with
  | rule p' =>
    obtain ⟨⟨p, h1, h2, h3⟩, r, h4, h5⟩ := shuffled_rule h (mem_rulesIn.2 hd)
    have o1 := hok _ (mem_rulesIn.1 h1)
    have o2 := hok _ (mem_rulesIn.1 h4)
    exact ⟨h2 ▸ o1.vars, h3 ▸ o1.op, h5 ▸ o2.acts⟩
  | _ => exact trivial

theorem shuffled_noReturn {cs ds : List (List PRule)} (h : Pairs Shuffled cs ds) (hc : NoReturn cs) : NoReturn ds := by
  intro d hd h4 p' hp a ha
  obtain ⟨c, c1, c2⟩ := h.right d hd
  obtain ⟨p, p1, p2⟩ := c2.acts_mem hp
  exact hc c c1 (c2.phase ▸ h4) p p1 a (p2 ▸ ha)

theorem byQuestion_told (lib : Lib) : ByQuestion (toldSight lib) := by
  intro k p p' h
  obtain ⟨e1, e2⟩ := Prod.mk.inj h
  obtain ⟨e2, e3⟩ := Prod.mk.inj e2
  simp only [toldSight, Holds, e1, e2, e3]

theorem byQuestion_body (lib : Lib) (req resp : Bool) : ByQuestion (bodySight lib req resp) := by
  intro k p p' h
  obtain ⟨e1, e2⟩ := Prod.mk.inj h
  obtain ⟨e2, e3⟩ := Prod.mk.inj e2
  simp only [bodySight, HoldsAll, HoldsBy, e1, e2, e3]

/-- Both texts load, and the calls `ops` return and show the same verdicts. -/
def Spec.JudgedAlikeOn (lib : Lib) (vo : VarOrd) (ord : IterOrd) (text text' : Bytes) (N : Nat) (ops : List Op) : Prop :=
  ∃ set set', DireSet.addSecLangString lib vo [] text = .ok (set, none) ∧ DireSet.addSecLangString lib vo [] text' = .ok (set', none) ∧
    ∀ n ≥ N, ∃ t t' os os' tr tr',
      (set.execute newEngine).newTransaction.steps ((set.execute newEngine).env lib ord) (set.execute newEngine).ruleSet n ops = .ok (t, os, tr) ∧
      (set'.execute newEngine).newTransaction.steps ((set'.execute newEngine).env lib ord) (set'.execute newEngine).ruleSet n ops = .ok (t', os', tr') ∧
      shown os = shown os'

/-- C121, for rules that read no body (and no `allow:request` in a response phase).  Missing:
bodies, see below. -/
theorem C121_tests_partial {lib : Lib} {vo : VarOrd} {ord : IterOrd} {text text' : Bytes} {dirs dirs' : List PDir} (ht : Program text dirs)
    (ht' : Program text' dirs') (hok : ∀ d ∈ dirs, DirOk lib d) (h : Pairs Shuffled (chainsOf (rulesIn dirs)) (chainsOf (rulesIn dirs')))
    (hv : ∀ p ∈ rulesIn dirs, ∀ v ∈ p.vars, readsBody v.tk = false) (hret : NoReturn (chainsOf (rulesIn dirs))) (ops : List Op) :
    JudgedAlikeOn lib vo ord text text' ((chainsOf (rulesIn dirs)).length + 2) ops := by
  obtain ⟨set, h1, h2⟩ := C87_machine (vo := vo) (ord := ord) ht hok hv hret
  obtain ⟨set', h1', h2'⟩ := C87_machine (vo := vo) (ord := ord) ht' (shuffled_ok h hok) (fun p' hp v hv' => by
    obtain ⟨⟨p, p1, p2, _⟩, _⟩ := shuffled_rule h hp
    exact hv p p1 v (p2 ▸ hv')) (shuffled_noReturn h hret)
  refine ⟨set, set', h1, h1', fun n hn => ?_⟩
  obtain ⟨t, os, tr, g1, g2⟩ := h2 ops n hn
  obtain ⟨t', os', tr', g1', g2'⟩ := h2' ops n (by rw [← h.length_eq]; exact hn)
  exact ⟨t, t', os, os', tr, tr', g1, g1', by rw [g2, g2', shuffled_run (byQuestion_told lib) h]⟩

/-- C121 with bodies of up to 131072 bytes, if rules read arguments from the body only once the
form is settled, and well-formed.  Missing: larger bodies, malformed forms; for multipart
forms see `Props/FormLaws.lean`. -/
theorem C121_bodies_partial {lib : Lib} {vo : VarOrd} {ord : IterOrd} {text text' : Bytes} {dirs dirs' : List PDir} (ht : Program text dirs)
    (ht' : Program text' dirs') (hok : ∀ d ∈ dirs, DirOk lib d) (hsw : switches dirs = switches dirs')
    (h : Pairs Shuffled (chainsOf (rulesIn dirs)) (chainsOf (rulesIn dirs'))) (hret : NoReturn (chainsOf (rulesIn dirs)))
    {ops : List Op} {q : Int} (hsize : (sent false ops).length ≤ 131072)
    (hform : ∀ c ∈ chainsOf (rulesIn dirs), 1 ≤ chainPhase c → (∃ p ∈ c, ∃ v ∈ p.vars, readsArgs v.tk = true) → q ≤ chainPhase c ∧ FormSettled lib q ops) :
    JudgedAlikeOn lib vo ord text text' ((chainsOf (rulesIn dirs)).length + 2) ops := by
  obtain ⟨set, h1, h2⟩ := C88_machine (vo := vo) (ord := ord) ht hok hret
  obtain ⟨set', h1', h2'⟩ := C88_machine (vo := vo) (ord := ord) ht' (shuffled_ok h hok) (shuffled_noReturn h hret)
  refine ⟨set, set', h1, h1', fun n hn => ?_⟩
  obtain ⟨t, os, tr, g1, g2⟩ := h2 hsize hform n hn
  obtain ⟨t', os', tr', g1', g2'⟩ := h2' (q := q) hsize (fun d hd l1 ⟨p', hp, v, hv, ha⟩ => by
    obtain ⟨c, c1, c2⟩ := h.right d hd
    obtain ⟨p, p1, p2, _⟩ := c2.rule hp
    rw [c2.phase] at l1 ⊢
    exact hform c c1 l1 ⟨p, p1, v, p2 ▸ hv, ha⟩) n (by rw [← h.length_eq]; exact hn)
  obtain ⟨e1, e2⟩ := switches_access hsw
  exact ⟨t, t', os, os', tr, tr', g1, g1', by rw [g2, g2', ← e1, ← e2, shuffled_run (byQuestion_body lib _ _) h]⟩

/-! ### The refutation -/

/-- A chain on the arguments of a form, with its tests. -/
def Sample.formLink (id : Int) (chain : Bool) (q : List PVar × POp × List TransTok) (as : List PAct) : PRule :=
  { vars := q.1, op := q.2.1, acts := { id := id, phase := 3, chain := chain, trans := q.2.2, action := as } }

/-- There is no argument; some argument is 1. -/
def Sample.noneThere : List PVar × POp × List TransTok := ([{ tk := .argsPost, count := true }], { tk := .eq, arg := b!"0" }, [])
def Sample.oneThere : List PVar × POp × List TransTok := ([{ tk := .argsPost }], { tk := .rx, arg := b!"1" }, [])

/-- A malformed form shows nothing when it is first read, and what could be read of it from then
on: of two tests of a chain, the one that finds nothing must come first. -/
theorem C121_refuted : ¬ C121_statement := by
  intro h
  have p1 : Program b!"SecRequestBodyAccess On\nSecRule &ARGS_POST \"@eq 0\" \"id:1,phase:3,deny,chain\"\nSecRule ARGS_POST \"@rx 1\" \"id:2,phase:3\"\n"
    [.reqBody true, .rule (formLink 1 true noneThere [⟨.deny, []⟩]), .rule (formLink 2 false oneThere [])] := (C53_exact id _ _).1 (by decide +kernel)
  have p2 : Program b!"SecRequestBodyAccess On\nSecRule ARGS_POST \"@rx 1\" \"id:1,phase:3,deny,chain\"\nSecRule &ARGS_POST \"@eq 0\" \"id:2,phase:3\"\n"
    [.reqBody true, .rule (formLink 1 true oneThere [⟨.deny, []⟩]), .rule (formLink 2 false noneThere [])] := (C53_exact id _ _).1 (by decide +kernel)
  have hj := h mediaLib varOrd Sample.ord _ _ _ _ p1 p2 rfl (.cons ⟨rfl, List.Perm.swap _ _ _⟩ .nil)
  have := alike_verdicts (fun set set' h1 h2 ops n t t' os os' tr tr' r1 r2 => by rw [hj set set' h1 h2 ops n t t' os os' tr tr' r1 r2]) (n := 9) (ops := badForm)
    (a := [true]) (b := [false]) (by decide +kernel) (by decide +kernel)
  cases this

/-! ### Examples -/

/-- A chain on the method and the URL. -/
def Sample.methodLink (id : Int) (chain : Bool) (tk : VarTok) (arg : Bytes) (as : List PAct) : PRule :=
  { vars := [{ tk := tk }], op := { tk := .rx, arg := arg }, acts := { id := id, phase := 2, chain := chain, action := as } }

/-- Its tests may be exchanged; the status and the verdict stay with the first and the second rule. -/
example (ops : List Op) : JudgedAlikeOn lib varOrd Sample.ord
    b!"SecRule REQUEST_METHOD \"@rx POST\" \"id:1,phase:2,deny,chain\"\nSecRule REQUEST_PROTOCOL \"@rx HTTP\" \"id:2,phase:2,log\"\n"
    b!"SecRule REQUEST_PROTOCOL \"@rx HTTP\" \"id:1,phase:2,deny,chain\"\nSecRule REQUEST_METHOD \"@rx POST\" \"id:2,phase:2,log\"\n" 3 ops := by
  have ok : ∀ d ∈ [PDir.rule (methodLink 1 true .requestMethod b!"POST" [⟨.deny, []⟩]), .rule (methodLink 2 false .requestProtocol b!"HTTP" [⟨.log, []⟩])], DirOk lib d := by
    intro d hd
    simp only [List.mem_cons, List.not_mem_nil, or_false] at hd
    rcases hd with rfl | rfl
    all_goals exact {
      vars := by intro v hv; rw [List.mem_singleton.1 hv]; exact ⟨by simp, fun h => by cases h⟩
      op := ⟨_, .rx rfl rfl⟩
      acts := fun a ha => (twoActs ha (by simp [methodLink])).1 }
  refine C121_tests_partial (dirs' := [.rule (methodLink 1 true .requestProtocol b!"HTTP" [⟨.deny, []⟩]), .rule (methodLink 2 false .requestMethod b!"POST" [⟨.log, []⟩])])
    ((C53_exact id _ _).1 (by decide +kernel)) ((C53_exact id _ _).1 (by decide +kernel)) ok (.cons ⟨rfl, List.Perm.swap _ _ _⟩ .nil) ?_ ?_ ops
  · intro p hp v hv
    have hp : p ∈ [methodLink 1 true .requestMethod b!"POST" [⟨.deny, []⟩], methodLink 2 false .requestProtocol b!"HTTP" [⟨.log, []⟩]] := hp
    simp only [List.mem_cons, List.not_mem_nil, or_false] at hp
    rcases hp with rfl | rfl <;> (rw [List.mem_singleton.1 hv]; rfl)
  · intro c hc h4
    have hc : c ∈ [[methodLink 1 true .requestMethod b!"POST" [⟨.deny, []⟩], methodLink 2 false .requestProtocol b!"HTTP" [⟨.log, []⟩]]] := hc
    rw [List.mem_singleton.1 hc] at h4
    exact absurd h4 (by decide)

/-- The chain does refuse. -/
example : textVerdicts lib
    b!"SecRule REQUEST_PROTOCOL \"@rx HTTP\" \"id:1,phase:2,deny,chain\"\nSecRule REQUEST_METHOD \"@rx POST\" \"id:2,phase:2,log\"\n" 9
    [.processRequestURL none b!"POST" b!"HTTP", .processRequestHeader none, .result] = some [true] := by decide +kernel

/-- A chain on the body and the arguments in it. -/
def Sample.bodyQ : List PVar × POp × List TransTok := ([{ tk := .requestBody }], { tk := .rx, arg := b!"evil" }, [])
def Sample.argQ : List PVar × POp × List TransTok := ([{ tk := .argsPost, index := b!"q" }], { tk := .rx, arg := b!"evil" }, [])

example (x y : Bytes) (hsize : x.length + y.length ≤ 131072) : JudgedAlikeOn lib varOrd Sample.ord
    b!"SecRequestBodyAccess On\nSecRule REQUEST_BODY \"@rx evil\" \"id:1,phase:3,deny,chain\"\nSecRule ARGS_POST:q \"@rx evil\" \"id:2,phase:3,log\"\n"
    b!"SecRequestBodyAccess On\nSecRule ARGS_POST:q \"@rx evil\" \"id:1,phase:3,deny,chain\"\nSecRule REQUEST_BODY \"@rx evil\" \"id:2,phase:3,log\"\n" 3
    (formOps x y ++ [.result]) := by
  refine C121_bodies_partial (q := 3) (dirs := [.reqBody true, .rule (formLink 1 true bodyQ [⟨.deny, []⟩]), .rule (formLink 2 false argQ [⟨.log, []⟩])])
    (dirs' := [.reqBody true, .rule (formLink 1 true argQ [⟨.deny, []⟩]), .rule (formLink 2 false bodyQ [⟨.log, []⟩])])
    ((C53_exact id _ _).1 (by decide +kernel)) ((C53_exact id _ _).1 (by decide +kernel)) ?_ rfl (.cons ⟨rfl, List.Perm.swap _ _ _⟩ .nil) ?_
    (by simpa [formOps, sent, chunkOf] using hsize) ?_
  · intro d hd
    simp only [List.mem_cons, List.not_mem_nil, or_false] at hd
    rcases hd with rfl | rfl | rfl
    · trivial
    · exact {
        vars := by intro v hv; rw [List.mem_singleton.1 hv]; exact ⟨by simp, fun h => by cases h⟩
        op := ⟨_, .rx rfl rfl⟩
        acts := fun a ha => (twoActs ha (by simp [formLink])).1 }
    · exact {
        vars := by
          intro v hv
          rw [List.mem_singleton.1 hv]
          exact (formText_ok _ (.tail _ (.head _))).vars _ (.head _)
        op := ⟨_, .rx rfl rfl⟩
        acts := fun a ha => (twoActs ha (by simp [formLink])).1 }
  · intro c hc h4
    have hc : c ∈ [[formLink 1 true bodyQ [⟨.deny, []⟩], formLink 2 false argQ [⟨.log, []⟩]]] := hc
    rw [List.mem_singleton.1 hc] at h4
    exact absurd h4 (by decide)
  · intro c hc _ _
    have hc : c ∈ [[formLink 1 true bodyQ [⟨.deny, []⟩], formLink 2 false argQ [⟨.log, []⟩]]] := hc
    rw [List.mem_singleton.1 hc]
    exact ⟨by decide, (formOps_settled x y).result⟩

end Verif
