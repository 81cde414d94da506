import Verif.Props.PolicyBody
import Verif.Props.More
/-! C115: which rules a text has, and not their order, decides what is refused.  C116: a rule on
several variables is as good as several rules. -/
namespace Verif
open Sample Spec

/-! ### The claims -/

/-- The same chains, in any order and any number. -/
def Spec.SameRules (cs ds : List (List PRule)) : Prop := ∀ c, c ∈ cs ↔ c ∈ ds

/-- No chain skips or allows. -/
def Spec.StrictRules (cs : List (List PRule)) : Prop := ∀ c ∈ cs, ∀ p ∈ c, ∀ a ∈ p.acts.action, Strict a

/-- The rule with other variables. -/
def Spec.PRule.on (p : PRule) (vs : List PVar) : PRule := { p with vars := vs }

/-- `ds` is `cs` with chains replaced by two: one of the rules has some of its variables in the
first, the others in the second.  `R` relates the two lists of variables. -/
inductive Spec.Splits (R : List PVar → List PVar → Prop) : List (List PRule) → List (List PRule) → Prop
  | nil : Splits R [] []
  | same {c : List PRule} {cs ds : List (List PRule)} : Splits R cs ds → Splits R (c :: cs) (c :: ds)
  | split {a b : List PRule} {p : PRule} {vs ws : List PVar} {cs ds : List (List PRule)} : p.vars = vs ++ ws → R vs ws → Splits R cs ds →
      Splits R ((a ++ p :: b) :: cs) ((a ++ PRule.on p vs :: b) :: (a ++ PRule.on p ws :: b) :: ds)

/-- The two texts refuse the same: whatever the calls, each verdict shown is disruptive with
both or with none. -/
def Spec.RefuseAlike (lib : Lib) (vo : VarOrd) (ord : IterOrd) (text text' : Bytes) : Prop :=
  ∀ (set set' : DireSet), DireSet.addSecLangString lib vo [] text = .ok (set, none) → DireSet.addSecLangString lib vo [] text' = .ok (set', none) →
    ∀ (ops : List Op) (n : Nat) (t t' : Tx) (os os' : List Out) (tr tr' : Trace),
      (set.execute newEngine).newTransaction.steps ((set.execute newEngine).env lib ord) (set.execute newEngine).ruleSet n ops = .ok (t, os, tr) →
      (set'.execute newEngine).newTransaction.steps ((set'.execute newEngine).env lib ord) (set'.execute newEngine).ruleSet n ops = .ok (t', os', tr') →
      (shown os).map (·.disruptive) = (shown os').map (·.disruptive)

/-- C115: two texts with the same switches and the same rules, in any order and any number,
none of which skips or allows, refuse the same. -/
def C115_statement : Prop :=
  ∀ (lib : Lib) (vo : VarOrd) (ord : IterOrd) (text text' : Bytes) (dirs dirs' : List PDir), Program text dirs → Program text' dirs' →
    switches dirs = switches dirs' → SameRules (chainsOf (rulesIn dirs)) (chainsOf (rulesIn dirs')) → StrictRules (chainsOf (rulesIn dirs)) →
    RefuseAlike lib vo ord text text'

/-- C116: writing two rules for one, each with some of its variables, makes no difference to
what is refused, if no rule skips or allows. -/
def C116_statement : Prop :=
  ∀ (lib : Lib) (vo : VarOrd) (ord : IterOrd) (text text' : Bytes) (dirs dirs' : List PDir), Program text dirs → Program text' dirs' →
    switches dirs = switches dirs' → Splits (fun _ _ => True) (chainsOf (rulesIn dirs)) (chainsOf (rulesIn dirs')) →
    StrictRules (chainsOf (rulesIn dirs)) → RefuseAlike lib vo ord text text'

/-! ### Two machines with rules that refuse in the same cases -/

section
variable {K : Type} {S : Sight K}

/-- Some chain of phase `q` with a `deny` fires. -/
def Spec.Case (S : Sight K) (cs : List (List PRule)) (k : K) (q : Int) : Prop :=
  ∃ c ∈ cs, chainPhase c = q ∧ Denies c ∧ ∀ p ∈ c, S.holds k p

/-- Two machines that refuse alike and have gone as far. -/
structure Peers (m m' : Mach K) : Prop where
  known : m'.known = m.known
  aborted : m'.aborted = m.aborted
  phase : m'.phase = m.phase
  verdict : m'.verdict.disruptive = m.verdict.disruptive

theorem strict_act_verdict {a : PAct} (h : Strict a) (m : Mach K) :
    (act S m a).verdict.disruptive = true ↔ m.verdict.disruptive = true ∨ a.tk = .deny := by
  cases hk : a.tk <;> simp only [act, hk, say]
  case allow => exact absurd hk h.2
  all_goals simp

theorem strict_acts_verdict : ∀ {as : List PAct}, (∀ a ∈ as, Strict a) → ∀ m : Mach K,
    ((as.foldl (act S) m).verdict.disruptive = true ↔ m.verdict.disruptive = true ∨ ∃ a ∈ as, a.tk = .deny)
  | [], _, _ => by simp
  | a :: as, h, m => by
    have ih := strict_acts_verdict (as := as) (fun b hb => h b (List.mem_cons_of_mem _ hb)) (act S m a)
    rw [strict_act_verdict (h a List.mem_cons_self)] at ih
    simp only [List.foldl_cons, ih, List.mem_cons, exists_eq_or_imp, or_assoc]

theorem mem_inOrder_deny {as : List PAct} : (∃ a ∈ Spec.inOrder as, a.tk = .deny) ↔ ∃ a ∈ as, a.tk = .deny := by
  constructor
  · rintro ⟨a, h, e⟩
    exact ⟨a, mem_inOrder h, e⟩
  · rintro ⟨a, h, e⟩
    refine ⟨a, ?_, e⟩
    simp only [Spec.inOrder, List.mem_flatMap, List.mem_filter]
    exact ⟨3, by simp, h, by simp [turn, e]⟩

theorem strict_fire_verdict : ∀ {c : List PRule}, (∀ p ∈ c, ∀ a ∈ p.acts.action, Strict a) → ∀ m : Mach K,
    ((fire S m c).verdict.disruptive = true ↔ m.verdict.disruptive = true ∨ Denies c)
  | [], _, _ => by simp [fire, Denies]
  | p :: c, h, m => by
    have ih := strict_fire_verdict (c := c) (fun q hq => h q (List.mem_cons_of_mem _ hq)) ((Spec.inOrder p.acts.action).foldl (act S) m)
    rw [strict_acts_verdict (fun a ha => h p List.mem_cons_self a (mem_inOrder ha)), mem_inOrder_deny] at ih
    show ((fire S ((Spec.inOrder p.acts.action).foldl (act S) m) c).verdict.disruptive = true ↔ _)
    rw [ih]
    simp only [Denies, List.mem_cons, exists_eq_or_imp, or_assoc]

/-- What a walk over strict chains comes to. -/
theorem strict_walk {q : Int} : ∀ {cs : List (List PRule)}, StrictRules cs → ∀ (i : Nat) (m : Mach K), m.phase = q →
    (walk S q i false cs m).known = m.known ∧ (walk S q i false cs m).aborted = m.aborted ∧ (walk S q i false cs m).phase = m.phase ∧
      ((walk S q i false cs m).verdict.disruptive = true ↔ m.verdict.disruptive = true ∨ ∃ c ∈ cs, Denies c ∧ ∀ p ∈ c, S.holds m.known p)
  | [], _, _, m, _ => by simp [walk]
  | c :: cs, h, i, m, hq => by
    have hc := h c List.mem_cons_self
    have hcalm : ∀ p ∈ c, ∀ a ∈ p.acts.action, Calm a := fun p hp a ha => strict_calm (hc p hp a ha)
    have ih := fun m => strict_walk (q := q) (cs := cs) (fun c hc => h c (List.mem_cons_of_mem _ hc)) (i + 1) m
    have hf := calm_fire (S := S) hcalm { m with rule := (i : Int) }
    have hfp : (fire S { m with rule := (i : Int) } c).phase = q := (strict_fire (S := S) hc _).trans hq
    have hfv := strict_fire_verdict (S := S) hc { m with rule := (i : Int) }
    have hk : (fire S { m with rule := (i : Int) } c).known = m.known := hf.known
    have ha : (fire S { m with rule := (i : Int) } c).aborted = m.aborted := hf.aborted
    simp only [walk, calm_skips hcalm, List.mem_cons, exists_eq_or_imp]
    by_cases hh : ∀ p ∈ c, S.holds m.known p
    · rw [if_pos hh]
      have hh' : (∀ p ∈ c, S.holds m.known p) ↔ True := iff_true_intro hh
      by_cases hd : (fire S { m with rule := (i : Int) } c).verdict.disruptive = true
      · rw [if_pos (.inl hd)]
        refine ⟨hk, ha, hfp.trans hq.symm, ⟨fun _ => ?_, fun _ => hd⟩⟩
        rcases hfv.1 hd with h | h
        · exact .inl h
        · exact .inr (.inl ⟨h, hh⟩)
      · rw [if_neg (by rw [hfp]; simp [hd])]
        obtain ⟨i1, i2, i3, i4⟩ := ih _ hfp
        refine ⟨i1.trans hk, i2.trans ha, i3.trans (hfp.trans hq.symm), i4.trans ?_⟩
        rw [hk, hfv]
        simp only [hh', and_true, or_assoc]
    · rw [if_neg hh]
      by_cases hd : m.verdict.disruptive = true
      · rw [if_pos hd]
        exact ⟨rfl, rfl, rfl, ⟨fun h => .inl h, fun _ => hd⟩⟩
      · rw [if_neg hd]
        obtain ⟨i1, i2, i3, i4⟩ := ih { m with rule := (i : Int) } hq
        refine ⟨i1, i2, i3, i4.trans ?_⟩
        simp only [hh, and_false, false_or]

theorem peers_call {cs ds : List (List PRule)} (hc : StrictRules cs) (hd : StrictRules ds) (he : ∀ k q, Case S cs k q ↔ Case S ds k q)
    (h5 : ∀ c ∈ cs, 0 ≤ chainPhase c ∧ chainPhase c ≤ 5) (h5' : ∀ c ∈ ds, 0 ≤ chainPhase c ∧ chainPhase c ≤ 5) (op : Op) {m m' : Mach K} (hm : Peers m m') :
    Peers (call S cs m op).1 (call S ds m' op).1 ∧
      ((call S cs m op).2.map (·.disruptive)) = ((call S ds m' op).2.map (·.disruptive)) := by
  obtain ⟨h1, h2, h3, h4⟩ := hm
  have hk : S.learn m'.known op = S.learn m.known op := by rw [h1]
  have low : ∀ (es : List (List PRule)), StrictRules es → (∀ c ∈ es, 0 ≤ chainPhase c ∧ chainPhase c ≤ 5) → ∀ (q : Int) (m : Mach K),
      (walk S q 0 false (es.filter fun c => chainPhase c = q) (goto q m)).known = m.known ∧
      (walk S q 0 false (es.filter fun c => chainPhase c = q) (goto q m)).aborted = m.aborted ∧
      (walk S q 0 false (es.filter fun c => chainPhase c = q) (goto q m)).phase = max 0 (min q 7) ∧
      ((walk S q 0 false (es.filter fun c => chainPhase c = q) (goto q m)).verdict.disruptive = true ↔ m.verdict.disruptive = true ∨ Case S es m.known q) := by
    intro es hs hb q m
    by_cases he : (es.filter fun c => chainPhase c = q) = []
    · rw [he]
      refine ⟨rfl, rfl, rfl, ?_⟩
      simp only [walk]
      refine ⟨fun h => .inl h, fun h => h.elim id fun ⟨c, c1, c2, _⟩ => ?_⟩
      rw [List.filter_eq_nil_iff] at he
      exact absurd c2 (by simpa using he c c1)
    · obtain ⟨c, hcm⟩ := List.exists_mem_of_ne_nil _ he
      obtain ⟨c1, c2⟩ := List.mem_filter.1 hcm
      have := hb c c1
      have c2 : chainPhase c = q := by simpa using c2
      obtain ⟨w1, w2, w3, w4⟩ := strict_walk (S := S) (q := q) (cs := es.filter fun c => chainPhase c = q) (fun c hc => hs c (List.mem_filter.1 hc).1) 0
        (goto q m) (by show max 0 (min q 7) = q; omega)
      refine ⟨w1, w2, w3, w4.trans (or_congr .rfl ?_)⟩
      simp only [Case, List.mem_filter, decide_eq_true_eq]
      exact ⟨fun ⟨c, ⟨a, b⟩, d, e⟩ => ⟨c, a, b, d, e⟩, fun ⟨c, a, b, d, e⟩ => ⟨c, ⟨a, b⟩, d, e⟩⟩
  cases hq : phaseOf op with
  | some q =>
    simp only [call, hq]
    by_cases g1 : q ≤ m.phase
    · rw [if_pos g1, if_pos (show q ≤ m'.phase by rw [h3]; exact g1)]
      exact ⟨⟨hk, h2, h3, h4⟩, rfl⟩
    · rw [if_neg g1, if_neg (show ¬ q ≤ m'.phase by rw [h3]; exact g1)]
      by_cases g2 : m.aborted = true
      · rw [if_pos g2, if_pos (h2.trans g2)]
        exact ⟨⟨hk, h2, rfl, h4⟩, rfl⟩
      · rw [if_neg g2, if_neg (show ¬ m'.aborted = true by rw [h2]; exact g2)]
        obtain ⟨a1, a2, a3, a4⟩ := low cs hc h5 q { m with known := S.learn m.known op }
        obtain ⟨b1, b2, b3, b4⟩ := low ds hd h5' q { m' with known := S.learn m'.known op }
        refine ⟨⟨(b1.trans hk).trans a1.symm, (b2.trans h2).trans a2.symm, b3.trans a3.symm, ?_⟩, rfl⟩
        rw [Bool.eq_iff_iff]
        refine b4.trans (Iff.trans ?_ a4.symm)
        show m'.verdict.disruptive = true ∨ Case S ds (S.learn m'.known op) q ↔ m.verdict.disruptive = true ∨ Case S cs (S.learn m.known op) q
        rw [h4, hk, he]
  | none =>
    cases op <;> simp only [phaseOf, reduceCtorEq] at hq <;> simp only [call, phaseOf, List.map_nil]
    case result =>
      rw [h2]
      refine ⟨?_, by simp [h4]⟩
      split
      · exact ⟨hk, rfl, h3, h4⟩
      · exact ⟨hk, rfl, h3, rfl⟩
    case intervention => exact ⟨⟨hk, h2, h3, h4⟩, by simp [h4]⟩
    case resetIntervention => exact ⟨⟨hk, h2, h3, rfl⟩, trivial⟩
    case abortWithStatus => exact ⟨⟨hk, rfl, h3, rfl⟩, trivial⟩
    case abortWithError => exact ⟨⟨hk, rfl, h3, rfl⟩, trivial⟩
    case jumpToPhase i => exact ⟨⟨hk, h2, rfl, h4⟩, trivial⟩
    case nextPhase => exact ⟨⟨hk, h2, by simp only [goto, h3], h4⟩, trivial⟩
    all_goals exact ⟨⟨hk, h2, h3, h4⟩, trivial⟩

theorem peers_run {cs ds : List (List PRule)} (hc : StrictRules cs) (hd : StrictRules ds) (he : ∀ k q, Case S cs k q ↔ Case S ds k q)
    (h5 : ∀ c ∈ cs, 0 ≤ chainPhase c ∧ chainPhase c ≤ 5) (h5' : ∀ c ∈ ds, 0 ≤ chainPhase c ∧ chainPhase c ≤ 5) : ∀ (ops : List Op) {m m' : Mach K},
    Peers m m' → (Spec.run S cs m ops).2.map (·.disruptive) = (Spec.run S ds m' ops).2.map (·.disruptive)
  | [], _, _, _ => rfl
  | op :: ops, _, _, hm => by
    obtain ⟨g1, g2⟩ := peers_call (S := S) hc hd he h5 h5' op hm
    simp only [Spec.run, List.map_append, g2, peers_run hc hd he h5 h5' ops g1]

end

/-! ### Two texts -/

/-- Both texts load, and whatever the calls `ops`, the verdicts shown are disruptive with both
or with none. -/
def Spec.AlikeOn (lib : Lib) (vo : VarOrd) (ord : IterOrd) (text text' : Bytes) (N : Nat) (ops : List Op) : Prop :=
  ∃ set set', DireSet.addSecLangString lib vo [] text = .ok (set, none) ∧ DireSet.addSecLangString lib vo [] text' = .ok (set', none) ∧
    ∀ n ≥ N, ∃ t t' os os' tr tr',
      (set.execute newEngine).newTransaction.steps ((set.execute newEngine).env lib ord) (set.execute newEngine).ruleSet n ops = .ok (t, os, tr) ∧
      (set'.execute newEngine).newTransaction.steps ((set'.execute newEngine).env lib ord) (set'.execute newEngine).ruleSet n ops = .ok (t', os', tr') ∧
      (shown os).map (·.disruptive) = (shown os').map (·.disruptive)

/-- Every chain of `ds` comes from one of `cs`, up to the order and number of variables. -/
def StemsFrom (cs ds : List (List PRule)) : Prop :=
  ∀ d ∈ ds, ∃ c ∈ cs, chainPhase d = chainPhase c ∧ ∀ p' ∈ d, ∃ p ∈ c, p'.acts = p.acts ∧ p'.op = p.op ∧ ∀ v ∈ p'.vars, v ∈ p.vars

theorem StemsFrom.rule {dirs dirs' : List PDir} (h : StemsFrom (chainsOf (rulesIn dirs)) (chainsOf (rulesIn dirs'))) {p' : PRule} (hp : p' ∈ rulesIn dirs') :
    ∃ p ∈ rulesIn dirs, p'.acts = p.acts ∧ p'.op = p.op ∧ ∀ v ∈ p'.vars, v ∈ p.vars := by
  obtain ⟨d, d1, d2⟩ := in_chain hp
  obtain ⟨c, c1, _, c2⟩ := h d d1
  obtain ⟨p, p1, p2⟩ := c2 p' d2
  exact ⟨p, mem_chainsOf c1 p1, p2⟩

theorem StemsFrom.ok {lib : Lib} {dirs dirs' : List PDir} (h : StemsFrom (chainsOf (rulesIn dirs)) (chainsOf (rulesIn dirs'))) (hok : ∀ d ∈ dirs, DirOk lib d) :
    ∀ d ∈ dirs', DirOk lib d := by
  intro d hd
  cases d with
  | rule p' =>
    obtain ⟨p, h1, h2, h3, h4⟩ := h.rule (mem_rulesIn.2 hd)
    have := hok _ (mem_rulesIn.1 h1)
    exact ⟨fun v hv => this.vars v (h4 v hv), h3 ▸ this.op, h2 ▸ this.acts⟩
  | _ => exact trivial

theorem StemsFrom.strict {cs ds : List (List PRule)} (h : StemsFrom cs ds) (hc : StrictRules cs) : StrictRules ds := by
  intro d hd p' hp
  obtain ⟨c, c1, _, c2⟩ := h d hd
  obtain ⟨p, p1, p2, _⟩ := c2 p' hp
  rw [p2]
  exact hc c c1 p p1

theorem strict_noReturn {cs : List (List PRule)} (h : StrictRules cs) : NoReturn cs :=
  calm_noReturn fun c hc p hp a ha => strict_calm (h c hc p hp a ha)

/-- The larger number of chains, and two. -/
def Spec.enough (dirs dirs' : List PDir) : Nat := max (chainsOf (rulesIn dirs)).length (chainsOf (rulesIn dirs')).length + 2

theorem told_alike {lib : Lib} {vo : VarOrd} {ord : IterOrd} {text text' : Bytes} {dirs dirs' : List PDir} (ht : Program text dirs) (ht' : Program text' dirs')
    (hok : ∀ d ∈ dirs, DirOk lib d) (hst : StemsFrom (chainsOf (rulesIn dirs)) (chainsOf (rulesIn dirs')))
    (hv : ∀ p ∈ rulesIn dirs, ∀ v ∈ p.vars, readsBody v.tk = false) (hs : StrictRules (chainsOf (rulesIn dirs)))
    (he : ∀ k q, Case (toldSight lib) (chainsOf (rulesIn dirs)) k q ↔ Case (toldSight lib) (chainsOf (rulesIn dirs')) k q) (ops : List Op) :
    AlikeOn lib vo ord text text' (enough dirs dirs') ops := by
  obtain ⟨set, h1, h2⟩ := C87_machine (vo := vo) (ord := ord) ht hok hv (strict_noReturn hs)
  obtain ⟨set', h1', h2'⟩ := C87_machine (vo := vo) (ord := ord) ht' (hst.ok hok) (fun p' hp v hv' => by
    obtain ⟨p, p1, _, _, p4⟩ := hst.rule hp
    exact hv p p1 v (p4 v hv')) (strict_noReturn (hst.strict hs))
  refine ⟨set, set', h1, h1', fun n hn => ?_⟩
  obtain ⟨t, os, tr, g1, g2⟩ := h2 ops n (by simp only [enough] at hn; omega)
  obtain ⟨t', os', tr', g1', g2'⟩ := h2' ops n (by simp only [enough] at hn; omega)
  refine ⟨t, t', os, os', tr, tr', g1, g1', ?_⟩
  rw [g2, g2']
  exact peers_run hs (hst.strict hs) he (fun c h => ⟨chain_low ht h, chain_five ht h⟩) (fun c h => ⟨chain_low ht' h, chain_five ht' h⟩) ops ⟨rfl, rfl, rfl, rfl⟩

theorem switches_filterMap {α : Type} {f : PDir → Option α} (hf : ∀ p, f (.rule p) = none) : ∀ ds : List PDir, (switches ds).filterMap f = ds.filterMap f
  | [] => rfl
  | d :: ds => by
    have ih := switches_filterMap hf ds
    cases d <;> simp_all [switches, List.filterMap_cons]

theorem switches_access {dirs dirs' : List PDir} (h : switches dirs = switches dirs') : reqAccess dirs = reqAccess dirs' ∧ respAccess dirs = respAccess dirs' := by
  simp only [reqAccess, respAccess]
  rw [← switches_filterMap (fun _ => rfl) dirs, ← switches_filterMap (fun _ => rfl) dirs', ← switches_filterMap (fun _ => rfl) dirs,
    ← switches_filterMap (fun _ => rfl) dirs', h]
  exact ⟨rfl, rfl⟩

theorem body_alike {lib : Lib} {vo : VarOrd} {ord : IterOrd} {text text' : Bytes} {dirs dirs' : List PDir} (ht : Program text dirs) (ht' : Program text' dirs')
    (hok : ∀ d ∈ dirs, DirOk lib d) (hsw : switches dirs = switches dirs') (hst : StemsFrom (chainsOf (rulesIn dirs)) (chainsOf (rulesIn dirs')))
    (hs : StrictRules (chainsOf (rulesIn dirs))) (he : ∀ k q, Case (bodySight lib (reqAccess dirs) (respAccess dirs)) (chainsOf (rulesIn dirs)) k q ↔
      Case (bodySight lib (reqAccess dirs) (respAccess dirs)) (chainsOf (rulesIn dirs')) k q) {ops : List Op} {q : Int} (hsize : (sent false ops).length ≤ 131072)
    (hform : ∀ c ∈ chainsOf (rulesIn dirs), 1 ≤ chainPhase c → (∃ p ∈ c, ∃ v ∈ p.vars, readsArgs v.tk = true) → q ≤ chainPhase c ∧ FormSettled lib q ops) :
    AlikeOn lib vo ord text text' (enough dirs dirs') ops := by
  obtain ⟨set, h1, h2⟩ := C88_machine (vo := vo) (ord := ord) ht hok (strict_noReturn hs)
  obtain ⟨set', h1', h2'⟩ := C88_machine (vo := vo) (ord := ord) ht' (hst.ok hok) (strict_noReturn (hst.strict hs))
  refine ⟨set, set', h1, h1', fun n hn => ?_⟩
  obtain ⟨t, os, tr, g1, g2⟩ := h2 hsize hform n (by simp only [enough] at hn; omega)
  obtain ⟨t', os', tr', g1', g2'⟩ := h2' (q := q) hsize (fun d hd h1 ⟨p', hp, v, hv, ha⟩ => by
    obtain ⟨c, c1, c2, c3⟩ := hst d hd
    obtain ⟨p, p1, _, _, p4⟩ := c3 p' hp
    rw [c2] at h1 ⊢
    exact hform c c1 h1 ⟨p, p1, v, p4 v hv, ha⟩) n (by simp only [enough] at hn; omega)
  refine ⟨t, t', os, os', tr, tr', g1, g1', ?_⟩
  obtain ⟨e1, e2⟩ := switches_access hsw
  rw [g2, g2', ← e1, ← e2]
  exact peers_run hs (hst.strict hs) he (fun c h => ⟨chain_low ht h, chain_five ht h⟩) (fun c h => ⟨chain_low ht' h, chain_five ht' h⟩) ops ⟨rfl, rfl, rfl, rfl⟩

/-! ### C115 -/

theorem Spec.SameRules.stems {cs ds : List (List PRule)} (h : SameRules cs ds) : StemsFrom cs ds :=
  fun d hd => ⟨d, (h d).2 hd, rfl, fun p hp => ⟨p, hp, rfl, rfl, fun _ h => h⟩⟩

theorem Spec.SameRules.case {K : Type} {S : Sight K} {cs ds : List (List PRule)} (h : SameRules cs ds) (k : K) (q : Int) : Case S cs k q ↔ Case S ds k q := by
  simp only [Case, h _]

/-- C115, for rules that read no body.  Missing: bodies, see below. -/
theorem C115_order_partial {lib : Lib} {vo : VarOrd} {ord : IterOrd} {text text' : Bytes} {dirs dirs' : List PDir} (ht : Program text dirs)
    (ht' : Program text' dirs') (hok : ∀ d ∈ dirs, DirOk lib d) (h : SameRules (chainsOf (rulesIn dirs)) (chainsOf (rulesIn dirs')))
    (hv : ∀ p ∈ rulesIn dirs, ∀ v ∈ p.vars, readsBody v.tk = false) (hs : StrictRules (chainsOf (rulesIn dirs))) (ops : List Op) :
    AlikeOn lib vo ord text text' (enough dirs dirs') ops :=
  told_alike ht ht' hok h.stems hv hs h.case ops

/-- C115 with bodies of up to 131072 bytes, if rules read arguments from the body only once the
form is settled, and well-formed.  Missing: larger bodies, malformed forms; for multipart
forms see `Props/FormLaws.lean`. -/
theorem C115_bodies_partial {lib : Lib} {vo : VarOrd} {ord : IterOrd} {text text' : Bytes} {dirs dirs' : List PDir} (ht : Program text dirs)
    (ht' : Program text' dirs') (hok : ∀ d ∈ dirs, DirOk lib d) (hsw : switches dirs = switches dirs') (h : SameRules (chainsOf (rulesIn dirs)) (chainsOf (rulesIn dirs')))
    (hs : StrictRules (chainsOf (rulesIn dirs))) {ops : List Op} {q : Int} (hsize : (sent false ops).length ≤ 131072)
    (hform : ∀ c ∈ chainsOf (rulesIn dirs), 1 ≤ chainPhase c → (∃ p ∈ c, ∃ v ∈ p.vars, readsArgs v.tk = true) → q ≤ chainPhase c ∧ FormSettled lib q ops) :
    AlikeOn lib vo ord text text' (enough dirs dirs') ops :=
  body_alike ht ht' hok hsw h.stems hs h.case hsize hform

/-! ### C116 -/

/-- No variable is in both lists, counted in both or in none. -/
def Spec.NoneShared (vs ws : List PVar) : Prop := ∀ v ∈ vs, ∀ w ∈ ws, (v.tk, v.count) ≠ (w.tk, w.count)

theorem selectors_append (vs ws : List PVar) (tk : VarTok) (b : Bool) : selectors (vs ++ ws) tk b = selectors vs tk b ++ selectors ws tk b := by
  simp [selectors]

theorem selectors_none {ws : List PVar} {tk : VarTok} {b : Bool} (h : ∀ w ∈ ws, (tk, b) ≠ (w.tk, w.count)) : selectors ws tk b = [] := by
  simp only [selectors, List.map_eq_nil_iff, List.filter_eq_nil_iff, decide_eq_true_eq, not_and]
  intro w hw h1 h2
  exact absurd (by rw [h1, h2]) (h w hw)

theorem holds_split {lib : Lib} {L : (Bytes → Prop) → List Bytes → VarTok → Prop} {p : PRule} {vs ws : List PVar} (hp : p.vars = vs ++ ws) (h : NoneShared vs ws) :
    HoldsBy lib L p ↔ HoldsBy lib L (PRule.on p vs) ∨ HoldsBy lib L (PRule.on p ws) := by
  have e1 : ∀ v ∈ vs, selectors p.vars v.tk v.count = selectors vs v.tk v.count := by
    intro v hv
    rw [hp, selectors_append, selectors_none (ws := ws) (fun w hw => h v hv w hw), List.append_nil]
  have e2 : ∀ w ∈ ws, selectors p.vars w.tk w.count = selectors ws w.tk w.count := by
    intro w hw
    rw [hp, selectors_append, selectors_none (ws := vs) (fun v hv => Ne.symm (h v hv w hw)), List.nil_append]
  simp only [HoldsBy, PRule.on, TestedBy]
  constructor
  · rintro ⟨v, hv, y, ⟨vals, h1, h2⟩, h3⟩
    rw [hp, List.mem_append] at hv
    rcases hv with hv | hv
    · exact .inl ⟨v, hv, y, ⟨vals, (e1 v hv) ▸ h1, h2⟩, h3⟩
    · exact .inr ⟨v, hv, y, ⟨vals, (e2 v hv) ▸ h1, h2⟩, h3⟩
  · rintro (⟨v, hv, y, ⟨vals, h1, h2⟩, h3⟩ | ⟨v, hv, y, ⟨vals, h1, h2⟩, h3⟩)
    · exact ⟨v, by rw [hp]; exact List.mem_append_left _ hv, y, ⟨vals, (e1 v hv).symm ▸ h1, h2⟩, h3⟩
    · exact ⟨v, by rw [hp]; exact List.mem_append_right _ hv, y, ⟨vals, (e2 v hv).symm ▸ h1, h2⟩, h3⟩

theorem chainPhase_on (a b : List PRule) (p : PRule) (vs : List PVar) : chainPhase (a ++ PRule.on p vs :: b) = chainPhase (a ++ p :: b) := by
  cases a <;> rfl

theorem denies_on (a b : List PRule) (p : PRule) (vs : List PVar) : Denies (a ++ PRule.on p vs :: b) ↔ Denies (a ++ p :: b) := by
  simp only [Denies, List.mem_append, List.mem_cons, or_and_right, exists_or, exists_eq_left]
  rfl

theorem Spec.Splits.stems {R : List PVar → List PVar → Prop} {cs ds : List (List PRule)} (h : Splits R cs ds) : StemsFrom cs ds := by
  induction h with
  | nil => intro d hd; cases hd
  | @same c cs ds _ ih =>
    intro d hd
    rcases List.mem_cons.1 hd with rfl | hd
    · exact ⟨d, List.mem_cons_self, rfl, fun p hp => ⟨p, hp, rfl, rfl, fun _ h => h⟩⟩
    · obtain ⟨c', h1, h2⟩ := ih d hd
      exact ⟨c', List.mem_cons_of_mem _ h1, h2⟩
  | @split a b p vs ws cs ds hp _ _ ih =>
    have part : ∀ us : List PVar, (∀ v ∈ us, v ∈ p.vars) → ∀ p' ∈ a ++ PRule.on p us :: b,
        ∃ p0 ∈ a ++ p :: b, p'.acts = p0.acts ∧ p'.op = p0.op ∧ ∀ v ∈ p'.vars, v ∈ p0.vars := by
      intro us hus p' hp'
      rcases List.mem_append.1 hp' with h | h
      · exact ⟨p', List.mem_append_left _ h, rfl, rfl, fun _ h => h⟩
      · rcases List.mem_cons.1 h with rfl | h
        · exact ⟨p, List.mem_append_right _ List.mem_cons_self, rfl, rfl, hus⟩
        · exact ⟨p', List.mem_append_right _ (List.mem_cons_of_mem _ h), rfl, rfl, fun _ h => h⟩
    intro d hd
    rcases List.mem_cons.1 hd with rfl | hd
    · exact ⟨_, List.mem_cons_self, chainPhase_on a b p vs, part vs fun v hv => hp ▸ List.mem_append_left _ hv⟩
    · rcases List.mem_cons.1 hd with rfl | hd
      · exact ⟨_, List.mem_cons_self, chainPhase_on a b p ws, part ws fun v hv => hp ▸ List.mem_append_right _ hv⟩
      · obtain ⟨c', h1, h2⟩ := ih d hd
        exact ⟨c', List.mem_cons_of_mem _ h1, h2⟩

theorem Spec.Splits.case {K : Type} {S : Sight K} {lib : Lib} {L : K → (Bytes → Prop) → List Bytes → VarTok → Prop} (hS : ∀ k p, S.holds k p ↔ HoldsBy lib (L k) p)
    {cs ds : List (List PRule)} (h : Splits NoneShared cs ds) (k : K) (q : Int) : Case S cs k q ↔ Case S ds k q := by
  induction h with
  | nil => exact .rfl
  | same _ ih =>
    simp only [Case, List.mem_cons, exists_eq_or_imp] at ih ⊢
    rw [ih]
  | @split a b p vs ws cs ds hp hn _ ih =>
    have hh : (∀ r ∈ a ++ p :: b, S.holds k r) ↔ (∀ r ∈ a ++ PRule.on p vs :: b, S.holds k r) ∨ ∀ r ∈ a ++ PRule.on p ws :: b, S.holds k r := by
      have := holds_split (lib := lib) (L := L k) hp hn
      simp only [List.mem_append, List.mem_cons, hS]
      grind
    simp only [Case, List.mem_cons, exists_eq_or_imp] at ih ⊢
    rw [ih, chainPhase_on, chainPhase_on, denies_on, denies_on, hh]
    grind

/-- C116, for rules that read no body, each variable being in one of the two lists only.
Missing: bodies, see below. -/
theorem C116_split_partial {lib : Lib} {vo : VarOrd} {ord : IterOrd} {text text' : Bytes} {dirs dirs' : List PDir} (ht : Program text dirs)
    (ht' : Program text' dirs') (hok : ∀ d ∈ dirs, DirOk lib d) (h : Splits NoneShared (chainsOf (rulesIn dirs)) (chainsOf (rulesIn dirs')))
    (hv : ∀ p ∈ rulesIn dirs, ∀ v ∈ p.vars, readsBody v.tk = false) (hs : StrictRules (chainsOf (rulesIn dirs))) (ops : List Op) :
    AlikeOn lib vo ord text text' (enough dirs dirs') ops :=
  told_alike ht ht' hok h.stems hv hs (fun k q => h.case (lib := lib) (L := Lists lib) (fun _ _ => .rfl) k q) ops

/-- C116 with bodies of up to 131072 bytes, if rules read arguments from the body only once the
form is settled, and well-formed.  Missing: larger bodies, malformed forms; for multipart
forms see `Props/FormLaws.lean`. -/
theorem C116_bodies_partial {lib : Lib} {vo : VarOrd} {ord : IterOrd} {text text' : Bytes} {dirs dirs' : List PDir} (ht : Program text dirs)
    (ht' : Program text' dirs') (hok : ∀ d ∈ dirs, DirOk lib d) (hsw : switches dirs = switches dirs')
    (h : Splits NoneShared (chainsOf (rulesIn dirs)) (chainsOf (rulesIn dirs')))
    (hs : StrictRules (chainsOf (rulesIn dirs))) {ops : List Op} {q : Int} (hsize : (sent false ops).length ≤ 131072)
    (hform : ∀ c ∈ chainsOf (rulesIn dirs), 1 ≤ chainPhase c → (∃ p ∈ c, ∃ v ∈ p.vars, readsArgs v.tk = true) → q ≤ chainPhase c ∧ FormSettled lib q ops) :
    AlikeOn lib vo ord text text' (enough dirs dirs') ops :=
  body_alike ht ht' hok hsw h.stems hs (fun k q => h.case (fun _ _ => .rfl) k q) hsize hform

/-! ### The refutations -/

theorem alike_verdicts {lib : Lib} {text text' : Bytes} (h : RefuseAlike lib varOrd Sample.ord text text') {n : Nat} {ops : List Op} {a b : List Bool}
    (h1 : textVerdicts lib text n ops = some a) (h2 : textVerdicts lib text' n ops = some b) : a = b := by
  simp only [textVerdicts] at h1 h2
  split at h1
  · rename_i set e1
    split at h1
    · rename_i t os tr r1
      split at h2
      · rename_i set' e2
        split at h2
        · rename_i t' os' tr' r2
          simp only [Option.some.injEq] at h1 h2
          rw [← h1, ← h2]
          exact h set set' e1 e2 ops n t t' os os' tr tr' r1 r2
        · cases h2
      · cases h2
    · cases h1
  · cases h1

/-- Two rules on the arguments of a form. -/
def Sample.countRule0 : PRule :=
  { vars := [{ tk := .argsPost, index := [], exclusion := false, count := true }], op := { not := false, tk := .eq, arg := b!"0" },
    acts := { id := 1, phase := 3, chain := false, trans := [], action := [⟨.deny, []⟩] } }

def Sample.lookRule : PRule :=
  { vars := [{ tk := .argsPost, index := [], exclusion := false, count := false }], op := { not := false, tk := .rx, arg := b!"z" },
    acts := { id := 2, phase := 3, chain := false, trans := [], action := [⟨.log, []⟩] } }

/-- A malformed form. -/
def Sample.badForm : List Op :=
  [.processRequestURL none b!"POST" [], .processRequestHeader (some [(b!"Content-Type", [b!"application/x-www-form-urlencoded"])]),
    .appendRequestBody b!"a=1&b=%" {}, .processRequestBody, .result]

/-- Which of two rules comes first matters if they read a malformed form: it shows nothing when
first read, and what could be read of it from then on. -/
theorem C115_refuted : ¬ C115_statement := by
  intro h
  have p1 : Program b!"SecRequestBodyAccess On\nSecRule &ARGS_POST \"@eq 0\" \"id:1,phase:3,deny\"\nSecRule ARGS_POST \"@rx z\" \"id:2,phase:3,log\"\n"
    [.reqBody true, .rule countRule0, .rule lookRule] := (C53_exact id _ _).1 (by decide +kernel)
  have p2 : Program b!"SecRequestBodyAccess On\nSecRule ARGS_POST \"@rx z\" \"id:2,phase:3,log\"\nSecRule &ARGS_POST \"@eq 0\" \"id:1,phase:3,deny\"\n"
    [.reqBody true, .rule lookRule, .rule countRule0] := (C53_exact id _ _).1 (by decide +kernel)
  have := alike_verdicts (h mediaLib varOrd Sample.ord _ _ _ _ p1 p2 rfl
    (by
      intro c
      show c ∈ [[countRule0], [lookRule]] ↔ c ∈ [[lookRule], [countRule0]]
      simp only [List.mem_cons, List.not_mem_nil, or_false]
      exact Or.comm)
    (by
      intro c hc p hp a ha
      have hc : c ∈ [[countRule0], [lookRule]] := hc
      simp only [List.mem_cons, List.not_mem_nil, or_false] at hc
      rcases hc with rfl | rfl <;> rw [List.mem_singleton.1 hp] at ha <;> rw [List.mem_singleton.1 ha] <;> exact ⟨nofun, nofun⟩))
    (n := 9) (ops := badForm) (a := [true]) (b := [false]) (by decide +kernel) (by decide +kernel)
  cases this

/-- A rule on the headers but one. -/
def Sample.butOne : PRule :=
  { vars := [{ tk := .requestHeaders, index := [], exclusion := false, count := false },
      { tk := .requestHeaders, index := b!"Referer", exclusion := true, count := false }],
    op := { not := false, tk := .rx, arg := b!"evil" }, acts := { id := 1, phase := 2, chain := false, trans := [], action := [⟨.deny, []⟩] } }

/-- An exclusion belongs to the variables of the same rule only. -/
theorem C116_refuted : ¬ C116_statement := by
  intro h
  have p1 : Program b!"SecRule REQUEST_HEADERS|!REQUEST_HEADERS:Referer \"@rx evil\" \"id:1,phase:2,deny\"\n" [.rule butOne] :=
    (C53_exact id _ _).1 (by decide +kernel)
  have p2 : Program b!"SecRule REQUEST_HEADERS \"@rx evil\" \"id:1,phase:2,deny\"\nSecRule !REQUEST_HEADERS:Referer \"@rx evil\" \"id:1,phase:2,deny\"\n"
    [.rule (PRule.on butOne [{ tk := .requestHeaders, index := [], exclusion := false, count := false }]),
      .rule (PRule.on butOne [{ tk := .requestHeaders, index := b!"Referer", exclusion := true, count := false }])] := (C53_exact id _ _).1 (by decide +kernel)
  have := alike_verdicts (h lib varOrd Sample.ord _ _ _ _ p1 p2 rfl (.split (a := []) (b := []) rfl trivial .nil)
    (by
      intro c hc p hp a ha
      have hc : c ∈ [[butOne]] := hc
      rw [List.mem_singleton.1 hc] at hp
      rw [List.mem_singleton.1 hp] at ha
      rw [List.mem_singleton.1 ha]
      exact ⟨nofun, nofun⟩))
    (n := 9) (ops := [.processRequestHeader (some [(b!"Referer", [b!"evil"])]), .result]) (a := [false]) (b := [true]) (by decide +kernel) (by decide +kernel)
  cases this

/-! ### Examples -/

theorem Sample.twoActs {as : List PAct} {a : PAct} (h : a ∈ as) (hs : as = [⟨.deny, []⟩] ∨ as = [⟨.log, []⟩]) : ActOk a ∧ Strict a := by
  rcases hs with rfl | rfl <;> rw [List.mem_singleton.1 h]
  · exact ⟨.inl ⟨_, .deny⟩, nofun, nofun⟩
  · exact ⟨.inl ⟨_, .log⟩, nofun, nofun⟩

/-- A rule that refuses and one that logs, and the other way round, with the first twice. -/
example (ops : List Op) : AlikeOn lib varOrd Sample.ord
    b!"SecRule REQUEST_METHOD \"@rx POST\" \"id:1,phase:2,deny\"\nSecRule REQUEST_METHOD \"@rx GET\" \"id:2,phase:2,log\"\n"
    b!"SecRule REQUEST_METHOD \"@rx GET\" \"id:2,phase:2,log\"\nSecRule REQUEST_METHOD \"@rx POST\" \"id:1,phase:2,deny\"\nSecRule REQUEST_METHOD \"@rx POST\" \"id:1,phase:2,deny\"\n"
    5 ops :=
  C115_order_partial (dirs := [methodIs 1 false b!"POST" [⟨.deny, []⟩], methodIs 2 false b!"GET" [⟨.log, []⟩]].map .rule)
    (dirs' := [methodIs 2 false b!"GET" [⟨.log, []⟩], methodIs 1 false b!"POST" [⟨.deny, []⟩], methodIs 1 false b!"POST" [⟨.deny, []⟩]].map .rule)
    ((C53_exact id _ _).1 (by decide +kernel)) ((C53_exact id _ _).1 (by decide +kernel))
    (by
      intro d hd
      simp only [List.map_cons, List.map_nil, List.mem_cons, List.not_mem_nil, or_false] at hd
      rcases hd with rfl | rfl <;> exact methodIs_ok fun a ha => (twoActs ha (by simp)).1)
    (by
      intro c
      show c ∈ [[methodIs 1 false b!"POST" [⟨.deny, []⟩]], [methodIs 2 false b!"GET" [⟨.log, []⟩]]] ↔
        c ∈ [[methodIs 2 false b!"GET" [⟨.log, []⟩]], [methodIs 1 false b!"POST" [⟨.deny, []⟩]], [methodIs 1 false b!"POST" [⟨.deny, []⟩]]]
      simp only [List.mem_cons, List.not_mem_nil, or_false, or_self]
      exact Or.comm)
    (by
      intro p hp v hv
      have hp : p ∈ [methodIs 1 false b!"POST" [⟨.deny, []⟩], methodIs 2 false b!"GET" [⟨.log, []⟩]] := hp
      simp only [List.mem_cons, List.not_mem_nil, or_false] at hp
      rcases hp with rfl | rfl <;> (rw [List.mem_singleton.1 hv]; rfl))
    (by
      intro c hc p hp a ha
      have hc : c ∈ [[methodIs 1 false b!"POST" [⟨.deny, []⟩]], [methodIs 2 false b!"GET" [⟨.log, []⟩]]] := hc
      simp only [List.mem_cons, List.not_mem_nil, or_false] at hc
      rcases hc with rfl | rfl <;> (rw [List.mem_singleton.1 hp] at ha; exact (twoActs ha (by simp [methodIs])).2))
    ops

/-- They do refuse. -/
example : textVerdicts lib
    b!"SecRule REQUEST_METHOD \"@rx POST\" \"id:1,phase:2,deny\"\nSecRule REQUEST_METHOD \"@rx GET\" \"id:2,phase:2,log\"\n" 9 postOps = some [true] := by
  decide +kernel

/-- A rule on the method and the URL. -/
def Sample.bothRule : PRule :=
  { vars := [{ tk := .requestMethod, index := [], exclusion := false, count := false }, { tk := .requestUri, index := [], exclusion := false, count := false }],
    op := { not := false, tk := .rx, arg := b!"POST" }, acts := { id := 1, phase := 2, chain := false, trans := [], action := [⟨.deny, []⟩] } }

/-- It may be written as two. -/
example (ops : List Op) : AlikeOn lib varOrd Sample.ord
    b!"SecRule REQUEST_METHOD|REQUEST_URI \"@rx POST\" \"id:1,phase:2,deny\"\n"
    b!"SecRule REQUEST_METHOD \"@rx POST\" \"id:1,phase:2,deny\"\nSecRule REQUEST_URI \"@rx POST\" \"id:1,phase:2,deny\"\n" 4 ops :=
  C116_split_partial (dirs := [.rule bothRule])
    (dirs' := [.rule (PRule.on bothRule [{ tk := .requestMethod, index := [], exclusion := false, count := false }]),
      .rule (PRule.on bothRule [{ tk := .requestUri, index := [], exclusion := false, count := false }])])
    ((C53_exact id _ _).1 (by decide +kernel)) ((C53_exact id _ _).1 (by decide +kernel))
    (by
      intro d hd
      rw [List.mem_singleton.1 hd]
      exact {
        vars := by
          intro v hv
          simp only [bothRule, List.mem_cons, List.not_mem_nil, or_false] at hv
          rcases hv with rfl | rfl <;> exact ⟨by simp, fun h => by cases h⟩
        op := ⟨_, .rx rfl rfl⟩
        acts := fun a ha => (twoActs ha (by simp [bothRule])).1 })
    (.split (a := []) (b := []) rfl (by intro v hv w hw; rw [List.mem_singleton.1 hv, List.mem_singleton.1 hw]; decide) .nil)
    (by
      intro p hp v hv
      have hp : p = bothRule := by simpa using (show p ∈ [bothRule] from hp)
      subst hp
      simp only [bothRule, List.mem_cons, List.not_mem_nil, or_false] at hv
      rcases hv with rfl | rfl <;> rfl)
    (by
      intro c hc p hp a ha
      have hc : c = [bothRule] := by simpa using (show c ∈ [[bothRule]] from hc)
      subst hc
      rw [List.mem_singleton.1 hp] at ha
      exact (twoActs ha (by simp [bothRule])).2)
    ops

/-- The rule on a form, once and twice. -/
example (x y : Bytes) (hsize : x.length + y.length ≤ 131072) : AlikeOn lib varOrd Sample.ord formText
    (formText ++ b!"SecRule ARGS_POST:q \"@rx evil\" \"id:1,phase:3,deny\"\n") 4 (formOps x y ++ [.result]) :=
  C115_bodies_partial (dirs' := formDirs ++ [.rule formRule]) (q := 3) formText_program ((C53_exact id _ _).1 (by decide +kernel)) formText_ok rfl
    (by
      intro c
      show c ∈ [[formRule]] ↔ c ∈ [[formRule], [formRule]]
      simp)
    (by
      intro c hc p hp a ha
      have hc : c = [formRule] := by simpa using (show c ∈ [[formRule]] from hc)
      subst hc
      rw [List.mem_singleton.1 hp] at ha
      exact (twoActs ha (by simp [formRule])).2)
    (by simpa [formOps, sent, chunkOf] using hsize)
    (by
      intro c hc _ _
      have hc : c = [formRule] := by simpa using (show c ∈ [[formRule]] from hc)
      subst hc
      exact ⟨by decide, (formOps_settled x y).result⟩)

/-- A rule on a form and the method. -/
def Sample.formBoth : PRule := { formRule with vars := [{ tk := .argsPost, index := b!"q" }, { tk := .requestMethod, index := [] }] }

/-- It may be written as two. -/
example (x y : Bytes) (hsize : x.length + y.length ≤ 131072) : AlikeOn lib varOrd Sample.ord
    b!"SecRequestBodyAccess On\nSecRule ARGS_POST:q|REQUEST_METHOD \"@rx evil\" \"id:1,phase:3,deny\"\n"
    b!"SecRequestBodyAccess On\nSecRule ARGS_POST:q \"@rx evil\" \"id:1,phase:3,deny\"\nSecRule REQUEST_METHOD \"@rx evil\" \"id:1,phase:3,deny\"\n" 4
    (formOps x y ++ [.result]) :=
  C116_bodies_partial (q := 3) (dirs := [.reqBody true, .rule formBoth])
    (dirs' := [.reqBody true, .rule (PRule.on formBoth [{ tk := .argsPost, index := b!"q" }]), .rule (PRule.on formBoth [{ tk := .requestMethod, index := [] }])])
    ((C53_exact id _ _).1 (by decide +kernel)) ((C53_exact id _ _).1 (by decide +kernel))
    (by
      intro d hd
      simp only [List.mem_cons, List.not_mem_nil, or_false] at hd
      rcases hd with rfl | rfl
      · trivial
      · exact {
          vars := by
            intro v hv
            simp only [formBoth, List.mem_cons, List.not_mem_nil, or_false] at hv
            rcases hv with rfl | rfl
            · exact (formText_ok _ (.tail _ (.head _))).vars _ (.head _)
            · exact ⟨by simp, fun h => by cases h⟩
          op := ⟨_, .rx rfl rfl⟩
          acts := fun a ha => (twoActs ha (by simp [formBoth, formRule])).1 })
    rfl
    (.split (a := []) (b := []) rfl (by intro v hv w hw; rw [List.mem_singleton.1 hv, List.mem_singleton.1 hw]; decide) .nil)
    (by
      intro c hc p hp a ha
      have hc : c = [formBoth] := by simpa using (show c ∈ [[formBoth]] from hc)
      subst hc
      rw [List.mem_singleton.1 hp] at ha
      exact (twoActs ha (by simp [formBoth, formRule])).2)
    (by simpa [formOps, sent, chunkOf] using hsize)
    (by
      intro c hc _ _
      have hc : c = [formBoth] := by simpa using (show c ∈ [[formBoth]] from hc)
      subst hc
      exact ⟨by decide, (formOps_settled x y).result⟩)

end Verif
