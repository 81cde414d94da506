import Verif.Props.Retold
import Verif.Props.Alternatives
/-! C148: a test that everything passes asks whether there is anything. -/
namespace Verif
open Sample Spec

/-- The rule `p` tests one variable, with a test that every value passes; `p'` counts that variable
and refuses the count 0 only.  Phase, chaining and actions are the same (but for those that only
describe). -/
structure Spec.CountsAny (lib : Lib) (p p' : PRule) : Prop where
  one : ∃ tk, ∀ v ∈ p.vars, v.tk = tk ∧ v.count = false
  vars : p'.vars = p.vars.map fun v => { v with count := true }
  phase : p'.acts.phase = p.acts.phase
  chain : p'.acts.chain = p.acts.chain
  actions : (p'.acts.action.filter fun a => (metaName a.tk).isNone) = p.acts.action.filter fun a => (metaName a.tk).isNone
  always : ∀ s, Passes lib p s
  positive : ∀ n : Nat, Passes lib p' (itoa n) ↔ 0 < n

/-- A directive that is the same or counts instead. -/
inductive Spec.CountsDir (lib : Lib) : PDir → PDir → Prop
  | rule {p p' : PRule} : CountsAny lib p p' → CountsDir lib (.rule p) (.rule p')
  | same {d : PDir} : CountsDir lib d d

/-! ### Rules that agree -/

/-- The rules match in the same transactions, with the same changes, and act the same. -/
structure AgreesRule (lib : Lib) (r r' : Rule) : Prop where
  matched : ∀ (env : Env) (t : Tx), env.lib = lib → r'.matches env t = r.matches env t
  actions : r'.actions = r.actions

structure AgreesChain (lib : Lib) (r r' : Rule) : Prop extends AgreesRule lib r r' where
  subs : Pairs (AgreesRule lib) r.subRules r'.subRules

structure AgreesSet (lib : Lib) (rs rs' : RuleSet) : Prop where
  rules : ∀ q, Pairs (AgreesChain lib) (rs.phases q) (rs'.phases q)
  defaults : rs'.defaultActions = rs.defaultActions

theorem AgreesRule.refl {lib : Lib} (r : Rule) : AgreesRule lib r r := ⟨fun _ _ _ => rfl, rfl⟩

theorem AgreesChain.refl {lib : Lib} (r : Rule) : AgreesChain lib r r := ⟨.refl r, pairs_refl AgreesRule.refl _⟩

theorem agrees_subs {env : Env} {ss ss' : List Rule} (h : Pairs (AgreesRule env.lib) ss ss') : ∀ t : Tx, matchSubs env ss' t = matchSubs env ss t := by
  induction h with
  | nil => intro t; rfl
  | cons h1 _ ih => intro t; simp only [matchSubs, h1.matched env _ rfl, ih]

theorem AgreesSet.length {lib : Lib} {rs rs' : RuleSet} (h : AgreesSet lib rs rs') (q : Int) : (rs'.phases q).length = (rs.phases q).length :=
  (h.rules q).length_eq.symm

theorem AgreesSet.act {lib : Lib} {rs rs' : RuleSet} (h : AgreesSet lib rs rs') : ∀ n, Action.run rs' n = Action.run rs n
  | 0 => by
    funext a t
    cases a <;> simp only [Action.run, skipDo, h.length]
  | n + 1 => by
    funext a t
    cases a <;> simp only [Action.run, skipDo, h.length, h.defaults, h.act n]

theorem agrees_subActions {lib : Lib} {rs rs' : RuleSet} (h : AgreesSet lib rs rs') {ss ss' : List Rule} (hs : Pairs (AgreesRule lib) ss ss') (n : Nat) :
    ∀ t : Tx, subActions rs' n ss' t = subActions rs n ss t := by
  induction hs with
  | nil => intro t; rfl
  | cons h1 _ ih => intro t; simp only [subActions, h1.actions, h.act, ih]

theorem AgreesSet.run {env : Env} {rs rs' : RuleSet} (h : AgreesSet env.lib rs rs') {r r' : Rule} (hr : AgreesChain env.lib r r') (n : Nat) (t : Tx) :
    r'.run env rs' n t = r.run env rs n t := by
  simp only [Rule.run, hr.matched env _ rfl, agrees_subs hr.subs, hr.actions, h.act, agrees_subActions h hr.subs]

theorem AgreesSet.process {env : Env} {rs rs' : RuleSet} (h : AgreesSet env.lib rs rs') (n : Nat) (t : Tx) (q i : Int) :
    rs'.process env n t q i = rs.process env n t q i := by
  simp only [RuleSet.process, h.length]
  by_cases h1 : ((rs.phases q).length : Int) > i
  · rw [if_pos h1, if_pos h1]
    by_cases h2 : i < 0
    · rw [if_pos h2, if_pos h2]
    · rw [if_neg h2, if_neg h2]
      rcases (h.rules q).get i.toNat with ⟨e1, e2⟩ | ⟨a, b, e1, e2, e3⟩
      · rw [e1, e2]
      · rw [e1, e2]
        exact h.run e3 n t
  · rw [if_neg h1, if_neg h1]

theorem AgreesSet.loop {env : Env} {rs rs' : RuleSet} (h : AgreesSet env.lib rs rs') (q : Int) : ∀ (n : Nat) (i : Int) (t : Tx),
    processLoop env rs' q n i t = processLoop env rs q n i t
  | 0, _, _ => rfl
  | n + 1, i, t => by simp only [processLoop, h.process, h.length, h.loop q n]

theorem AgreesSet.step {env : Env} {rs rs' : RuleSet} (h : AgreesSet env.lib rs rs') (n : Nat) (t : Tx) (op : Op) :
    t.step env rs' n op = t.step env rs n op := by
  have hp : ∀ q t, processPhase env rs' n q t = processPhase env rs n q t := fun q t => by simp only [processPhase, processPhase', h.length, h.loop]
  cases op <;> simp only [Tx.step, hp, h.length]

theorem AgreesSet.steps {env : Env} {rs rs' : RuleSet} (h : AgreesSet env.lib rs rs') (n : Nat) : ∀ (ops : List Op) (t : Tx),
    t.steps env rs' n ops = t.steps env rs n ops
  | [], _ => rfl
  | op :: ops, t => by simp only [Tx.steps, h.step, h.steps n ops]

/-! ### Counting -/

theorem matches_passes {env : Env} {p : PRule} {r : Rule} (h : RuleMeans env.lib p r) (t : Tx) {ys : List (Tx × Bytes)} {u : Tx}
    (hy : fetchRaw env r.vars t = .ok (ys, u)) {b : Bool} (hb : b = true ↔ u.abort = false ∧ ∃ y ∈ ys, Passes env.lib p y.2) : r.matches env t = .ok (b, u) := by
  obtain ⟨op, o1, o2⟩ := h.op
  have key : ∀ y : Tx × Bytes, Passes env.lib p y.2 ↔ r.not ≠ op.run u (pipe env.lib y.1 r.trans y.2) := fun y => by
    have := passes_takes h.not h.trans o1 o2 y.1 u y.2 true
    simp only [Rule.Takes, o1, Option.some.injEq, exists_eq_left', true_iff] at this
    rw [← this]
    cases r.not <;> cases op.run u (pipe env.lib y.1 r.trans y.2) <;> decide
  simp only [Rule.matches, fetchVars_raw, hy, Res.bind, matchLoop_iff o1]
  congr 2
  rw [Bool.eq_iff_iff, hb, decide_eq_true_eq]
  simp only [List.mem_map, key]
  grind

theorem matchLoop_subs (r : Rule) (ss : List Rule) (t : Tx) : ∀ vals, matchLoop { r with subRules := ss } t vals = matchLoop r t vals
  | [] => rfl
  | v :: vals => by simp only [matchLoop, matchLoop_subs r ss t vals]

theorem matches_subs {env : Env} {r : Rule} {ss : List Rule} {t : Tx} : { r with subRules := ss }.matches env t = r.matches env t := by
  simp only [Rule.matches, fetchVars_raw, matchLoop_subs]

theorem nodup_only {α : Type} {a : α} : ∀ {l : List α}, l.Nodup → (∀ x ∈ l, x = a) → a ∈ l → l = [a]
  | [], _, _, h => nomatch h
  | [x], _, h, _ => by rw [h x (.head _)]
  | x :: y :: l, hn, h, _ => by
    rw [h x (.head _), h y (.tail _ (.head _))] at hn
    exact absurd (.head _) (List.nodup_cons.1 hn).1

theorem selectors_counted (tk : VarTok) : ∀ {vs : List PVar}, (∀ v ∈ vs, v.count = false) →
    selectors (vs.map fun v => { v with count := true }) tk true = selectors vs tk false
  | [], _ => rfl
  | v :: vs, h => by
    have ih := selectors_counted tk (vs := vs) fun w hw => h w (.tail _ hw)
    have hv := h v (.head _)
    simp only [selectors, List.map_cons, List.filter_cons, hv] at ih ⊢
    split
    · rw [List.map_cons, List.map_cons, ih]; rfl
    · exact ih

theorem Spec.CountsAny.variable {lib : Lib} {p p' : PRule} (h : CountsAny lib p p') {r r' : Rule} (hr : RuleMeans lib p r) (hr' : RuleMeans lib p' r') :
    (r.vars = [] ∧ r'.vars = []) ∨ ∃ y, r.vars = [y] ∧ r'.vars = [.count y] := by
  obtain ⟨tk, ho⟩ := h.one
  obtain ⟨ks, k1, k2, k3⟩ := hr.vars
  obtain ⟨ks', k1', k2', k3'⟩ := hr'.vars
  rw [h.vars] at k2' k3'
  cases hp : p.vars with
  | nil =>
    rw [hp] at k2 k2'
    have e : ks = [] := List.eq_nil_iff_forall_not_mem.2 fun k hk => by obtain ⟨_, hv, _⟩ := (k2 k).1 hk; cases hv
    have e' : ks' = [] := List.eq_nil_iff_forall_not_mem.2 fun k hk => by obtain ⟨_, hv, _⟩ := (k2' k).1 hk; cases hv
    subst e e'
    generalize r.vars = xs at k3
    generalize r'.vars = xs' at k3'
    cases k3
    cases k3'
    exact .inl ⟨rfl, rfl⟩
  | cons v vs =>
    have hv : v ∈ p.vars := hp ▸ .head _
    have e : ks = [(tk, false)] := nodup_only k1 (fun k hk => by
      obtain ⟨w, hw, rfl⟩ := (k2 k).1 hk
      rw [(ho w hw).1, (ho w hw).2]) ((k2 _).2 ⟨v, hv, by rw [(ho v hv).1, (ho v hv).2]⟩)
    have e' : ks' = [(tk, true)] := nodup_only k1' (fun k hk => by
      obtain ⟨w, hw, rfl⟩ := (k2' k).1 hk
      obtain ⟨w0, hw0, rfl⟩ := List.mem_map.1 hw
      simp only [(ho w0 hw0).1]) ((k2' _).2 ⟨_, List.mem_map_of_mem hv, by simp only [(ho v hv).1]⟩)
    subst e e'
    generalize r.vars = xs at k3
    generalize r'.vars = xs' at k3'
    rcases k3 with _ | ⟨c1, c2⟩
    rcases c2
    rcases k3' with _ | ⟨c1', c2'⟩
    rcases c2'
    obtain ⟨f, y, g1, g2, g3⟩ := c1
    obtain ⟨f', y', g1', g2', g3'⟩ := c1'
    simp only [Bool.false_eq_true, if_false, if_true] at g1 g2 g3 g1' g2' g3'
    rw [selectors_counted tk fun w hw => (ho w hw).2] at g1'
    have e : y' = y := by
      cases hs : Selectable tk with
      | true =>
        have := g1 hs
        rw [g1' hs] at this
        cases this
        rw [g2] at g2'
        exact (Option.some.inj g2').symm
      | false => cases tk <;> simp [Selectable] at hs <;> simp [variableOf] at g2 g2' <;> rw [← g2, ← g2']
    exact .inr ⟨y, by rw [g3], by rw [g3', e]⟩

theorem Spec.CountsAny.agrees {lib : Lib} {p p' : PRule} (h : CountsAny lib p p') {r r' : Rule} (hr : RuleMeans lib p r) (hr' : RuleMeans lib p' r') :
    AgreesChain lib r r' := by
  refine ⟨⟨fun env t he => ?_, ?_⟩, ?_⟩
  · subst he
    rcases h.variable hr hr' with ⟨e, e'⟩ | ⟨y, e, e'⟩
    · rw [matches_passes hr t (b := false) (by rw [e]; rfl) (by simp), matches_passes hr' t (b := false) (by rw [e']; rfl) (by simp)]
    · cases hf : y.fetch env t with
      | ok x =>
        obtain ⟨vals, u⟩ := x
        have f1 : fetchRaw env r.vars t = .ok (vals.map (fun x => (u, x)), u) := by rw [e]; simp [fetchRaw, hf, Res.bind]
        have f2 : fetchRaw env r'.vars t = .ok ([(u, itoa vals.length)], u) := by rw [e']; simp [fetchRaw, Var.fetch, hf, Res.bind]
        rw [matches_passes hr t (b := decide (u.abort = false ∧ 0 < vals.length)) f1, matches_passes hr' t (b := decide (u.abort = false ∧ 0 < vals.length)) f2]
        · simp [h.positive]
        · simp only [decide_eq_true_eq, List.mem_map, h.always, and_true]
          cases vals <;> simp
      | panic => simp [Rule.matches, fetchVars_raw, fetchRaw, e, e', Var.fetch, hf, Res.bind]
      | fuel => simp [Rule.matches, fetchVars_raw, fetchRaw, e, e', Var.fetch, hf, Res.bind]
  · have a' := hr'.actions
    rw [h.actions] at a'
    exact pairs_det (R := ActMeans) (fun {_ _ _} h h' => actMeans_det h h') hr.actions a'
  · rw [hr.subRules, hr'.subRules]
    exact .nil

/-! ### Texts -/

inductive AgreesDire (lib : Lib) : Dire → Dire → Prop
  | rule {r r' : Rule} {c c' : Bool} : AgreesChain lib r r' → r'.phase = r.phase → AgreesDire lib (.rule r c) (.rule r' c')
  | reqBody {b : Bool} : AgreesDire lib (.reqBody b) (.reqBody b)
  | resBody {b : Bool} : AgreesDire lib (.resBody b) (.resBody b)
  | ruleEng {v : Int} : AgreesDire lib (.ruleEng v) (.ruleEng v)

theorem counts_addDirs {lib : Lib} {vo : VarOrd} {dirs dirs' : List PDir} (h : Pairs (CountsDir lib) dirs dirs') (hok : ∀ d ∈ dirs, DirOk lib d)
    (hok' : ∀ d ∈ dirs', DirOk lib d) : ∀ {set set' : DireSet} (parent : Option Nat), Pairs (AgreesDire lib) set set' →
    ∃ out out', addDirs lib vo dirs set parent = (out, none) ∧ addDirs lib vo dirs' set' parent = (out', none) ∧ Pairs (AgreesDire lib) out out' := by
  induction h with
  | nil => intro set set' parent hs; exact ⟨_, _, rfl, rfl, hs⟩
  | @cons d d' ds ds' h1 _ ih =>
    intro set set' parent hs
    have ih := @ih (fun x hx => hok x (List.mem_cons_of_mem _ hx)) (fun x hx => hok' x (List.mem_cons_of_mem _ hx))
    have ok := hok d List.mem_cons_self
    have ok' := hok' d' List.mem_cons_self
    have rules : ∀ {p p' : PRule} {r r' : Rule}, loadRule lib vo p = .ok (.rule r p.acts.chain) → loadRule lib vo p' = .ok (.rule r' p.acts.chain) →
        AgreesChain lib r r' → r'.phase = r.phase → ∃ out out', addDirs lib vo (.rule p :: ds) set parent = (out, none) ∧
        addDirs lib vo (.rule p' :: ds') set' parent = (out', none) ∧ Pairs (AgreesDire lib) out out' := by
      intro p p' r r' e1 e2 e3 e4
      simp only [addDirs, direFactory, e1, e2]
      cases parent with
      | some i =>
        refine ih _ (hs.modify (fun {a b} hab => ?_) i)
        cases hab with
        | @rule r0 r0' _ _ g1 g2 =>
          refine .rule ⟨⟨fun env t he => ?_, g1.actions⟩, g1.subs.append (.cons e3.toAgreesRule .nil)⟩ g2
          rw [matches_subs, matches_subs]
          exact g1.matched env t he
        | reqBody => exact .reqBody
        | resBody => exact .resBody
        | ruleEng => exact .ruleEng
      | none =>
        simp only
        rw [hs.length_eq]
        exact ih _ (hs.append (.cons (.rule e3 e4) .nil))
    cases h1 with
    | @rule p p' hp =>
      rcases loadRule_spec lib vo p with ⟨_, r, h1, h2⟩ | ⟨hn, _⟩
      · rcases loadRule_spec lib vo p' with ⟨_, r', h1', h2'⟩ | ⟨hn, _⟩
        · exact rules h1 (hp.chain ▸ h1') (hp.agrees h2 h2') (by rw [h2'.phase, h2.phase, hp.phase])
        · exact absurd ok' hn
      · exact absurd ok hn
    | same =>
      cases d with
      | rule p =>
        rcases loadRule_spec lib vo p with ⟨_, r, h1, _⟩ | ⟨hn, _⟩
        · exact rules h1 h1 (.refl r) rfl
        · exact absurd ok hn
      | ruleEng v => exact ih _ (hs.append (.cons .ruleEng .nil))
      | reqBody b => exact ih _ (hs.append (.cons .reqBody .nil))
      | resBody b => exact ih _ (hs.append (.cons .resBody .nil))

structure AgreesEngine (lib : Lib) (e e' : Engine) : Prop where
  limits : e'.limits = e.limits
  enabled : e'.enabled = e.enabled
  detectionOnly : e'.detectionOnly = e.detectionOnly
  ruleSet : AgreesSet lib e.ruleSet e'.ruleSet

theorem agrees_addRule {lib : Lib} {rs rs' : RuleSet} (h : AgreesSet lib rs rs') {r r' : Rule} (hr : AgreesChain lib r r') (hp : r'.phase = r.phase) :
    AgreesSet lib (rs.addRule r) (rs'.addRule r') := by
  simp only [RuleSet.addRule, hp]
  split
  · exact h
  · refine ⟨fun q => ?_, h.defaults⟩
    show Pairs _ (if q = r.phase then _ else _) (if q = r.phase then _ else _)
    split
    · exact (h.rules _).append (.cons hr .nil)
    · exact h.rules q

theorem agrees_execute {lib : Lib} {set set' : DireSet} (h : Pairs (AgreesDire lib) set set') : ∀ {e e' : Engine}, AgreesEngine lib e e' →
    AgreesEngine lib (set.execute e) (set'.execute e') := by
  induction h with
  | nil => intro e e' he; exact he
  | cons h1 _ ih =>
    intro e e' he
    refine ih ?_
    obtain ⟨l, a, b, rs⟩ := he
    cases h1 with
    | rule g1 g2 => exact ⟨l, a, b, agrees_addRule rs g1 g2⟩
    | reqBody => exact ⟨by simp only [Dire.execute, l], a, b, rs⟩
    | resBody => exact ⟨by simp only [Dire.execute, l], a, b, rs⟩
    | ruleEng =>
      simp only [Dire.execute, execRuleEng, Engine.enable]
      refine ⟨?_, ?_, ?_, ?_⟩ <;> (repeat' split) <;> first | exact l | exact a | exact b | exact rs | rfl

/-- C148.  Two texts, directive by directive the same but that rules with a test that every value
passes count their variable instead, do the same on every engine: both load, leave the engine with
the same switches, and every sequence of calls on a transaction has the same results, log lines,
panics and evaluated rules.  Bodies of any size, malformed forms and failing temporary files are
included. -/
theorem C148_present {lib : Lib} {vo : VarOrd} {ord : IterOrd} {text text' : Bytes} {dirs dirs' : List PDir} (ht : Program text dirs) (ht' : Program text' dirs')
    (h : Pairs (CountsDir lib) dirs dirs') (hok : ∀ d ∈ dirs, DirOk lib d) (hok' : ∀ d ∈ dirs', DirOk lib d) (e : Engine) :
    ∃ set set', DireSet.addSecLangString lib vo [] text = .ok (set, none) ∧ DireSet.addSecLangString lib vo [] text' = .ok (set', none) ∧
      (set'.execute e).enabled = (set.execute e).enabled ∧ (set'.execute e).detectionOnly = (set.execute e).detectionOnly ∧
      (set'.execute e).limits = (set.execute e).limits ∧
      ∀ (n : Nat) (ops : List Op),
        (set'.execute e).newTransaction.steps ((set'.execute e).env lib ord) (set'.execute e).ruleSet n ops =
          (set.execute e).newTransaction.steps ((set.execute e).env lib ord) (set.execute e).ruleSet n ops := by
  obtain ⟨out, out', h1, h2, h3⟩ := counts_addDirs (vo := vo) h hok hok' (set := []) (set' := []) none .nil
  have he := agrees_execute h3 (e := e) (e' := e) ⟨rfl, rfl, rfl, ⟨fun _ => pairs_refl AgreesChain.refl _, rfl⟩⟩
  refine ⟨out, out', ?_, ?_, he.enabled, he.detectionOnly, he.limits, fun n ops => ?_⟩
  · simp only [DireSet.addSecLangString, (C53_exact lib.lowerHi _ _).2 ht, Res.bind, h1]
  · simp only [DireSet.addSecLangString, (C53_exact lib.lowerHi _ _).2 ht', Res.bind, h2]
  · simp only [Engine.newTransaction, Engine.env, he.limits]
    exact AgreesSet.steps (env := { lib, ord, limits := (out.execute e).limits }) he.ruleSet n ops _

/-! ### Tests that everything passes, and counts -/

theorem itoa_zero (n : Nat) : itoa n = b!"0" ↔ n = 0 := by
  constructor
  · intro h
    obtain ⟨ds, _, ⟨h1, h2⟩ | ⟨h1, _⟩ | ⟨h1, _⟩⟩ := itoa_decimal n
    · rw [← h1, h] at h2
      have : (digitSum b!"0" : Int) = 0 := by decide
      omega
    · rw [h] at h1; cases h1
    · rw [h] at h1; cases h1
  · rintro rfl; decide +kernel

/-- The rule that counts: everything but the count 0 passes, where `z` is a pattern for `0`. -/
def Spec.counting (p : PRule) (z : Bytes) : PRule where
  vars := p.vars.map fun v => { v with count := true }
  op := { not := true, tk := .rx, arg := z }
  acts := { p.acts with trans := [] }

theorem counting_any {lib : Lib} {p : PRule} (one : ∃ tk, ∀ v ∈ p.vars, v.tk = tk ∧ v.count = false) (always : ∀ s, Passes lib p s) {z : Bytes} {h : Bytes → Bool}
    (hz : lib.rx z = some h) (hh : ∀ s, h s = true ↔ s = b!"0") : CountsAny lib p (counting p z) where
  one := one
  vars := rfl
  phase := rfl
  chain := rfl
  actions := rfl
  always := always
  positive n := by
    simp only [Passes, counting, List.map_nil, pipe, Bool.true_eq_false, iff_false]
    rw [accepts_rx (o := { not := true, tk := .rx, arg := z }) rfl hz, hh, itoa_zero]
    omega

/-- A pattern that matches everything asks whether there is anything. -/
theorem C148_patterns {lib : Lib} {p : PRule} (one : ∃ tk, ∀ v ∈ p.vars, v.tk = tk ∧ v.count = false) (hp : p.op.tk = .rx) (hnot : p.op.not = false) {f : Bytes → Bool}
    (hf : lib.rx p.op.arg = some f) (hall : ∀ s, f s = true) {z : Bytes} {h : Bytes → Bool} (hz : lib.rx z = some h) (hh : ∀ s, h s = true ↔ s = b!"0") :
    CountsAny lib p (counting p z) :=
  counting_any one (fun s => by simp only [Passes, hnot, accepts_rx hp hf, hall]) hz hh

/-- So does the comparison with the smallest number. -/
theorem C148_smallest {lib : Lib} {p : PRule} (one : ∃ tk, ∀ v ∈ p.vars, v.tk = tk ∧ v.count = false) (hp : p.op.tk = .ge) (hnot : p.op.not = false)
    (hn : Numeral p.op.arg (-2 ^ 63)) {z : Bytes} {h : Bytes → Bool} (hz : lib.rx z = some h) (hh : ∀ s, h s = true ↔ s = b!"0") :
    CountsAny lib p (counting p z) :=
  counting_any one (fun s => by
    simp only [Passes, hnot, iff_true]
    rw [accepts_cmp (k := .ge) (by rw [hp]; rfl) hn]
    simp only [Cmp, comparedAs]
    cases h : parseInt (trimSpace (pipe lib (newTransaction newDefaultLimits) (List.map transOf p.acts.trans) s)) with
    | none => simp
    | some v =>
      have := ((parseInt_iff _ _).1 h).2.1
      simpa using this) hz hh

/-! ### Examples -/

/-- A rule that refuses whatever arguments there are in the body. -/
def Sample.anyPost : PRule where
  vars := [{ tk := .argsPost }]
  op := { tk := .ge, arg := b!"-9223372036854775808" }
  acts := { id := 1, phase := 3, trans := [.lowercase], action := [⟨.deny, []⟩] }

theorem Sample.smallest : Numeral b!"-9223372036854775808" (-2 ^ 63) := (parse_trim_iff _ _).1 (by decide +kernel)

theorem Sample.anyPost_counts : CountsAny mediaLib anyPost (counting anyPost b!"0") :=
  C148_smallest ⟨.argsPost, fun v hv => by rw [List.mem_singleton.1 hv]; exact ⟨rfl, rfl⟩⟩ rfl rfl smallest (h := fun s => s == b!"0") rfl (by simp)

theorem Sample.anyPost_ok {p : PRule} (hv : ∃ c, p.vars = [{ tk := .argsPost, count := c }]) (ho : OpOk mediaLib p.op) (ha : p.acts.action = [⟨.deny, []⟩]) :
    ∀ d ∈ [PDir.reqBody true, .rule p], DirOk mediaLib d := by
  intro d hd
  simp only [List.mem_cons, List.not_mem_nil, or_false] at hd
  rcases hd with rfl | rfl
  · trivial
  · exact {
      vars := by
        obtain ⟨c, hv⟩ := hv
        intro w hw
        rw [hv] at hw
        rw [List.mem_singleton.1 hw]
        exact ⟨by simp, fun _ re hre => absurd ⟨re, hre⟩ (notRegex rfl)⟩
      op := ho
      acts := by intro a h; rw [ha] at h; rw [List.mem_singleton.1 h]; exact .inl ⟨_, .deny⟩ }

/-- Counting the arguments of the body instead. -/
example (vo : VarOrd) (ord : IterOrd) :
    ∃ set set', DireSet.addSecLangString mediaLib vo [] b!"SecRequestBodyAccess On\nSecRule ARGS_POST \"@ge -9223372036854775808\" \"id:1,phase:3,t:lowercase,deny\"\n" = .ok (set, none) ∧
      DireSet.addSecLangString mediaLib vo [] b!"SecRequestBodyAccess On\nSecRule &ARGS_POST \"!@rx 0\" \"id:1,phase:3,deny\"\n" = .ok (set', none) ∧
      ∀ (n : Nat) (ops : List Op),
        (set'.execute newEngine).newTransaction.steps ((set'.execute newEngine).env mediaLib ord) (set'.execute newEngine).ruleSet n ops =
          (set.execute newEngine).newTransaction.steps ((set.execute newEngine).env mediaLib ord) (set.execute newEngine).ruleSet n ops := by
  obtain ⟨set, set', h1, h2, _, _, _, h3⟩ := C148_present (vo := vo) (ord := ord)
    (text := b!"SecRequestBodyAccess On\nSecRule ARGS_POST \"@ge -9223372036854775808\" \"id:1,phase:3,t:lowercase,deny\"\n")
    (text' := b!"SecRequestBodyAccess On\nSecRule &ARGS_POST \"!@rx 0\" \"id:1,phase:3,deny\"\n") (dirs := [.reqBody true, .rule anyPost])
    (dirs' := [.reqBody true, .rule (counting anyPost b!"0")]) ((C53_exact id _ _).1 (by decide +kernel)) ((C53_exact id _ _).1 (by decide +kernel))
    (.cons .same (.cons (.rule anyPost_counts) .nil))
    (anyPost_ok ⟨_, rfl⟩ ⟨.cmp ⟨.ge, -2 ^ 63, b!"-9223372036854775808"⟩, .cmp rfl smallest
      ⟨trimSpace_is_trimmed b!"-9223372036854775808", [], [], rfl, ⟨[], by simp, rfl⟩, ⟨[], by simp, rfl⟩⟩⟩ rfl)
    (anyPost_ok ⟨_, rfl⟩ ⟨_, .rx rfl rfl⟩ rfl) newEngine
  exact ⟨set, set', h1, h2, h3⟩

/-- A form is refused, no form is not; a form with an error shows nothing when first read. -/
example : [[], [b!"a=1"], [b!"a=1&b=%"]].map (fun cs => textVerdicts mediaLib b!"SecRequestBodyAccess On\nSecRule &ARGS_POST \"!@rx 0\" \"id:1,phase:3,deny\"\n" 9
    ([.processRequestURL none b!"POST" [], .processRequestHeader (some [(b!"Content-Type", [b!"application/x-www-form-urlencoded"])])] ++
      cs.map (.appendRequestBody · {}) ++ [.processRequestBody, .result])) = [some [false], some [true], some [false]] := by decide +kernel

/-- A test that some values fail is another question. -/
example : textVerdicts lib b!"SecRule REQUEST_HEADERS \"@ge 1\" \"id:1,phase:2,deny\"\n" 9 [.processRequestHeader (some [(b!"A", [b!"x"])]), .result] = some [false] ∧
    textVerdicts lib b!"SecRule &REQUEST_HEADERS \"!@rx 0\" \"id:1,phase:2,deny\"\n" 9 [.processRequestHeader (some [(b!"A", [b!"x"])]), .result] = some [true] := by
  decide +kernel

end Verif
