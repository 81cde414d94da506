import Verif.Props.Laws
import Verif.Props.Site
import Verif.Props.Transforms
/-! C120: a rule may be replaced by one that tests the same and acts the same. -/
namespace Verif
open Sample Spec

/-! ### Rules that test the same -/

/-- Whether the operator accepts the transformed value `s`, or with `!` does not: `t` is the
transaction when the value is transformed, `u` when the operator is applied. -/
def Spec.Rule.Takes (lib : Lib) (r : Rule) (t u : Tx) (s : Bytes) (yes : Bool) : Prop :=
  ∃ op, r.op = some op ∧ yes = (r.not != op.run u (pipe lib t r.trans s))

/-- The rules have the same variables and the same actions, and take the same values. -/
structure Spec.SameTest (lib : Lib) (r r' : Rule) : Prop where
  vars : r'.vars = r.vars
  actions : r'.actions = r.actions
  takes : ∀ t u s yes, Rule.Takes lib r t u s yes ↔ Rule.Takes lib r' t u s yes

/-- So do the rules chained to them. -/
structure Spec.SameChain (lib : Lib) (r r' : Rule) : Prop extends SameTest lib r r' where
  subs : Pairs (SameTest lib) r.subRules r'.subRules

/-- Two rule sets with such rules at the same places, and the same default actions. -/
structure Spec.SameSet (lib : Lib) (rs rs' : RuleSet) : Prop where
  rules : ∀ q, Pairs (SameChain lib) (rs.phases q) (rs'.phases q)
  defaults : rs'.defaultActions = rs.defaultActions

/-- The values of variables, each with the transaction when it is transformed. -/
def fetchRaw (env : Env) : List Var → Tx → Res (List (Tx × Bytes) × Tx)
  | [], t => .ok ([], t)
  | v :: vs, t => (v.fetch env t).bind fun (xs, t) => (fetchRaw env vs t).bind fun (ys, u) => .ok (xs.map (fun x => (t, x)) ++ ys, u)

theorem fetchVars_raw (env : Env) (r : Rule) : ∀ (vs : List Var) (t : Tx),
    fetchVars env r vs t = (fetchRaw env vs t).bind fun (ys, u) => .ok (ys.map fun y => pipe env.lib y.1 r.trans y.2, u)
  | [], _ => rfl
  | v :: vs, t => by
    simp only [fetchVars, Rule.transformVariable, fetchRaw]
    cases v.fetch env t with
    | ok x =>
      obtain ⟨xs, t1⟩ := x
      simp only [Res.bind]
      rw [fetchVars_raw env r vs t1]
      cases fetchRaw env vs t1 with
      | ok y => simp [Res.bind, transformString_eq, Function.comp_def]
      | panic => rfl
      | fuel => rfl
    | panic => rfl
    | fuel => rfl

theorem Spec.SameTest.loop {lib : Lib} {r r' : Rule} (h : SameTest lib r r') (u : Tx) : ∀ ys : List (Tx × Bytes),
    matchLoop r' u (ys.map fun y => pipe lib y.1 r'.trans y.2) = matchLoop r u (ys.map fun y => pipe lib y.1 r.trans y.2)
  | [] => rfl
  | y :: ys => by
    have ht := h.takes y.1 u y.2
    simp only [Rule.Takes] at ht
    simp only [List.map_cons, matchLoop, h.loop u ys]
    cases ho : r.op with
    | none =>
      cases ho' : r'.op with
      | none => rfl
      | some op' =>
        rw [ho, ho'] at ht
        obtain ⟨op, e, _⟩ := (ht _).2 ⟨op', rfl, rfl⟩
        cases e
    | some op =>
      obtain ⟨op', e', e2⟩ := (ht _).1 ⟨op, ho, rfl⟩
      rw [e']
      simp only [e2]

theorem Spec.SameTest.matches {env : Env} {r r' : Rule} (h : SameTest env.lib r r') (t : Tx) : r'.matches env t = r.matches env t := by
  simp only [Rule.matches, fetchVars_raw, h.vars]
  cases fetchRaw env r.vars t with
  | ok x => simp only [Res.bind, h.loop]
  | panic => rfl
  | fuel => rfl

theorem same_matchSubs {env : Env} {ss ss' : List Rule} (h : Pairs (SameTest env.lib) ss ss') : ∀ t : Tx, matchSubs env ss' t = matchSubs env ss t := by
  induction h with
  | nil => intro t; rfl
  | cons h1 _ ih => intro t; simp only [matchSubs, h1.matches, ih]

theorem Spec.SameSet.length {lib : Lib} {rs rs' : RuleSet} (h : SameSet lib rs rs') (q : Int) : (rs'.phases q).length = (rs.phases q).length :=
  (h.rules q).length_eq.symm

theorem Spec.SameSet.act {lib : Lib} {rs rs' : RuleSet} (h : SameSet lib rs rs') : ∀ n, Action.run rs' n = Action.run rs n
  | 0 => by
    funext a t
    cases a <;> simp only [Action.run, skipDo, h.length]
  | n + 1 => by
    funext a t
    cases a <;> simp only [Action.run, skipDo, h.length, h.defaults, h.act n]

theorem same_subActions {lib : Lib} {rs rs' : RuleSet} (h : SameSet lib rs rs') {ss ss' : List Rule} (hs : Pairs (SameTest lib) ss ss') (n : Nat) :
    ∀ t : Tx, subActions rs' n ss' t = subActions rs n ss t := by
  induction hs with
  | nil => intro t; rfl
  | cons h1 _ ih => intro t; simp only [subActions, h1.actions, h.act, ih]

theorem Spec.SameSet.run {env : Env} {rs rs' : RuleSet} (h : SameSet env.lib rs rs') {r r' : Rule} (hr : SameChain env.lib r r') (n : Nat) (t : Tx) :
    r'.run env rs' n t = r.run env rs n t := by
  simp only [Rule.run, hr.toSameTest.matches, same_matchSubs hr.subs, hr.actions, h.act, same_subActions h hr.subs]

theorem Spec.SameSet.process {env : Env} {rs rs' : RuleSet} (h : SameSet env.lib rs rs') (n : Nat) (t : Tx) (q i : Int) :
    rs'.process env n t q i = rs.process env n t q i := by
  simp only [RuleSet.process, h.length]
  by_cases h1 : ((rs.phases q).length : Int) > i
  · rw [if_pos h1, if_pos h1]
    by_cases h2 : i < 0
    · rw [if_pos h2, if_pos h2]
    · rw [if_neg h2, if_neg h2]
      rcases (h.rules q).get i.toNat with ⟨e1, e2⟩ | ⟨a, b, e1, e2, e3⟩
      · rw [e1, e2]
      · rw [e1, e2]
        exact h.run e3 n t
  · rw [if_neg h1, if_neg h1]

theorem Spec.SameSet.loop {env : Env} {rs rs' : RuleSet} (h : SameSet env.lib rs rs') (q : Int) : ∀ (n : Nat) (i : Int) (t : Tx),
    processLoop env rs' q n i t = processLoop env rs q n i t
  | 0, _, _ => rfl
  | n + 1, i, t => by simp only [processLoop, h.process, h.length, h.loop q n]

theorem Spec.SameSet.phase {env : Env} {rs rs' : RuleSet} (h : SameSet env.lib rs rs') (n : Nat) (q : Int) (t : Tx) :
    processPhase env rs' n q t = processPhase env rs n q t := by
  simp only [processPhase, processPhase', h.length, h.loop]

theorem Spec.SameSet.step {env : Env} {rs rs' : RuleSet} (h : SameSet env.lib rs rs') (n : Nat) (t : Tx) (op : Op) :
    t.step env rs' n op = t.step env rs n op := by
  cases op <;> simp only [Tx.step, h.phase, h.length]

/-- C120 for rules built in Go: rule sets whose rules have, place by place, the same variables
and actions and take the same values, do the same in every sequence of calls: the same results,
log lines, panics and evaluated rules. -/
theorem C120_built {env : Env} {rs rs' : RuleSet} (h : SameSet env.lib rs rs') (n : Nat) : ∀ (ops : List Op) (t : Tx),
    t.steps env rs' n ops = t.steps env rs n ops
  | [], _ => rfl
  | op :: ops, t => by simp only [Tx.steps, h.step, C120_built h n ops]

/-! ### Texts -/

/-- A value passes the test of a written rule: transformed, the operator accepts it, or with `!`
does not. -/
def Spec.Passes (lib : Lib) (p : PRule) (s : Bytes) : Prop :=
  Accepts lib p.op (pipe lib (newTransaction newDefaultLimits) (p.acts.trans.map transOf) s) ↔ p.op.not = false

/-- The rule `p'` is `p` in other words: same variables, phase and chaining, the same actions but
for those that only describe, and a test that every value passes or fails in both.  The number of
the rule may be another. -/
structure Spec.Reworded (lib : Lib) (p p' : PRule) : Prop where
  vars : p'.vars = p.vars
  phase : p'.acts.phase = p.acts.phase
  chain : p'.acts.chain = p.acts.chain
  actions : (p'.acts.action.filter fun a => (metaName a.tk).isNone) = p.acts.action.filter fun a => (metaName a.tk).isNone
  test : ∀ s, Passes lib p s ↔ Passes lib p' s

/-- A directive in other words. -/
inductive Spec.RewordedDir (lib : Lib) : PDir → PDir → Prop
  | rule {p p' : PRule} : Reworded lib p p' → RewordedDir lib (.rule p) (.rule p')
  | same {d : PDir} : RewordedDir lib d d

/-- The loaded directives do the same. -/
inductive SameDire (lib : Lib) : Dire → Dire → Prop
  | rule {r r' : Rule} {c c' : Bool} : SameChain lib r r' → r'.phase = r.phase → SameDire lib (.rule r c) (.rule r' c')
  | reqBody {b : Bool} : SameDire lib (.reqBody b) (.reqBody b)
  | resBody {b : Bool} : SameDire lib (.resBody b) (.resBody b)
  | ruleEng {v : Int} : SameDire lib (.ruleEng v) (.ruleEng v)

theorem Spec.SameTest.refl {lib : Lib} (r : Rule) : SameTest lib r r := ⟨rfl, rfl, fun _ _ _ _ => .rfl⟩

theorem pairs_refl {α : Type} {R : α → α → Prop} (h : ∀ a, R a a) : ∀ as : List α, Pairs R as as
  | [] => .nil
  | a :: as => .cons (h a) (pairs_refl h as)

theorem Spec.SameChain.refl {lib : Lib} (r : Rule) : SameChain lib r r := ⟨.refl r, pairs_refl SameTest.refl _⟩

theorem Spec.SameSet.refl {lib : Lib} (rs : RuleSet) : SameSet lib rs rs := ⟨fun _ => pairs_refl SameChain.refl _, rfl⟩

theorem actMeans_det {a : PAct} {x y : Action} (h : ActMeans a x) (h' : ActMeans a y) : y = x := by
  cases h <;> cases h' <;> try rfl
  case status.status u n h1 h2 u' n' g2 g1 =>
    have := (trimQuote_iff _ _).2 h1
    rw [(trimQuote_iff _ _).2 g1] at this
    subst this
    have := (atoi_iff _ _).2 h2
    rw [(atoi_iff _ _).2 g2] at this
    rw [Option.some.inj this]
  case allow.allow h1 _ g1 =>
    have := (trimQuote_iff _ _).2 h1
    rw [(trimQuote_iff _ _).2 g1] at this
    rw [this]

theorem pairs_det {α β : Type} {R : α → β → Prop} (hR : ∀ {a b c}, R a b → R a c → c = b) {as : List α} {bs : List β} (h : Pairs R as bs) :
    ∀ {cs : List β}, Pairs R as cs → cs = bs := by
  induction h with
  | nil => intro cs h; cases h; rfl
  | cons h1 _ ih => intro cs h; cases h with | cons g1 g2 => rw [hR h1 g1, ih g2]

theorem passes_takes {lib : Lib} {p : PRule} {r : Rule} (hn : r.not = p.op.not) (ht : r.trans = p.acts.trans.map transOf) {op : Operator} (ho : r.op = some op)
    (hm : OpMeans lib p.op op) (t u : Tx) (s : Bytes) (yes : Bool) : Rule.Takes lib r t u s yes ↔ (yes = true ↔ Passes lib p s) := by
  simp only [Rule.Takes, ho, Option.some.injEq, exists_eq_left', Passes, ← accepts_iff hm u, hn, ht]
  rw [pipe_builtin lib _ (newTransaction newDefaultLimits) t]
  cases yes <;> cases p.op.not <;> cases op.run u (pipe lib t (List.map transOf p.acts.trans) s) <;> decide

theorem Spec.Reworded.load {lib : Lib} {vo : VarOrd} {p p' : PRule} (h : Reworded lib p p') (hok : RuleOk lib p) (hok' : RuleOk lib p') :
    ∃ r r', loadRule lib vo p = .ok (.rule r p.acts.chain) ∧ loadRule lib vo p' = .ok (.rule r' p.acts.chain) ∧ SameChain lib r r' ∧ r'.phase = r.phase := by
  rcases loadRule_spec lib vo p with ⟨_, r, h1, h2⟩ | ⟨hn, _⟩
  · rcases loadRule_spec lib vo p' with ⟨_, r', h1', h2'⟩ | ⟨hn, _⟩
    · refine ⟨r, r', h1, h.chain ▸ h1', ⟨⟨?_, ?_, fun t u s yes => ?_⟩, ?_⟩, by rw [h2'.phase, h2.phase, h.phase]⟩
      · simp only [loadRule, h.vars] at h1 h1'
        cases hv : applyVariables lib vo p.vars with
        | error e => rw [hv] at h1; cases h1
        | ok vs =>
          rw [hv] at h1 h1'
          simp only at h1 h1'
          split at h1
          · cases h1
          · split at h1
            · cases h1
            · cases h1
              split at h1'
              · cases h1'
              · split at h1'
                · cases h1'
                · cases h1'
                  rfl
      · have a' := h2'.actions
        rw [h.actions] at a'
        exact pairs_det (R := ActMeans) (fun {_ _ _} h h' => actMeans_det h h') h2.actions a'
      · obtain ⟨op, o1, o2⟩ := h2.op
        obtain ⟨op', o1', o2'⟩ := h2'.op
        rw [passes_takes h2.not h2.trans o1 o2, passes_takes h2'.not h2'.trans o1' o2', h.test]
      · rw [h2.subRules, h2'.subRules]
        exact .nil
    · exact absurd hok' hn
  · exact absurd hok hn

theorem Pairs.modify {α β : Type} {R : α → β → Prop} {f : α → α} {g : β → β} (hfg : ∀ {a b}, R a b → R (f a) (g b)) {as : List α} {bs : List β}
    (h : Pairs R as bs) : ∀ i : Nat, Pairs R (as.modify i f) (bs.modify i g) := by
  induction h with
  | nil => intro i; cases i <;> exact .nil
  | cons h1 h2 ih =>
    intro i
    cases i with
    | zero => exact .cons (hfg h1) h2
    | succ i => exact .cons h1 (ih i)

theorem reworded_addDirs {lib : Lib} {vo : VarOrd} {dirs dirs' : List PDir} (h : Pairs (RewordedDir lib) dirs dirs') (hok : ∀ d ∈ dirs, DirOk lib d)
    (hok' : ∀ d ∈ dirs', DirOk lib d) : ∀ {set set' : DireSet} (parent : Option Nat), Pairs (SameDire lib) set set' →
    ∃ out out', addDirs lib vo dirs set parent = (out, none) ∧ addDirs lib vo dirs' set' parent = (out', none) ∧ Pairs (SameDire lib) out out' := by
  induction h with
  | nil => intro set set' parent hs; exact ⟨_, _, rfl, rfl, hs⟩
  | @cons d d' ds ds' h1 _ ih =>
    intro set set' parent hs
    have ih := @ih (fun x hx => hok x (List.mem_cons_of_mem _ hx)) (fun x hx => hok' x (List.mem_cons_of_mem _ hx))
    have ok := hok d List.mem_cons_self
    have ok' := hok' d' List.mem_cons_self
    have rules : ∀ {p p' : PRule}, Reworded lib p p' → RuleOk lib p → RuleOk lib p' → ∃ out out', addDirs lib vo (.rule p :: ds) set parent = (out, none) ∧
        addDirs lib vo (.rule p' :: ds') set' parent = (out', none) ∧ Pairs (SameDire lib) out out' := by
      intro p p' hp o o'
      obtain ⟨r, r', e1, e2, e3, e4⟩ := hp.load (vo := vo) o o'
      simp only [addDirs, direFactory, e1, e2]
      cases parent with
      | some i =>
        refine ih _ (hs.modify (fun {a b} hab => ?_) i)
        cases hab with
        | rule g1 g2 => exact .rule ⟨⟨g1.vars, g1.actions, g1.takes⟩, g1.subs.append (.cons e3.toSameTest .nil)⟩ g2
        | reqBody => exact .reqBody
        | resBody => exact .resBody
        | ruleEng => exact .ruleEng
      | none =>
        simp only
        rw [hs.length_eq]
        exact ih _ (hs.append (.cons (.rule e3 e4) .nil))
    cases h1 with
    | rule hp => exact rules hp ok ok'
    | same =>
      cases d with
      | rule p => exact rules ⟨rfl, rfl, rfl, rfl, fun _ => .rfl⟩ ok ok'
      | ruleEng v => exact ih _ (hs.append (.cons .ruleEng .nil))
      | reqBody b => exact ih _ (hs.append (.cons .reqBody .nil))
      | resBody b => exact ih _ (hs.append (.cons .resBody .nil))

/-- Two engines that do the same. -/
structure SameEngine (lib : Lib) (e e' : Engine) : Prop where
  limits : e'.limits = e.limits
  enabled : e'.enabled = e.enabled
  detectionOnly : e'.detectionOnly = e.detectionOnly
  ruleSet : SameSet lib e.ruleSet e'.ruleSet

theorem sameSet_addRule {lib : Lib} {rs rs' : RuleSet} (h : SameSet lib rs rs') {r r' : Rule} (hr : SameChain lib r r') (hp : r'.phase = r.phase) :
    SameSet lib (rs.addRule r) (rs'.addRule r') := by
  simp only [RuleSet.addRule, hp]
  split
  · exact h
  · refine ⟨fun q => ?_, h.defaults⟩
    show Pairs _ (if q = r.phase then _ else _) (if q = r.phase then _ else _)
    split
    · exact (h.rules _).append (.cons hr .nil)
    · exact h.rules q

theorem same_execute {lib : Lib} {set set' : DireSet} (h : Pairs (SameDire lib) set set') : ∀ {e e' : Engine}, SameEngine lib e e' →
    SameEngine lib (set.execute e) (set'.execute e') := by
  induction h with
  | nil => intro e e' he; exact he
  | cons h1 _ ih =>
    intro e e' he
    refine ih ?_
    obtain ⟨l, a, b, rs⟩ := he
    cases h1 with
    | rule g1 g2 => exact ⟨l, a, b, sameSet_addRule rs g1 g2⟩
    | reqBody => exact ⟨by simp only [Dire.execute, l], a, b, rs⟩
    | resBody => exact ⟨by simp only [Dire.execute, l], a, b, rs⟩
    | ruleEng =>
      simp only [Dire.execute, execRuleEng, Engine.enable]
      refine ⟨?_, ?_, ?_, ?_⟩ <;> (repeat' split) <;> first | exact l | exact a | exact b | exact rs | rfl

/-- C120.  Two texts, directive by directive the same but that rules are put in other words, do
the same on every engine: both load, leave the engine with the same switches, and every sequence
of calls on a transaction has the same results, log lines, panics and evaluated rules. -/
theorem C120_text {lib : Lib} {vo : VarOrd} {ord : IterOrd} {text text' : Bytes} {dirs dirs' : List PDir} (ht : Program text dirs) (ht' : Program text' dirs')
    (h : Pairs (RewordedDir lib) dirs dirs') (hok : ∀ d ∈ dirs, DirOk lib d) (hok' : ∀ d ∈ dirs', DirOk lib d) (e : Engine) :
    ∃ set set', DireSet.addSecLangString lib vo [] text = .ok (set, none) ∧ DireSet.addSecLangString lib vo [] text' = .ok (set', none) ∧
      (set'.execute e).enabled = (set.execute e).enabled ∧ (set'.execute e).detectionOnly = (set.execute e).detectionOnly ∧
      (set'.execute e).limits = (set.execute e).limits ∧
      ∀ (n : Nat) (ops : List Op),
        (set'.execute e).newTransaction.steps ((set'.execute e).env lib ord) (set'.execute e).ruleSet n ops =
          (set.execute e).newTransaction.steps ((set.execute e).env lib ord) (set.execute e).ruleSet n ops := by
  obtain ⟨out, out', h1, h2, h3⟩ := reworded_addDirs (vo := vo) h hok hok' (set := []) (set' := []) none .nil
  have he := same_execute h3 (e := e) (e' := e) ⟨rfl, rfl, rfl, .refl _⟩
  refine ⟨out, out', ?_, ?_, he.enabled, he.detectionOnly, he.limits, fun n ops => ?_⟩
  · simp only [DireSet.addSecLangString, (C53_exact lib.lowerHi _ _).2 ht, Res.bind, h1]
  · simp only [DireSet.addSecLangString, (C53_exact lib.lowerHi _ _).2 ht', Res.bind, h2]
  · simp only [Engine.newTransaction, Engine.env, he.limits]
    exact C120_built (env := { lib, ord, limits := (out.execute e).limits }) he.ruleSet n ops _

/-! ### Other words -/

/-- The comparison that holds if the other does not. -/
def Spec.opposite : OpTok → Option OpTok
  | .ge => some .lt | .lt => some .ge | .gt => some .le | .le => some .gt | _ => none

/-- The number a value is compared as. -/
def comparedAs (s : Bytes) : Int := (parseInt (trimSpace s)).getD 0

theorem accepts_cmp {lib : Lib} {o : POp} {k : CmpKind} {n : Int} (hk : cmpOf o.tk = some k) (hn : Numeral o.arg n) (s : Bytes) :
    Accepts lib o s ↔ Cmp k (comparedAs s) n := by
  have uniq : ∀ {a : Bytes} {v w : Int}, Numeral a v → Numeral a w → w = v := by
    intro a v w h h'
    have := (parse_trim_iff _ _).2 h
    rw [(parse_trim_iff _ _).2 h'] at this
    exact Option.some.inj this
  have hnum : (∃ v, Numeral s v ∧ comparedAs s = v) ∨ ((¬ ∃ v, Numeral s v) ∧ comparedAs s = 0) := by
    cases h : parseInt (trimSpace s) with
    | some v => exact .inl ⟨v, (parse_trim_iff _ _).1 h, by simp [comparedAs, h]⟩
    | none => exact .inr ⟨fun ⟨v, hv⟩ => (by rw [(parse_trim_iff _ _).2 hv] at h; cases h), by simp [comparedAs, h]⟩
  constructor
  · rintro (⟨h, _⟩ | ⟨k', n', h1, h2, h3⟩)
    · rw [h] at hk; cases hk
    · rw [hk] at h1
      cases h1
      cases uniq hn h2
      rcases hnum with ⟨v, g1, g2⟩ | ⟨g1, g2⟩
      · rcases h3 with ⟨w, h4, h5⟩ | ⟨h4, _⟩
        · rw [g2, ← uniq g1 h4]; exact h5
        · exact absurd ⟨v, g1⟩ h4
      · rcases h3 with ⟨w, h4, _⟩ | ⟨_, h5⟩
        · exact absurd ⟨w, h4⟩ g1
        · rw [g2]; exact h5
  · intro h
    refine .inr ⟨k, n, hk, hn, ?_⟩
    rcases hnum with ⟨v, g1, g2⟩ | ⟨g1, g2⟩
    · exact .inl ⟨v, g1, g2 ▸ h⟩
    · exact .inr ⟨g1, g2 ▸ h⟩

/-- A comparison may be written as the negation of the opposite one: `@ge 5` as `!@lt 5`. -/
theorem C120_opposite {lib : Lib} (p : PRule) {tk : OpTok} {n : Int} (ho : opposite p.op.tk = some tk) (hn : Numeral p.op.arg n) :
    Reworded lib p { p with op := { p.op with tk := tk, not := !p.op.not } } where
  vars := rfl
  phase := rfl
  chain := rfl
  actions := rfl
  test s := by
    obtain ⟨k, k', h1, h2, h3⟩ : ∃ k k', cmpOf p.op.tk = some k ∧ cmpOf tk = some k' ∧ ∀ v, Cmp k v n ↔ ¬ Cmp k' v n := by
      cases hp : p.op.tk <;> rw [hp] at ho <;> cases ho
      all_goals exact ⟨_, _, rfl, rfl, fun v => by simp only [Cmp]; omega⟩
    simp only [Passes]
    rw [accepts_cmp h1 hn, accepts_cmp (o := { p.op with tk := tk, not := !p.op.not }) h2 hn, h3]
    cases p.op.not <;> simp

/-- `@gt n` says the same as `@ge m` if `m` is the number after `n`, and `@le n` as `@lt m`. -/
theorem C120_next {lib : Lib} (p : PRule) {tk : OpTok} {arg : Bytes} {n : Int} (ho : p.op.tk = .gt ∧ tk = .ge ∨ p.op.tk = .le ∧ tk = .lt)
    (hn : Numeral p.op.arg n) (hm : Numeral arg (n + 1)) : Reworded lib p { p with op := { p.op with tk := tk, arg := arg } } where
  vars := rfl
  phase := rfl
  chain := rfl
  actions := rfl
  test s := by
    simp only [Passes]
    rcases ho with ⟨h1, rfl⟩ | ⟨h1, rfl⟩
    · rw [accepts_cmp (k := .gt) (by rw [h1]; rfl) hn, accepts_cmp (o := { p.op with tk := .ge, arg := arg }) (k := .ge) rfl hm]
      simp only [Cmp]
      rw [Int.lt_iff_add_one_le]
    · rw [accepts_cmp (k := .le) (by rw [h1]; rfl) hn, accepts_cmp (o := { p.op with tk := .lt, arg := arg }) (k := .lt) rfl hm]
      simp only [Cmp]
      rw [Int.lt_add_one_iff]

/-- Transformations that come to the same may be written for one another. -/
theorem C120_transformations {lib : Lib} (p : PRule) {ts : List TransTok}
    (h : ∀ s, pipe lib (newTransaction newDefaultLimits) (ts.map transOf) s = pipe lib (newTransaction newDefaultLimits) (p.acts.trans.map transOf) s) :
    Reworded lib p { p with acts := { p.acts with trans := ts } } where
  vars := rfl
  phase := rfl
  chain := rfl
  actions := rfl
  test s := by simp only [Passes, h]

/-- `t:none` does nothing, wherever it stands. -/
theorem C120_none {lib : Lib} (p : PRule) {xs ys : List TransTok} (hp : p.acts.trans = xs ++ ys) :
    Reworded lib p { p with acts := { p.acts with trans := xs ++ .none :: ys } } :=
  C120_transformations p fun s => by rw [hp]; simp only [List.map_append, List.map_cons, pipe_append]; rfl

/-- A transformation that removes, replaces or compresses characters need not be repeated. -/
theorem C120_again {lib : Lib} (p : PRule) {xs ys : List TransTok} {tk : TransTok} (hp : p.acts.trans = xs ++ tk :: ys)
    (htk : tk = .removeWhitespace ∨ tk = .removeNulls ∨ tk = .replaceNulls ∨ tk = .compressWhitespace) :
    Reworded lib p { p with acts := { p.acts with trans := xs ++ tk :: tk :: ys } } :=
  C120_transformations p fun s => by
    rw [hp]
    simp only [List.map_append, List.map_cons, pipe_append, pipe]
    congr 1
    rcases htk with rfl | rfl | rfl | rfl
    · exact (C07_idempotent _).1
    · exact (C07_idempotent _).2.1
    · exact (C07_idempotent _).2.2
    · exact C08_idempotent _

/-- Number, tags, messages, revision and version do nothing. -/
theorem C120_descriptions {lib : Lib} (p : PRule) (id : Int) {as : List PAct}
    (h : (as.filter fun a => (metaName a.tk).isNone) = p.acts.action.filter fun a => (metaName a.tk).isNone) :
    Reworded lib p { p with acts := { p.acts with id := id, action := as } } where
  vars := rfl
  phase := rfl
  chain := rfl
  actions := h
  test _ := .rfl

/-! ### Examples -/

/-- A rule on the number of headers. -/
def Sample.headersGe (not : Bool) (tk : OpTok) (arg : Bytes) : PRule :=
  { vars := [{ tk := .requestHeaders, count := true }], op := { tk := tk, not := not, arg := arg },
    acts := { id := 7, phase := 2, trans := [.removeNulls], action := [⟨.deny, []⟩] } }

theorem Sample.headersGe_ok {not : Bool} {tk : OpTok} {arg : Bytes} (h : OpOk lib { tk := tk, not := not, arg := arg }) : DirOk lib (.rule (headersGe not tk arg)) where
  vars := by
    intro v hv
    rw [List.mem_singleton.1 hv]
    refine ⟨by simp, fun _ re hre => ?_⟩
    exact ⟨_, rfl⟩
  op := h
  acts := by
    intro a ha
    rw [List.mem_singleton.1 ha]
    exact .inl ⟨_, .deny⟩

/-- `@ge 2` may be written as `!@lt 2`. -/
example (vo : VarOrd) (ord : IterOrd) :
    ∃ set set', DireSet.addSecLangString lib vo [] b!"SecRule &REQUEST_HEADERS \"@ge 2\" \"id:7,phase:2,t:removeNulls,deny\"\n" = .ok (set, none) ∧
      DireSet.addSecLangString lib vo [] b!"SecRule &REQUEST_HEADERS \"!@lt 2\" \"id:7,phase:2,t:removeNulls,deny\"\n" = .ok (set', none) ∧
      ∀ (n : Nat) (ops : List Op),
        (set'.execute newEngine).newTransaction.steps ((set'.execute newEngine).env lib ord) (set'.execute newEngine).ruleSet n ops =
          (set.execute newEngine).newTransaction.steps ((set.execute newEngine).env lib ord) (set.execute newEngine).ruleSet n ops := by
  have hn : Numeral b!"2" 2 := (parse_trim_iff _ _).1 (by decide)
  have ok : ∀ not tk k, cmpOf tk = some k → ∀ d ∈ [PDir.rule (headersGe not tk b!"2")], DirOk lib d := by
    intro not tk k hk d hd
    rw [List.mem_singleton.1 hd]
    exact headersGe_ok ⟨.cmp { kind := k, arg := 2, argString := b!"2" }, .cmp hk hn ⟨trimSpace_is_trimmed b!"2", [], [], rfl, ⟨[], by simp, rfl⟩, ⟨[], by simp, rfl⟩⟩⟩
  obtain ⟨set, set', h1, h2, _, _, _, h3⟩ := C120_text (vo := vo) (ord := ord)
    (text := b!"SecRule &REQUEST_HEADERS \"@ge 2\" \"id:7,phase:2,t:removeNulls,deny\"\n")
    (text' := b!"SecRule &REQUEST_HEADERS \"!@lt 2\" \"id:7,phase:2,t:removeNulls,deny\"\n") (dirs := [.rule (headersGe false .ge b!"2")]) (dirs' := [.rule (headersGe true .lt b!"2")])
    ((C53_exact id _ _).1 (by decide +kernel)) ((C53_exact id _ _).1 (by decide +kernel))
    (.cons (.rule (C120_opposite (headersGe false .ge b!"2") rfl hn)) .nil) (ok _ _ _ rfl) (ok _ _ _ rfl) newEngine
  exact ⟨set, set', h1, h2, h3⟩

/-- The rule refuses two headers and lets one pass. -/
example : textVerdicts lib b!"SecRule &REQUEST_HEADERS \"!@lt 2\" \"id:7,phase:2,t:removeNulls,deny\"\n" 9
    [.processRequestHeader (some [(b!"A", [b!"1"]), (b!"B", [b!"2"])]), .result] = some [true] ∧
    textVerdicts lib b!"SecRule &REQUEST_HEADERS \"!@lt 2\" \"id:7,phase:2,t:removeNulls,deny\"\n" 9
    [.processRequestHeader (some [(b!"A", [b!"1"])]), .result] = some [false] := by decide +kernel

/-- Decoding twice is not decoding once: the condition that the tests agree is needed. -/
example : textVerdicts lib b!"SecRule REQUEST_METHOD \"@rx a\" \"id:7,phase:2,t:urlDecode,deny\"\n" 9
    [.processRequestURL none b!"%2561" [], .processRequestHeader none, .result] = some [false] ∧
    textVerdicts lib b!"SecRule REQUEST_METHOD \"@rx a\" \"id:7,phase:2,t:urlDecode,t:urlDecode,deny\"\n" 9
    [.processRequestURL none b!"%2561" [], .processRequestHeader none, .result] = some [true] := by decide +kernel

end Verif
