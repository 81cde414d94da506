import Verif.Proofs.Loader
import Verif.Props.Actions
/-!
Properties C56–C59, C61 and the loader part of C39: what loading a rule text
gives.
-/
namespace Verif
open Sample Spec

/-! ### C56, C61: one rule -/

/-- C56.  A parsed rule loads iff every variable, the operator and every action
is implemented and has a valid argument. -/
theorem C56_loads_iff (lib : Lib) (vo : VarOrd) (p : PRule) : (∃ d, loadRule lib vo p = .ok d) ↔ RuleOk lib p := by
  rcases loadRule_spec lib vo p with ⟨h, r, h1, _⟩ | ⟨h, e, h1⟩
  · exact ⟨fun _ => h, fun _ => ⟨_, h1⟩⟩
  · refine ⟨fun ⟨d, hd⟩ => ?_, fun hh => absurd hh h⟩
    rw [h1] at hd; cases hd

/-- C56.  The loaded rule is the one written: id, phase, negation, variables,
transformations, operator, actions in order and meta data. -/
theorem C56_loaded_rule {lib : Lib} {vo : VarOrd} {p : PRule} {d : Dire} (h : loadRule lib vo p = .ok d) :
    ∃ r, d = .rule r p.acts.chain ∧ RuleMeans lib p r := by
  rcases loadRule_spec lib vo p with ⟨_, r, h1, h2⟩ | ⟨_, e, h1⟩
  · rw [h1] at h; cases h; exact ⟨r, rfl, h2⟩
  · rw [h1] at h; cases h

/-- C56, unimplemented features are never silently ignored. -/
theorem C56_not_ignored (lib : Lib) (vo : VarOrd) (p : PRule)
    (h : (∃ v ∈ p.vars, v.tk = .xml) ∨
      ∃ a ∈ p.acts.action, a.tk ∈ [ActTok.pass, .severity, .setvar, .capture, .logdata]) :
    ∃ e, loadRule lib vo p = .error e := by
  rcases loadRule_spec lib vo p with ⟨hok, _⟩ | ⟨_, he⟩
  · rcases h with ⟨v, hv, hx⟩ | ⟨a, ha, hx⟩
    · exact absurd hx (hok.vars v hv).1
    · rcases hok.acts a ha with ⟨x, hm⟩ | ⟨k, hk⟩
      · cases hm <;> simp at hx
      · cases h : a.tk <;> simp only [h, metaName, reduceCtorEq] at hk <;> simp [h] at hx
  · exact he

/-- C61.  The loaded rule has one variable for each (name, counted or not) of
the list, with all the selectors given for it in order. -/
theorem C61_variables {lib : Lib} {vo : VarOrd} {vs : List PVar} {xs : List Var} (h : applyVariables lib vo vs = .ok xs) :
    ∃ ks : List (VarTok × Bool), ks.Nodup ∧ (∀ k, k ∈ ks ↔ ∃ v ∈ vs, (v.tk, v.count) = k) ∧ Pairs (Carries lib.rx vs) ks xs := by
  rcases applyVariables_spec lib vo vs with ⟨_, xs', h1, h2⟩ | ⟨_, e, h1⟩
  · rw [h1] at h; cases h; exact h2
  · rw [h1] at h; cases h

/-- C61, for a list with a single name: one variable, whatever the order of the
map iteration. -/
theorem C61_one_name {lib : Lib} {vo : VarOrd} {vs : List PVar} {xs : List Var} (h : applyVariables lib vo vs = .ok xs)
    {tk : VarTok} {c : Bool} (hne : vs ≠ []) (hvs : ∀ v ∈ vs, v.tk = tk ∧ v.count = c) :
    ∃ x, xs = [x] ∧ Carries lib.rx vs (tk, c) x := by
  obtain ⟨ks, h1, h2, h3⟩ := C61_variables h
  have hk : ∀ k ∈ ks, k = (tk, c) := by
    intro k hk
    obtain ⟨v, hv, rfl⟩ := (h2 k).1 hk
    rw [(hvs v hv).1, (hvs v hv).2]
  obtain ⟨v, hv⟩ := List.exists_mem_of_ne_nil vs hne
  have hmem : (tk, c) ∈ ks := (h2 _).2 ⟨v, hv, by rw [(hvs v hv).1, (hvs v hv).2]⟩
  cases h3 with
  | nil => cases hmem
  | @cons a x as bs hc hr =>
    obtain rfl := hk a List.mem_cons_self
    cases hr with
    | nil => exact ⟨x, rfl, hc⟩
    | @cons b _ _ _ _ _ =>
      have := hk b (by simp)
      simp [this] at h1

/-- C61.  An exclusion without a selector still adds the variable (as if it were
not excluded). -/
theorem C61_bare_exclusion (lib : Lib) (vo : VarOrd) (pre post : List PVar) (tk : VarTok) :
    applyVariables lib vo (pre ++ { tk, exclusion := true } :: post) = applyVariables lib vo (pre ++ { tk } :: post) := by
  have key : ∀ (pre : List PVar) (m cm : VarMap), collectVars lib (pre ++ { tk, exclusion := true } :: post) m cm =
      collectVars lib (pre ++ { tk } :: post) m cm := by
    intro pre
    induction pre with
    | nil => intro m cm; simp [collectVars, applySelector]
    | cons v pre ih => intro m cm; simp only [List.cons_append, collectVars, ih]
  simp only [applyVariables, key]

/-- Iteration in insertion order. -/
def varOrd : VarOrd where
  run := id
  perm := fun _ => .refl _

/-- `ARGS:user|!ARGS:/x/|&REQUEST_HEADERS|!REQUEST_URI|ARGS:b` -/
def sampleVars : List PVar :=
  [{ tk := .args, index := b!"user" }, { tk := .args, index := b!"/x/", exclusion := true },
   { tk := .requestHeaders, count := true }, { tk := .requestUri, exclusion := true }, { tk := .args, index := b!"b" }]

def sampleRule : PRule where
  vars := sampleVars
  op := { tk := .ge, not := true, arg := b!" 5" }
  acts := { id := 7, phase := 2, trans := [.lowercase], action := [⟨.msg, b!"'m'"⟩, ⟨.status, b!"'404'"⟩, ⟨.tag, b!"a"⟩, ⟨.deny, []⟩, ⟨.tag, b!"b"⟩] }

example : RuleOk lib sampleRule where
  vars := by
    intro v hv
    refine ⟨?_, fun _ re _ => ⟨_, rfl⟩⟩
    simp only [sampleRule, sampleVars, List.mem_cons, List.not_mem_nil, or_false] at hv
    rcases hv with rfl | rfl | rfl | rfl | rfl <;> simp
  op := ⟨.cmp ⟨.ge, 5, b!"5"⟩, .cmp rfl ⟨[32], itoa 5, [], by decide +kernel, ⟨[' '], by decide, by decide⟩, ⟨[], by decide, by decide⟩,
    itoa_decimal 5, by show InInt64 5; unfold InInt64; omega⟩
    ⟨by rw [show b!"5" = trimSpace b!"5" by decide]; exact trimSpace_is_trimmed _, [32], [], by decide +kernel, ⟨[' '], by decide, by decide⟩, ⟨[], by decide, by decide⟩⟩⟩
  acts := by
    intro a ha
    simp only [sampleRule, List.mem_cons, List.not_mem_nil, or_false] at ha
    rcases ha with rfl | rfl | rfl | rfl | rfl
    · exact .inr ⟨_, rfl⟩
    · exact .inl ⟨.status 404, .status ((trimQuote_iff _ _).1 rfl) ((atoi_iff _ _).1 (by decide +kernel))⟩
    · exact .inr ⟨_, rfl⟩
    · exact .inl ⟨_, .deny⟩
    · exact .inr ⟨_, rfl⟩

example : ∃ r, loadRule lib varOrd sampleRule = .ok (.rule r false) ∧ r.vars.length = 3 ∧ r.actions.length = 2 ∧
    r.metaData = [(b!"msg", [b!"m"]), (b!"tag", [b!"a", b!"b"])] := ⟨_, rfl, rfl, rfl, by decide +kernel⟩

/-- An unimplemented action behind implemented ones. -/
example : loadRule lib varOrd { sampleRule with acts := { action := [⟨.deny, []⟩, ⟨.pass, []⟩] } } = .error .notImplemented := by rfl
/-- A comparison with no number. -/
example : loadRule lib varOrd { sampleRule with op := { tk := .lt, arg := b!"x" } } = .error .badArgument := by rfl

/-! ### C57: chains -/

/-- Loading parsed directives `dirs` as `ds`, followed by a list `tail` that adds
nothing and gives the error `e`. -/
theorem addDirs_group {lib : Lib} {vo : VarOrd} {tail : List PDir} {e : Option LoadErr}
    (ht : ∀ set parent, addDirs lib vo tail set parent = (set, e)) {dirs : List PDir} {ds : List Dire}
    (h : Pairs (fun p d => direFactory lib vo p = .ok d) dirs ds) :
    (∀ set, addDirs lib vo (dirs ++ tail) set none = (set ++ group ds, e)) ∧
    (∀ pre p c post, addDirs lib vo (dirs ++ tail) (pre ++ Dire.rule p c :: post) (some pre.length) =
      (pre ++ Dire.rule { p with subRules := p.subRules ++ (takeChain ds).1 } c :: (post ++ ((takeChain ds).2.1 ++ group (takeChain ds).2.2)), e)) := by
  induction h with
  | nil =>
    refine ⟨fun set => ?_, fun pre p c post => ?_⟩
    · simp only [List.nil_append, ht, group, List.append_nil]
    · simp only [List.nil_append, ht, takeChain, group, List.append_nil]
      cases p; rfl
  | @cons dir d dirs ds hd hr ih =>
    obtain ⟨ih1, ih2⟩ := ih
    cases d with
    | rule r chain =>
      refine ⟨fun set => ?_, fun pre p c post => ?_⟩
      · simp only [List.cons_append, addDirs, hd]
        cases chain with
        | false => simp only [Bool.false_eq_true, if_false, ih1, group, List.append_assoc, List.cons_append, List.nil_append]
        | true => simp only [if_true, ih2, group, List.nil_append]
      · have hm : (pre ++ Dire.rule p c :: post).modify pre.length (Dire.addSub r) =
            pre ++ Dire.rule { p with subRules := p.subRules ++ [r] } c :: post := by
          rw [List.modify_eq_take_drop]
          simp [Dire.addSub]
        simp only [List.cons_append, addDirs, hd, hm]
        cases chain with
        | false => simp only [Bool.false_eq_true, if_false, ih1, takeChain, List.append_assoc, List.cons_append, List.nil_append]
        | true => simp only [if_true, ih2, takeChain, List.append_assoc, List.cons_append, List.nil_append]
    | reqBody b =>
      refine ⟨fun set => ?_, fun pre p c post => ?_⟩
      · simp only [List.cons_append, addDirs, hd, ih1, group, List.append_assoc, List.nil_append]
      · have := ih2 pre p c (post ++ [.reqBody b])
        simp only [List.cons_append, addDirs, hd, List.append_assoc] at this ⊢
        simp only [takeChain, this, List.nil_append, List.cons_append]
    | resBody b =>
      refine ⟨fun set => ?_, fun pre p c post => ?_⟩
      · simp only [List.cons_append, addDirs, hd, ih1, group, List.append_assoc, List.nil_append]
      · have := ih2 pre p c (post ++ [.resBody b])
        simp only [List.cons_append, addDirs, hd, List.append_assoc] at this ⊢
        simp only [takeChain, this, List.nil_append, List.cons_append]
    | ruleEng v =>
      refine ⟨fun set => ?_, fun pre p c post => ?_⟩
      · simp only [List.cons_append, addDirs, hd, ih1, group, List.append_assoc, List.nil_append]
      · have := ih2 pre p c (post ++ [.ruleEng v])
        simp only [List.cons_append, addDirs, hd, List.append_assoc] at this ⊢
        simp only [takeChain, this, List.nil_append, List.cons_append]

/-- The directives in front of the first one that does not load. -/
theorem load_prefix (lib : Lib) (vo : VarOrd) (dirs : List PDir) :
    ((∀ d ∈ dirs, DirOk lib d) ∧ ∃ ds, Pairs (fun p d => direFactory lib vo p = .ok d) dirs ds ∧ Pairs (DirMeans lib) dirs ds) ∨
    (∃ good bad rest ds e, dirs = good ++ bad :: rest ∧ (∀ d ∈ good, DirOk lib d) ∧ ¬ DirOk lib bad ∧
      direFactory lib vo bad = .error e ∧
      Pairs (fun p d => direFactory lib vo p = .ok d) good ds ∧ Pairs (DirMeans lib) good ds) := by
  induction dirs with
  | nil => exact .inl ⟨by simp, [], .nil, .nil⟩
  | cons p dirs ih =>
    rcases direFactory_spec lib vo p with ⟨h1, d, h2, h3⟩ | ⟨h1, e, h2⟩
    · rcases ih with ⟨k1, ds, k2, k3⟩ | ⟨good, bad, rest, ds, e, k0, k1, k2, k3, k4, k5⟩
      · exact .inl ⟨fun x hx => (List.mem_cons.1 hx).elim (fun e => e ▸ h1) (k1 x), d :: ds, .cons h2 k2, .cons h3 k3⟩
      · exact .inr ⟨p :: good, bad, rest, d :: ds, e, by rw [k0]; rfl,
          fun x hx => (List.mem_cons.1 hx).elim (fun e => e ▸ h1) (k1 x), k2, k3, .cons h2 k4, .cons h3 k5⟩
    · exact .inr ⟨[], p, dirs, [], e, rfl, by simp, h1, h2, .nil, .nil⟩

/-- C57.  Loading a text all of whose directives are valid appends the loaded
directives in order, chained rules grouped under the rule that starts the chain. -/
theorem C57_chains {lib : Lib} {vo : VarOrd} {text : Bytes} {dirs : List PDir} (hp : Program text dirs)
    (hok : ∀ d ∈ dirs, DirOk lib d) (set : DireSet) :
    ∃ ds, Pairs (DirMeans lib) dirs ds ∧ set.addSecLangString lib vo text = .ok (set ++ group ds, none) := by
  rcases load_prefix lib vo dirs with ⟨_, ds, h1, h2⟩ | ⟨good, bad, rest, ds, e, h0, _, h1, _⟩
  · refine ⟨ds, h2, ?_⟩
    simp only [DireSet.addSecLangString, (C53_exact lib.lowerHi text dirs).2 hp, Res.bind_ok']
    have := (addDirs_group (tail := []) (e := none) (fun _ _ => rfl) h1).1 set
    rw [List.append_nil] at this
    rw [this]
  · exact absurd (hok bad (by rw [h0]; simp)) h1

/-- The directives of a chain: a starter, further chained rules, a last one. -/
def Spec.chainText (c : Rule × List Rule × Rule) : List Dire :=
  .rule c.1 true :: (c.2.1.map (fun r => .rule r true) ++ [.rule c.2.2 false])

theorem takeChain_run (ms : List Rule) (l : Rule) (rest : List Dire) :
    takeChain (ms.map (fun r => Dire.rule r true) ++ Dire.rule l false :: rest) = (ms ++ [l], [], rest) := by
  induction ms with
  | nil => rfl
  | cons m ms ih => simp only [List.map_cons, List.cons_append, takeChain, ih]

/-- C57, read off for complete chains: a chain becomes one rule with the others
as its sub-rules in order, whatever follows. -/
theorem C57_group_chain (c : Rule × List Rule × Rule) (rest : List Dire) :
    group (chainText c ++ rest) = .rule { c.1 with subRules := c.1.subRules ++ (c.2.1 ++ [c.2.2]) } true :: group rest := by
  simp only [chainText, List.cons_append, List.append_assoc, List.nil_append]
  rw [group, takeChain_run]
  rfl

/-- C57, rules without `chain` and other directives stay as they are. -/
theorem C57_group_single (r : Rule) (rest : List Dire) : group (.rule r false :: rest) = .rule r false :: group rest := by
  rw [group]; simp

theorem C57_group_other {d : Dire} (hd : ∀ r c, d ≠ .rule r c) (rest : List Dire) : group (d :: rest) = d :: group rest := by
  cases d with
  | rule r c => exact absurd rfl (hd r c)
  | _ => rw [group]; simp

/-- C57, nothing is lost: the rules of the text are those of the grouped set and
their sub-rules (for loaded rules, which have no sub-rules yet). -/
theorem C57_all_rules (n : Nat) : ∀ ds : List Dire, ds.length ≤ n → (∀ r ∈ rulesOf ds, r.subRules = []) →
    (rulesOf (group ds)).flatMap (fun r => { r with subRules := [] } :: r.subRules) = rulesOf ds := by
  induction n with
  | zero => intro ds hn _; rw [List.length_eq_zero_iff.1 (Nat.le_zero.1 hn)]; simp [group, rulesOf]
  | succ n ih =>
    have htc : ∀ ds : List Dire, rulesOf ds = (takeChain ds).1 ++ rulesOf (takeChain ds).2.2 ∧ rulesOf (takeChain ds).2.1 = [] := by
      intro ds
      induction ds with
      | nil => exact ⟨rfl, rfl⟩
      | cons d ds ih =>
        cases d with
        | rule r c =>
          cases c with
          | false => exact ⟨rfl, rfl⟩
          | true =>
            refine ⟨?_, ih.2⟩
            show r :: rulesOf ds = _
            rw [ih.1]; rfl
        | reqBody b => exact ⟨ih.1, ih.2⟩
        | resBody b => exact ⟨ih.1, ih.2⟩
        | ruleEng v => exact ⟨ih.1, ih.2⟩
    intro ds hn hs
    cases ds with
    | nil => simp [group, rulesOf]
    | cons d ds =>
      have hn' : ds.length ≤ n := by simpa using hn
      cases d with
      | rule r c =>
        have hr : r.subRules = [] := hs r (by simp [rulesOf])
        have hs' : ∀ x ∈ rulesOf ds, x.subRules = [] := fun x hx => hs x (List.mem_cons_of_mem _ hx)
        cases c with
        | false =>
          rw [C57_group_single]
          show ({ r with subRules := [] } :: r.subRules) ++ (rulesOf (group ds)).flatMap _ = r :: rulesOf ds
          rw [ih ds hn' hs', hr]
          cases r; simp only at hr; subst hr; rfl
        | true =>
          obtain ⟨e1, e2⟩ := htc ds
          rw [group]
          have e3 : ∀ xs ys, rulesOf (xs ++ ys) = rulesOf xs ++ rulesOf ys := fun xs ys => List.filterMap_append
          show ({ r with subRules := [] } :: (r.subRules ++ (takeChain ds).1)) ++ (rulesOf ((takeChain ds).2.1 ++ group (takeChain ds).2.2)).flatMap _ = r :: rulesOf ds
          rw [e3, e2, List.nil_append, ih _ (Nat.le_trans (takeChain_length ds) hn')
            (fun x hx => hs' x (by rw [e1]; exact List.mem_append_right _ hx)), hr, e1]
          cases r; simp only at hr; subst hr; rfl
      | reqBody b => rw [C57_group_other (by simp)]; exact ih ds hn' hs
      | resBody b => rw [C57_group_other (by simp)]; exact ih ds hn' hs
      | ruleEng v => rw [C57_group_other (by simp)]; exact ih ds hn' hs

/-- A rule of three chained conditions with a switch in between, followed by a
rule on its own. -/
def chainSample : List PDir :=
  let r (n : Int) (c : Bool) : PDir := .rule { vars := [{ tk := .requestUri }], op := { tk := .rx, arg := b!"a" }, acts := { id := n, phase := 2, chain := c, action := [⟨.deny, []⟩] } }
  [r 1 true, .reqBody true, r 2 true, r 3 false, r 4 false]

theorem chainSample_wf : ∀ d ∈ chainSample, WfDir d := by simp [chainSample, WfDir, WfVar, WfAct, InInt64]

theorem chainSample_ok : ∀ d ∈ chainSample, DirOk lib d := by
  have h : ∀ n c, RuleOk lib { vars := [{ tk := .requestUri }], op := { tk := .rx, arg := b!"a" }, acts := { id := n, phase := 2, chain := c, action := [⟨.deny, []⟩] } } := by
    intro n c
    refine ⟨?_, ⟨_, .rx rfl rfl⟩, ?_⟩
    · intro v hv; rw [List.mem_singleton.1 hv]; exact ⟨by simp, fun h => by cases h⟩
    · intro a ha; rw [List.mem_singleton.1 ha]; exact .inl ⟨_, .deny⟩
  intro d hd
  simp only [chainSample, List.mem_cons, List.not_mem_nil, or_false] at hd
  rcases hd with rfl | rfl | rfl | rfl | rfl
  · exact h 1 true
  · trivial
  · exact h 2 true
  · exact h 3 false
  · exact h 4 false

example : ∃ ds, Pairs (DirMeans lib) chainSample ds ∧
    DireSet.addSecLangString lib varOrd [] (print chainSample) = .ok ([] ++ group ds, none) :=
  C57_chains ((C53_exact id _ _).1 (C53_round_trip id chainSample_wf)) chainSample_ok []

/-- The ids of a set, with those of the sub-rules. -/
def idsOf (set : DireSet) : List (Int × List Int) := (rulesOf set).map fun r => (r.id, r.subRules.map Rule.id)

example : (addDirs lib varOrd chainSample [] none).2 = none ∧ (addDirs lib varOrd chainSample [] none).1.length = 3 ∧
    idsOf (addDirs lib varOrd chainSample [] none).1 = [(1, [2, 3]), (4, [])] := by decide +kernel

/-! ### C59: all or nothing -/

/-- C59, the full claim. -/
def C59_statement : Prop :=
  ∀ (lib : Lib) (vo : VarOrd) (set set' : DireSet) (text : Bytes) (e : LoadErr),
    set.addSecLangString lib vo text = .ok (set', some e) → set' = set

/-- C59 for texts that are no rule file: nothing is added. -/
theorem C59_syntax_error_partial {lib : Lib} {vo : VarOrd} {set set' : DireSet} {text : Bytes} {e : Option LoadErr}
    (hp : ¬ ∃ dirs, Program text dirs) (h : set.addSecLangString lib vo text = .ok (set', e)) :
    set' = set ∧ ∃ pe, e = some (.parse pe) := by
  simp only [DireSet.addSecLangString] at h
  obtain ⟨r, h1, h2⟩ := Res.bind_eq_ok.1 h
  cases r with
  | error pe => cases h2; exact ⟨rfl, pe, rfl⟩
  | ok dirs => exact absurd ⟨dirs, (C53_exact _ _ _).1 h1⟩ hp

/-- C59, what is kept when a directive of a rule file cannot be loaded: exactly
the directives in front of it. -/
theorem C59_semantic_error {lib : Lib} {vo : VarOrd} {text : Bytes} {dirs : List PDir} (hp : Program text dirs)
    (hbad : ¬ ∀ d ∈ dirs, DirOk lib d) (set : DireSet) :
    ∃ good bad rest ds e, dirs = good ++ bad :: rest ∧ (∀ d ∈ good, DirOk lib d) ∧ ¬ DirOk lib bad ∧
      Pairs (DirMeans lib) good ds ∧ set.addSecLangString lib vo text = .ok (set ++ group ds, some e) := by
  rcases load_prefix lib vo dirs with ⟨h, _⟩ | ⟨good, bad, rest, ds, e, h0, h1, h2, h3, h4, h5⟩
  · exact absurd h hbad
  · refine ⟨good, bad, rest, ds, e, h0, h1, h2, h5, ?_⟩
    simp only [DireSet.addSecLangString, (C53_exact lib.lowerHi text dirs).2 hp, Res.bind_ok']
    rw [h0, (addDirs_group (tail := bad :: rest) (e := some e) (fun s p => by simp only [addDirs, h3]) h4).1 set]

/-- C59, a text loads without error iff it is a rule file all of whose
directives are valid. -/
theorem C59_loads_iff {lib : Lib} {vo : VarOrd} {set : DireSet} {text : Bytes} :
    (∃ set', set.addSecLangString lib vo text = .ok (set', none)) ↔ ∃ dirs, Program text dirs ∧ ∀ d ∈ dirs, DirOk lib d := by
  constructor
  · rintro ⟨set', h⟩
    rcases Classical.em (∃ dirs, Program text dirs) with ⟨dirs, hp⟩ | hp
    · refine ⟨dirs, hp, ?_⟩
      rcases Classical.em (∀ d ∈ dirs, DirOk lib d) with hok | hok
      · exact hok
      · obtain ⟨_, _, _, _, e, _, _, _, _, h'⟩ := C59_semantic_error (vo := vo) hp hok set
        rw [h] at h'; cases h'
    · obtain ⟨_, pe, hpe⟩ := C59_syntax_error_partial hp h
      cases hpe
  · rintro ⟨dirs, hp, hok⟩
    obtain ⟨ds, _, h⟩ := C57_chains (vo := vo) hp hok set
    exact ⟨_, h⟩

/-- A switch followed by a rule with an unimplemented action. -/
def halfBad : List PDir :=
  [.reqBody true, .rule { vars := [{ tk := .requestUri }], op := { tk := .rx, arg := b!"a" }, acts := { action := [⟨.pass, []⟩] } }]

theorem halfBad_loads : DireSet.addSecLangString lib varOrd [] (print halfBad) = .ok ([.reqBody true], some .notImplemented) := by
  simp only [DireSet.addSecLangString, C53_round_trip lib.lowerHi (ds := halfBad) (by simp [halfBad, WfDir, WfVar, WfAct, InInt64]),
    Res.bind_ok']
  rfl

/-- C59 is false: the directives in front of a bad one stay. -/
theorem C59_refuted : ¬ C59_statement := by
  intro h
  have := h _ _ _ _ _ _ halfBad_loads
  cases this

/-- A directive without its argument is no rule file. -/
example : ¬ ∃ dirs, Program b!"SecRuleEngine" dirs := by
  rintro ⟨dirs, h⟩
  have := (C53_exact id _ _).2 h
  revert this
  rw [show parse id b!"SecRuleEngine" = .ok (.error .unexpectedEOS) by decide +kernel]
  simp

/-! ### C58: execution -/

theorem rulesOf_cons (d : Dire) (ds : List Dire) :
    rulesOf (d :: ds) = (match d with | .rule r _ => [r] | _ => []) ++ rulesOf ds := by
  cases d <;> rfl

/-- C58.  After `Execute` each phase has its previous rules followed by the
loaded rules of that phase in order; rules of phases outside 1..6 are dropped. -/
theorem C58_rules (ds : DireSet) (e : Engine) (p : Int) :
    (ds.execute e).ruleSet.phases p =
      e.ruleSet.phases p ++ if 1 ≤ p ∧ p ≤ 6 then (rulesOf ds).filter (fun r => r.phase = p) else [] := by
  simp only [DireSet.execute]
  induction ds generalizing e with
  | nil => simp [rulesOf]
  | cons d ds ih =>
    rw [List.foldl_cons, ih, rulesOf_cons]
    cases d with
    | rule r c =>
      simp only [Dire.execute, Engine.addSecRule, RuleSet.addRules, List.foldl_cons, List.foldl_nil, RuleSet.addRule]
      have hb : phaseBegin = 0 := rfl
      have he : phaseEnd = 7 := rfl
      by_cases hout : r.phase ≥ phaseEnd ∨ r.phase ≤ phaseBegin
      · rw [if_pos hout]
        split
        · rename_i hp
          have : r.phase ≠ p := by omega
          simp [this]
        · rfl
      · rw [if_neg hout]
        by_cases hp : p = r.phase
        · subst hp
          rw [if_pos (by omega)]
          simp
          omega
        · have : ¬ r.phase = p := fun h => hp h.symm
          simp [hp, this]
    | reqBody b => rfl
    | resBody b => rfl
    | ruleEng v =>
      have : (Dire.execute e (.ruleEng v)).ruleSet = e.ruleSet := by
        simp only [Dire.execute, execRuleEng, Engine.enable]
        repeat' split
        all_goals rfl
      rw [this]; rfl

theorem getLast_cons {α : Type} (x : α) (l : List α) (d : α) : ((x :: l).getLast?).getD d = (l.getLast?).getD x := by
  cases l with
  | nil => rfl
  | cons y l =>
    rw [List.getLast?_cons_cons, List.getLast?_eq_some_getLast (by simp)]; rfl

/-- C58.  Each switch has the value of the last directive that sets it, else its
previous value; nothing else of the configuration changes, in particular not
the default actions (C39). -/
theorem C58_switches (ds : DireSet) (e : Engine) :
    ((ds.execute e).enabled, (ds.execute e).detectionOnly) = ((modes ds).getLast?).getD (e.enabled, e.detectionOnly) ∧
    (ds.execute e).limits = { e.limits with
      requestBodyAccess := ((reqBodies ds).getLast?).getD e.limits.requestBodyAccess
      responseBodyAccess := ((resBodies ds).getLast?).getD e.limits.responseBodyAccess } ∧
    (ds.execute e).ruleSet.defaultActions = e.ruleSet.defaultActions := by
  simp only [DireSet.execute]
  induction ds generalizing e with
  | nil => exact ⟨rfl, rfl, rfl⟩
  | cons d ds ih =>
    rw [List.foldl_cons]
    obtain ⟨h1, h2, h3⟩ := ih (Dire.execute e d)
    rw [h1, h2, h3]
    cases d with
    | rule r c =>
      have : (Dire.execute e (.rule r c)).ruleSet.defaultActions = e.ruleSet.defaultActions := by
        simp only [Dire.execute, Engine.addSecRule, RuleSet.addRules, List.foldl_cons, List.foldl_nil, RuleSet.addRule]
        split <;> rfl
      exact ⟨rfl, rfl, this⟩
    | reqBody b =>
      have e1 : reqBodies (.reqBody b :: ds) = b :: reqBodies ds := rfl
      rw [e1, getLast_cons]
      exact ⟨rfl, rfl, rfl⟩
    | resBody b =>
      have e1 : resBodies (.resBody b :: ds) = b :: resBodies ds := rfl
      rw [e1, getLast_cons]
      exact ⟨rfl, rfl, rfl⟩
    | ruleEng v =>
      by_cases v1 : v = 1
      · subst v1
        have e1 : modes (.ruleEng 1 :: ds) = (true, false) :: modes ds := rfl
        rw [e1, getLast_cons]; exact ⟨rfl, rfl, rfl⟩
      by_cases v0 : v = 0
      · subst v0
        have e1 : modes (.ruleEng 0 :: ds) = (false, false) :: modes ds := rfl
        rw [e1, getLast_cons]; exact ⟨rfl, rfl, rfl⟩
      by_cases v2 : v = 2
      · subst v2
        have e1 : modes (.ruleEng 2 :: ds) = (false, true) :: modes ds := rfl
        rw [e1, getLast_cons]; exact ⟨rfl, rfl, rfl⟩
      have e1 : modes (.ruleEng v :: ds) = modes ds := by
        simp only [modes, List.filterMap_cons]
        split
        · rfl
        · rename_i h; split at h <;> first | cases h | skip
          all_goals (rename_i hh; cases hh; first | exact absurd rfl v1 | exact absurd rfl v0 | exact absurd rfl v2)
      have e2 : Dire.execute e (.ruleEng v) = e := by simp only [Dire.execute, execRuleEng, v1, v0, v2, if_false]
      rw [e1, e2]
      exact ⟨rfl, rfl, rfl⟩

/-- C58 in full: loading a text and executing it. -/
theorem C58_text {lib : Lib} {vo : VarOrd} {text : Bytes} {dirs : List PDir} (hp : Program text dirs)
    (hok : ∀ d ∈ dirs, DirOk lib d) (e : Engine) :
    ∃ ds set, Pairs (DirMeans lib) dirs ds ∧ DireSet.addSecLangString lib vo [] text = .ok (set, none) ∧
      ∀ p, (set.execute e).ruleSet.phases p =
        e.ruleSet.phases p ++ if 1 ≤ p ∧ p ≤ 6 then (rulesOf (group ds)).filter (fun r => r.phase = p) else [] := by
  obtain ⟨ds, h1, h2⟩ := C57_chains (vo := vo) hp hok []
  exact ⟨ds, _, h1, h2, fun p => by rw [C58_rules, List.nil_append]⟩

/-- Two switches and rules of two phases on top of an existing configuration. -/
example :
    let r (i p : Int) : Dire := .rule { id := i, phase := p } false
    let e := DireSet.execute [r 1 2, .ruleEng 1, r 2 3, .reqBody true, r 3 2, .ruleEng 2, r 4 0] { ruleSet := rules [(2, { id := 9 })] }
    (e.ruleSet.phases 2).map Rule.id = [9, 1, 3] ∧ (e.ruleSet.phases 3).map Rule.id = [2] ∧ (e.ruleSet.phases 0).map Rule.id = [] ∧
      e.enabled = false ∧ e.detectionOnly = true ∧ e.limits.requestBodyAccess = true := by
  decide +kernel

/-! ### C39: default actions of a loaded configuration -/

/-- C39, loader part: executing a loaded set leaves a fresh engine without
default actions, so `block` does nothing there. -/
theorem C39_loaded_block (ds : DireSet) (env : Env) (n : Nat) (r : Rule) (t : Tx) :
    Rule.run env (ds.execute newEngine).ruleSet (n + 1) { r with actions := [.block] } t =
      Rule.run env (ds.execute newEngine).ruleSet (n + 1) { r with actions := [] } t :=
  C39_block_without_defaults (C58_switches ds newEngine).2.2 n r t

end Verif
