import Verif.Props.Loader
import Verif.Props.Match
/-!
Properties C60 and C62, and C21/C30 for loaded texts: from rule text to verdict.
-/
namespace Verif
open Sample Spec

/-! ### Where loaded rules come from -/

theorem loaded_rule_origin {lib : Lib} {dirs : List PDir} {ds : List Dire} (h : Pairs (DirMeans lib) dirs ds) {r : Rule}
    (hr : r ∈ rulesOf ds) : ∃ p, .rule p ∈ dirs ∧ RuleMeans lib p r := by
  obtain ⟨d, hd, he⟩ := List.mem_filterMap.1 hr
  obtain ⟨pd, hp, hm⟩ := pairs_mem_right h hd
  cases hm with
  | rule hm => cases he; exact ⟨_, hp, hm⟩
  | _ => cases he

theorem grouped_rule_origin {lib : Lib} {dirs : List PDir} {ds : List Dire} (h : Pairs (DirMeans lib) dirs ds) {r : Rule}
    (hr : r ∈ rulesOf (group ds)) :
    (∃ p, .rule p ∈ dirs ∧ RuleMeans lib p { r with subRules := [] }) ∧
      ∀ s ∈ r.subRules, ∃ p, .rule p ∈ dirs ∧ RuleMeans lib p s := by
  have hall := C57_all_rules ds.length ds (Nat.le_refl _) (fun r hr => (loaded_rule_origin h hr).elim fun _ hp => hp.2.subRules)
  have hmem : ∀ x ∈ ({ r with subRules := [] } : Rule) :: r.subRules, x ∈ rulesOf ds := by
    intro x hx
    rw [← hall]
    exact List.mem_flatMap.2 ⟨r, hr, hx⟩
  exact ⟨loaded_rule_origin h (hmem _ List.mem_cons_self), fun s hs => loaded_rule_origin h (hmem s (List.mem_cons_of_mem _ hs))⟩

/-- A set loaded without error, from the text's point of view. -/
theorem loaded_set {lib : Lib} {vo : VarOrd} {text : Bytes} {set : DireSet}
    (h : DireSet.addSecLangString lib vo [] text = .ok (set, none)) :
    ∃ dirs ds, Program text dirs ∧ Pairs (DirMeans lib) dirs ds ∧ set = group ds := by
  obtain ⟨dirs, hp, hok⟩ := C59_loads_iff.1 ⟨set, h⟩
  obtain ⟨ds, h1, h2⟩ := C57_chains (vo := vo) hp hok []
  rw [h] at h2
  simp only [List.nil_append, Res.ok.injEq, Prod.mk.injEq, and_true] at h2
  exact ⟨dirs, ds, hp, h1, h2⟩

theorem newEngine_phases (p : Int) : newEngine.ruleSet.phases p = [] := rfl

/-- A rule of an engine configured from a text. -/
theorem engine_rule {lib : Lib} {dirs : List PDir} {ds : List Dire} (h : Pairs (DirMeans lib) dirs ds) {q : Int} {r : Rule}
    (hr : r ∈ (DireSet.execute (group ds) newEngine).ruleSet.phases q) :
    r.phase = q ∧ 1 ≤ q ∧ r ∈ rulesOf (group ds) ∧ ∃ p, .rule p ∈ dirs ∧ p.acts.phase = q := by
  rw [C58_rules, newEngine_phases, List.nil_append] at hr
  split at hr
  · rename_i hq
    obtain ⟨hr, hp⟩ := List.mem_filter.1 hr
    obtain ⟨⟨p, h1, h2⟩, _⟩ := grouped_rule_origin h hr
    have hp : r.phase = q := by simpa using hp
    exact ⟨hp, hq.1, hr, p, h1, by rw [← h2.phase]; exact hp⟩
  · cases hr

/-! ### C60: the phase of a rule -/

/-- The rule phase documented for each call: 1 request headers, 2 request body,
3 response headers, 4 response body, 5 logging. -/
def Spec.documentedPhase : Op → Option Int
  | .processRequestHeader _ => some 1
  | .processRequestBody => some 2
  | .processResponseHeaders .. => some 3
  | .processResponseBody => some 4
  | .processLogging => some 5
  | _ => none

/-- The calls a host makes in the course of an exchange (not the explicit
`ProcessPhase(n)`). -/
def Spec.isExchange : Op → Bool
  | .processPhase _ => false
  | _ => true

/-- C60, the full claim: whatever rules of a loaded text a call evaluates, they
have the documented phase of that call. -/
def C60_statement : Prop :=
  ∀ (lib : Lib) (vo : VarOrd) (ord : IterOrd) (text : Bytes) (set : DireSet),
    DireSet.addSecLangString lib vo [] text = .ok (set, none) →
    ∀ (n : Nat) (t t' : Tx) (op : Op) (o : Out) (tr : Trace), isExchange op = true →
      t.step ((set.execute newEngine).env lib ord) (set.execute newEngine).ruleSet n op = .ok (t', o, tr) →
      ∀ q i r, (q, i) ∈ tr → ((set.execute newEngine).ruleSet.phases q)[i.toNat]? = some r → documentedPhase op = some r.phase

/-- The phase each call actually evaluates: one too many. -/
def Spec.actualPhase : Op → Option Int
  | .processConnection .. => some 1
  | .processRequestHeader _ => some 2
  | .processRequestBody => some 3
  | .processResponseHeaders .. => some 4
  | .processResponseBody => some 5
  | .processLogging => some 6
  | _ => none

theorem exec_trace_phase {env : Env} {rs : RuleSet} {p i : Int} {t t' : Tx} {tr : Trace} (h : Exec env rs p i t tr t') :
    ∀ e ∈ tr, e.1 = p := by
  have hev : ∀ i, ∀ e ∈ event rs p i, e.1 = p := by
    intro i e he
    simp only [event] at he
    split at he
    · rw [List.mem_singleton.1 he]
    · cases he
  induction h with
  | out => simp
  | stop => exact hev _
  | go _ _ _ _ _ ih =>
    intro e he
    exact (List.mem_append.1 he).elim (hev _ e) (ih e)

theorem processPhase_trace {env : Env} {rs : RuleSet} {n : Nat} {p : Int} {t t' : Tx} {tr : Trace}
    (h : processPhase env rs n p t = .ok (t', tr)) : ∀ e ∈ tr, e.1 = p := by
  refine processPhase_cases h ?_ ?_ ?_
  · rintro _ _ rfl; simp
  · rintro _ _ _ rfl; simp
  · intro _ _ he; exact exec_trace_phase he

/-- Any call evaluates only rules registered for its own engine phase. -/
theorem step_trace_phase {env : Env} {rs : RuleSet} {n : Nat} {t t' : Tx} {op : Op} {o : Out} {tr : Trace}
    (hop : isExchange op = true) (h : t.step env rs n op = .ok (t', o, tr)) : ∀ e ∈ tr, actualPhase op = some e.1 := by
  cases op
  case processPhase => cases hop
  case processConnection =>
    obtain ⟨⟨t1, tr1⟩, g1, g2⟩ := Res.bind_eq_ok.1 h
    cases g2; intro e he; rw [processPhase_trace g1 e he]; rfl
  case processRequestHeader =>
    obtain ⟨⟨t1, tr1⟩, g1, g2⟩ := Res.bind_eq_ok.1 h
    cases g2; intro e he; rw [processPhase_trace g1 e he]; rfl
  case processRequestBody =>
    obtain ⟨⟨t1, tr1⟩, g1, g2⟩ := Res.bind_eq_ok.1 h
    cases g2; intro e he; rw [processPhase_trace g1 e he]; rfl
  case processResponseHeaders =>
    obtain ⟨⟨t1, tr1⟩, g1, g2⟩ := Res.bind_eq_ok.1 h
    cases g2; intro e he; rw [processPhase_trace g1 e he]; rfl
  case processResponseBody =>
    obtain ⟨⟨t1, tr1⟩, g1, g2⟩ := Res.bind_eq_ok.1 h
    cases g2; intro e he; rw [processPhase_trace g1 e he]; rfl
  case processLogging =>
    obtain ⟨⟨t1, tr1⟩, g1, g2⟩ := Res.bind_eq_ok.1 h
    cases g2; intro e he; rw [processPhase_trace g1 e he]; rfl
  case appendRequestBody =>
    obtain ⟨⟨b, k, e⟩, g1, g2⟩ := Res.bind_eq_ok.1 h
    cases g2; simp
  case appendResponseBody =>
    obtain ⟨⟨b, k, e⟩, g1, g2⟩ := Res.bind_eq_ok.1 h
    cases g2; simp
  all_goals
    simp only [Tx.step, Res.ok.injEq, Prod.mk.injEq] at h
    obtain ⟨_, _, rfl⟩ := h
    simp

/-- C60, what is true: every rule of a loaded text runs in one kind of call only,
the one of its phase number - which is one step earlier than documented: phase:1
at the connection, phase:2 at the request headers, phase:3 at the request body,
phase:4 at the response headers, phase:5 at the response body; and nothing
loaded from text runs at logging. -/
theorem C60_one_step_early_partial {lib : Lib} {vo : VarOrd} {ord : IterOrd} {text : Bytes} {set : DireSet}
    (hl : DireSet.addSecLangString lib vo [] text = .ok (set, none)) {n : Nat} {t t' : Tx} {op : Op} {o : Out} {tr : Trace}
    (hop : isExchange op = true)
    (h : t.step ((set.execute newEngine).env lib ord) (set.execute newEngine).ruleSet n op = .ok (t', o, tr))
    {q i : Int} {r : Rule} (hm : (q, i) ∈ tr) (hr : ((set.execute newEngine).ruleSet.phases q)[i.toNat]? = some r) :
    actualPhase op = some r.phase ∧ (∀ k, op ≠ .processLogging ∧ (documentedPhase op = some k → r.phase = k + 1)) := by
  obtain ⟨dirs, ds, hp, hd, rfl⟩ := loaded_set hl
  have hq := step_trace_phase hop h _ hm
  obtain ⟨h1, h2, _, p, h3, h4⟩ := engine_rule hd (List.mem_of_getElem? hr)
  have hlegal := C55_legal_phase ((C53_exact id _ _).2 hp) h3
  refine ⟨by rw [h1]; exact hq, fun k => ⟨?_, ?_⟩⟩
  · rintro rfl
    simp only [actualPhase, Option.some.injEq] at hq
    omega
  · intro hk
    cases op <;> simp only [documentedPhase, actualPhase, Option.some.injEq, reduceCtorEq] at hk hq <;> omega

/-- `SecRule REQUEST_METHOD "!@rx GET" "id:1,phase:1,deny"` -/
def phaseOne : List PDir :=
  [.rule { vars := [{ tk := .requestMethod }], op := { tk := .rx, not := true, arg := b!"GET" },
           acts := { id := 1, phase := 1, action := [⟨.deny, []⟩] } }]

theorem phaseOne_loads : ∃ set, DireSet.addSecLangString lib varOrd [] (print phaseOne) = .ok (set, none) ∧
    set = (addDirs lib varOrd phaseOne [] none).1 := by
  refine ⟨_, ?_, rfl⟩
  simp only [DireSet.addSecLangString, C53_round_trip lib.lowerHi (ds := phaseOne) (by simp [phaseOne, WfDir, WfVar, WfAct, InInt64]),
    Res.bind_ok']
  rfl

/-- The trace and phases of the rules evaluated by a call of that engine. -/
def phaseOneRun (op : Op) : Option Trace :=
  let e := DireSet.execute (addDirs lib varOrd phaseOne [] none).1 newEngine
  match e.newTransaction.step (e.env lib ord) e.ruleSet 10 op with
  | .ok (_, _, tr) => some tr
  | _ => none

/-- C60 is false: a phase:1 rule is evaluated at the connection, where there is
no request yet. -/
theorem C60_refuted : ¬ C60_statement := by
  intro h
  obtain ⟨set, h1, h2⟩ := phaseOne_loads
  have hrun : phaseOneRun (.processConnection [] [] [] []) = some [(1, 0)] := by decide +kernel
  simp only [phaseOneRun, ← h2] at hrun
  have hrule : ((set.execute newEngine).ruleSet.phases 1)[(0 : Int).toNat]?.isSome = true := by rw [h2]; decide +kernel
  split at hrun
  · rename_i t' o tr hs
    cases hrun
    cases hr : ((set.execute newEngine).ruleSet.phases 1)[(0 : Int).toNat]? with
    | none => rw [hr] at hrule; cases hrule
    | some r =>
      have := h lib varOrd ord _ set h1 10 _ _ _ _ _ rfl hs 1 0 r (by simp) hr
      cases this
  · cases hrun

/-! ### C21, C30 for loaded texts -/

/-- Rules loaded from a text with no `allow:request` only jump forward. -/
theorem loaded_forward {lib : Lib} {vo : VarOrd} {text : Bytes} {set : DireSet}
    (hl : DireSet.addSecLangString lib vo [] text = .ok (set, none))
    (hno : ∀ dirs p a, Program text dirs → .rule p ∈ dirs → a ∈ p.acts.action → a.tk = .allow → ¬ Unquoted a.arg b!"request") :
    (set.execute newEngine).ruleSet.Forward ∧ (set.execute newEngine).ruleSet.NoBlockDefault := by
  obtain ⟨dirs, ds, hp, hd, rfl⟩ := loaded_set hl
  have hdef : (DireSet.execute (group ds) newEngine).ruleSet.defaultActions = [] := (C58_switches (group ds) newEngine).2.2
  refine ⟨?_, by intro a ha; rw [hdef] at ha; cases ha⟩
  intro q r hr a ha
  rw [hdef, List.append_nil] at ha
  obtain ⟨h1, h2, h3, p, h4, h5⟩ := engine_rule hd hr
  have hq : q ≤ 5 := by
    have := C55_legal_phase ((C53_exact id _ _).2 hp) h4
    omega
  obtain ⟨⟨p1, o1, o2⟩, o3⟩ := grouped_rule_origin hd h3
  have key : ∀ p x, .rule p ∈ dirs → RuleMeans lib p x → a ∈ x.actions → a.ForwardAt q := by
    intro p x hp' hm ha
    obtain ⟨b, hb, hba⟩ := pairs_mem_right hm.actions ha
    cases hba with
    | allow hu =>
      refine ⟨fun _ => by omega, fun _ => by omega, ?_⟩
      rintro rfl
      exact absurd hu (hno dirs p _ hp hp' (List.mem_filter.1 hb).1 rfl)
    | _ => trivial
  rcases List.mem_append.1 ha with ha | ha
  · exact key p1 _ o1 o2 ha
  · obtain ⟨s, hs, ha⟩ := List.mem_flatMap.1 ha
    obtain ⟨p2, k1, k2⟩ := o3 s hs
    exact key p2 s k1 k2 ha

/-! ### C62: end to end -/

/-- A phase with a single rule runs that rule once. -/
theorem single_rule_run {env : Env} {rs : RuleSet} (hrs : rs.Forward) {p : Int} {n : Nat} {t t' : Tx} {tr : Trace} {r : Rule}
    (hr : rs.phases p = [r]) (h0 : 0 ≤ p) (h7 : p ≤ 7) (hp : t.phase < p) (ha : t.abort = false)
    (h : processPhase env rs n p t = .ok (t', tr)) :
    ∃ u m s, At p 0 t u ∧ r.run env rs m u = .ok s ∧ s.sansCursor = t'.sansCursor := by
  obtain ⟨es, s, _, hrun, hs, _⟩ := phase_refines hrs h0 h7 hp ha h
  have hat : ∀ {u}, At p 0 (t.jumpToPhase p) u → At p 0 t u := fun ⟨a, b, c⟩ => ⟨a, b, by rw [c, Tx.jump_sans]⟩
  have fin : ∀ {e : Ev}, e.Valid env rs p (t.jumpToPhase p) → e.pos = 0 → s = e.after →
      ∃ u m s, At p 0 t u ∧ r.run env rs m u = .ok s ∧ s.sansCursor = t'.sansCursor := by
    intro e hv h0 hse
    have hrule : e.rule = r := by
      have := hv.rule
      rw [hr, h0] at this
      simpa using this.symm
    have hat' := hv.at_
    rw [h0] at hat'
    obtain ⟨m, hm⟩ := hv.run
    rw [hrule] at hm
    exact ⟨e.before, m, e.after, hat hat', hm, hse ▸ hs⟩
  have done : ∀ {k es' a b}, PhaseRun env rs p (k + 1) a es' b → b = a := by
    intro k es' a b hb
    generalize hk : k + 1 = j at hb
    have no : ∀ {e : Ev} {a : Tx}, e.Valid env rs p a → k + 1 = e.pos → False := by
      intro e a hv he
      have := hv.rule
      rw [hr, ← he] at this
      simp at this
    cases hb with
    | done => rfl
    | stop hv => exact (no hv hk).elim
    | leave hv => exact (no hv hk).elim
    | next hv => exact (no hv hk).elim
    | skip hv => exact (no hv hk).elim
  obtain ⟨i, u, hi, hu, hrun⟩ : ∃ i u, 0 = i ∧ t.jumpToPhase p = u ∧ PhaseRun env rs p i u es s := ⟨_, _, rfl, rfl, hrun⟩
  cases hrun with
  | done hlen => rw [hr] at hlen; simp at hlen; omega
  | stop hv => exact fin (hu ▸ hv) hi.symm rfl
  | leave hv => exact fin (hu ▸ hv) hi.symm rfl
  | next hv _ _ _ hrest => exact fin (hu ▸ hv) hi.symm (done hrest)
  | skip hv _ _ _ hrest => exact fin (hu ▸ hv) hi.symm (done hrest)

/-- A phase without rules changes nothing but the cursor. -/
theorem empty_phase_run {env : Env} {rs : RuleSet} (hrs : rs.Forward) {p : Int} {n : Nat} {t t' : Tx} {tr : Trace}
    (hr : rs.phases p = [] ∨ t'.phase < p) (h : processPhase env rs n p t = .ok (t', tr)) : t'.sansCursor = t.sansCursor := by
  by_cases hidle : p ≤ t.phase ∨ t.abort = true ∨ p < 0 ∨ 7 < p
  · exact (processPhase_idle hidle h).2.1
  · obtain ⟨es, s, _, hrun, hs, _, hle, _⟩ := processPhase_run hrs (by omega) (by omega) (by omega)
      (by cases hh : t.abort with
        | false => rfl
        | true => exact absurd (.inr (.inl hh)) hidle) h
    have hr : rs.phases p = [] := hr.resolve_right (by omega)
    have no : ∀ {e : Ev} {a : Tx}, e.Valid env rs p a → False := by
      intro e a hv
      have := hv.rule
      rw [hr] at this
      simp at this
    obtain ⟨i, u, hu, hrun⟩ : ∃ i u, t.jumpToPhase p = u ∧ PhaseRun env rs p i u es s := ⟨_, _, rfl, hrun⟩
    cases hrun with
    | done => rw [← hs, ← hu, Tx.jump_sans]
    | stop hv => exact (no hv).elim
    | leave hv => exact (no hv).elim
    | next hv => exact (no hv).elim
    | skip hv => exact (no hv).elim

/-- No verdict and no stored status yet. -/
structure Tx.Fresh (t : Tx) : Prop where
  abort : t.abort = false
  disruptive : t.intervention.disruptive = false
  status : t.intervention.status = 200
  data : t.getData b!"status" = none

theorem Tx.Fresh.sans {t t' : Tx} (h : t.Fresh) (hs : t'.sansCursor = t.sansCursor) : t'.Fresh where
  abort := by rw [sans_abort hs]; exact h.abort
  disruptive := by rw [sans_intervention hs]; exact h.disruptive
  status := by rw [sans_intervention hs]; exact h.status
  data := by
    have h1 : t'.sansCursor.data = t.sansCursor.data := congrArg Tx.data hs
    have : t'.data = t.data := h1
    simp only [Tx.getData, this]; exact h.data

theorem fresh_new (l : Limits) : (newTransaction l).Fresh := ⟨rfl, rfl, rfl, rfl⟩

/-- As long as the only phase with rules is not reached, calls leave the
transaction without verdict. -/
theorem fresh_step {env : Env} {rs : RuleSet} (hrs : rs.Forward) {p : Int} (hq : ∀ q, q ≠ p → rs.phases q = []) {n : Nat}
    {t t' : Tx} {op : Op} {o : Out} {tr : Trace} (hf : t.Fresh) (hk : op.keepsCursor = true) (ha : op.aborts = false)
    (hp : t'.phase < p) (h : t.step env rs n op = .ok (t', o, tr)) : t'.Fresh := by
  have hph : ∀ {u t' : Tx} {tr : Trace} {q : Int}, u.Fresh → t'.phase < p → processPhase env rs n q u = .ok (t', tr) → t'.Fresh := by
    intro u t' tr q hu hlt hpp
    refine hu.sans (empty_phase_run hrs ?_ hpp)
    by_cases h : q = p
    · exact .inr (h ▸ hlt)
    · exact .inl (hq q h)
  cases op <;> first | (cases hk; done) | (cases ha; done) | skip
  case processConnection a b c d =>
    obtain ⟨⟨t1, tr1⟩, g1, g2⟩ := Res.bind_eq_ok.1 h
    cases g2; refine hph ?_ hp g1; exact ⟨hf.1, hf.2, hf.3, hf.4⟩
  case processRequestHeader =>
    obtain ⟨⟨t1, tr1⟩, g1, g2⟩ := Res.bind_eq_ok.1 h
    cases g2; refine hph ?_ hp g1; exact ⟨hf.1, hf.2, hf.3, hf.4⟩
  case processRequestBody =>
    obtain ⟨⟨t1, tr1⟩, g1, g2⟩ := Res.bind_eq_ok.1 h
    cases g2; refine hph ?_ hp g1; exact ⟨hf.1, hf.2, hf.3, hf.4⟩
  case processResponseHeaders =>
    obtain ⟨⟨t1, tr1⟩, g1, g2⟩ := Res.bind_eq_ok.1 h
    cases g2; refine hph ?_ hp g1; exact ⟨hf.1, hf.2, hf.3, hf.4⟩
  case processResponseBody =>
    obtain ⟨⟨t1, tr1⟩, g1, g2⟩ := Res.bind_eq_ok.1 h
    cases g2; refine hph ?_ hp g1; exact ⟨hf.1, hf.2, hf.3, hf.4⟩
  case processLogging =>
    obtain ⟨⟨t1, tr1⟩, g1, g2⟩ := Res.bind_eq_ok.1 h
    cases g2; refine hph ?_ hp g1; exact ⟨hf.1, hf.2, hf.3, hf.4⟩
  case processPhase =>
    obtain ⟨⟨t1, tr1⟩, g1, g2⟩ := Res.bind_eq_ok.1 h
    cases g2; exact hph hf hp g1
  case appendRequestBody =>
    obtain ⟨⟨b, k, e⟩, g1, g2⟩ := Res.bind_eq_ok.1 h
    cases g2; exact ⟨hf.1, hf.2, hf.3, hf.4⟩
  case appendResponseBody =>
    obtain ⟨⟨b, k, e⟩, g1, g2⟩ := Res.bind_eq_ok.1 h
    cases g2; exact ⟨hf.1, hf.2, hf.3, hf.4⟩
  case result =>
    simp only [Tx.step, Tx.result, Res.ok.injEq, Prod.mk.injEq] at h
    obtain ⟨rfl, _, _⟩ := h
    rw [show t.touch.abort = false from hf.abort]
    exact ⟨hf.1, rfl, rfl, hf.4⟩
  case resetIntervention => cases h; exact ⟨hf.1, rfl, rfl, hf.4⟩
  case intervention => cases h; exact ⟨hf.1, hf.2, hf.3, hf.4⟩
  case processRequestURL => cases h; exact ⟨hf.1, hf.2, hf.3, hf.4⟩
  case logf => cases h; exact ⟨hf.1, hf.2, hf.3, hf.4⟩

theorem fresh_steps {env : Env} {rs : RuleSet} (hrs : rs.Forward) {p : Int} (hq : ∀ q, q ≠ p → rs.phases q = []) {n : Nat} :
    ∀ {ops : List Op} {t t' : Tx} {os : List Out} {tr : Trace}, t.Fresh → t.phase ≤ 7 →
      (∀ op ∈ ops, op.keepsCursor = true ∧ op.aborts = false) →
      t'.phase < p → t.steps env rs n ops = .ok (t', os, tr) → t'.Fresh := by
  intro ops
  induction ops with
  | nil => intro t t' os tr hf _ _ _ h; cases h; exact hf
  | cons op ops ih =>
    intro t t' os tr hf h7 hops hp h
    obtain ⟨⟨t1, o, tr1⟩, g1, g2⟩ := Res.bind_eq_ok.1 h
    obtain ⟨⟨t2, os2, tr2⟩, g3, g4⟩ := Res.bind_eq_ok.1 g2
    cases g4
    obtain ⟨k1, k2⟩ := hops op List.mem_cons_self
    have hops' : ∀ op ∈ ops, op.keepsCursor = true ∧ op.aborts = false := fun o ho => hops o (List.mem_cons_of_mem _ ho)
    obtain ⟨_, s2, _⟩ := step_phase hrs h7 k1 g1
    have hmono := (steps_phase hrs s2 (fun o ho => (hops' o ho).1) g3).1
    exact ih (fresh_step hrs hq hf k1 k2 (by omega) g1) s2 hops' hp g3

/-- The written `deny` rule. -/
structure Spec.DenyRule (lib : Lib) (p : PRule) : Prop where
  ok : RuleOk lib p
  deny : ∃ arg, p.acts.action = [⟨.deny, arg⟩]
  phase : 1 ≤ p.acts.phase

/-- The engine configured by the text of a single `deny` rule. -/
theorem deny_engine {lib : Lib} {vo : VarOrd} {text : Bytes} {p : PRule} (ht : Program text [.rule p]) (hd : DenyRule lib p) :
    ∃ set r, DireSet.addSecLangString lib vo [] text = .ok (set, none) ∧ RuleMeans lib p r ∧ r.actions = [.deny] ∧
      (set.execute newEngine).ruleSet.Forward ∧ (set.execute newEngine).limits = newDefaultLimits ∧
      ∀ q, (set.execute newEngine).ruleSet.phases q = if q = p.acts.phase then [r] else [] := by
  obtain ⟨ds, h1, h2⟩ := C57_chains (vo := vo) ht (by intro d hd'; rw [List.mem_singleton.1 hd']; exact hd.ok) []
  rw [List.nil_append] at h2
  cases h1 with
  | @cons _ d _ ds' hm hn =>
    cases hn
    cases hm with
    | @rule _ r hm =>
      obtain ⟨arg, harg⟩ := hd.deny
      have hacts : r.actions = [.deny] := by
        have := hm.actions
        rw [harg] at this
        generalize r.actions = as at this
        cases this with
        | cons h1 h2 => cases h1; cases h2; rfl
      have hg : rulesOf (group [.rule r p.acts.chain]) = [r] := by
        cases p.acts.chain with
        | false => rw [C57_group_single]; simp [group, rulesOf]
        | true =>
          rw [group]
          simp only [takeChain, List.append_nil, group]
          cases r; rfl
      have hle : p.acts.phase ≤ 5 := by
        have := C55_legal_phase ((C53_exact id _ _).2 ht) (r := p) (by simp)
        have := hd.phase
        omega
      refine ⟨_, r, h2, hm, hacts, ?_, ?_, fun q => ?_⟩
      · refine (loaded_forward h2 ?_).1
        intro dirs p' a hp' hin ha htk
        have := ((C53_exact id _ _).2 ht).symm.trans ((C53_exact id _ _).2 hp')
        simp only [Res.ok.injEq, Except.ok.injEq] at this
        subst this
        simp only [List.mem_singleton, PDir.rule.injEq] at hin
        subst hin
        rw [harg, List.mem_singleton] at ha
        rw [ha] at htk; cases htk
      · rw [(C58_switches _ _).2.1]
        cases p.acts.chain with
        | false => rw [C57_group_single]; simp [group, reqBodies, resBodies, newEngine]
        | true => rw [group]; simp [takeChain, group, reqBodies, resBodies, newEngine]
      · rw [C58_rules, newEngine_phases, List.nil_append, hg, List.filter_cons, List.filter_nil, hm.phase]
        have := hd.phase
        by_cases hq : q = p.acts.phase
        · subst hq; simp; omega
        · have : ¬ p.acts.phase = q := fun h => hq h.symm
          simp [hq, this]

/-- The engine of a `deny` rule, its phase processed on a transaction without
verdict. -/
theorem deny_phase {lib : Lib} {ord : IterOrd} {set : DireSet} {r : Rule} {p : PRule} (hm : RuleMeans lib p r)
    (hacts : r.actions = [.deny]) (hfw : (set.execute newEngine).ruleSet.Forward)
    (hph : ∀ q, (set.execute newEngine).ruleSet.phases q = if q = p.acts.phase then [r] else []) (hge : 1 ≤ p.acts.phase)
    (hle : p.acts.phase ≤ 5) {n : Nat} {t t' : Tx} {tr' : Trace} (hlt : t.phase < p.acts.phase) (hfresh : t.Fresh)
    (hpp : processPhase ((set.execute newEngine).env lib ord) (set.execute newEngine).ruleSet n p.acts.phase t = .ok (t', tr')) :
    ∃ op u t1 ys, r.op = some op ∧ OpMeans lib p.op op ∧ At p.acts.phase 0 t u ∧
      FetchedValues ((set.execute newEngine).env lib ord) r.vars u ys t1 ∧
      (t1.abort = true → t'.intervention = t1.intervention) ∧
      (t1.abort = false →
        (t'.intervention.disruptive = true ↔ ∃ y ∈ ys, op.run t1 (Spec.pipe lib y.1 (p.acts.trans.map transOf) y.2) ≠ p.op.not) ∧
        (t'.intervention.disruptive = true → t'.intervention.status = 403) ∧
        (t'.intervention.disruptive = false → t'.intervention.status = 200)) := by
  obtain ⟨u, m, s, hat, hrun, hs⟩ := single_rule_run hfw (by rw [hph, if_pos rfl]) (by omega) (by omega) hlt hfresh.abort hpp
  have hufresh : u.Fresh := hfresh.sans hat.2.2
  obtain ⟨op, hop, hopm⟩ := hm.op
  simp only [Rule.run] at hrun
  obtain ⟨⟨b, t1⟩, g1, g2⟩ := Res.bind_eq_ok.1 hrun
  obtain ⟨ys, hys, hb⟩ := C09_condition hop g1
  have hfet : Fetched u t1 := Rule.matches_fetched g1
  have hti : t'.intervention = s.intervention := (sans_intervention hs).symm
  refine ⟨op, u, t1, ys, hop, hopm, hat, hys, ?_, ?_⟩
  · intro hab
    have : b = false := by
      cases b with
      | false => rfl
      | true => rw [(hb.1 rfl).1] at hab; cases hab
    subst this
    simp only [Bool.not_false, if_true, Res.ok.injEq] at g2
    rw [hti, ← g2]
  · intro hab
    have hun : t1.intervention = u.intervention := by
      rcases hfet.verdict with ⟨_, h⟩ | ⟨h, _⟩
      · simp only [Tx.intervention, h]
      · rw [h] at hab; cases hab
    rw [hm.trans, hm.not] at hb
    have hbb : b = true ↔ ∃ y ∈ ys, op.run t1 (Spec.pipe lib y.1 (p.acts.trans.map transOf) y.2) ≠ p.op.not :=
      hb.trans ⟨fun h => h.2, fun h => ⟨hab, h⟩⟩
    rw [← hbb, hti]
    cases b with
    | false =>
      simp only [Bool.not_false, if_true, Res.ok.injEq] at g2
      subst g2
      rw [hun, hufresh.disruptive, hufresh.status]
      simp
    | true =>
      have hgrp : ∀ d, actionsExecute d [Action.deny] t1 = (d .deny t1) := by
        intro d
        simp only [actionsExecute, actionMap, Action.group, groupDisruptive, groupCount]
        simp [List.replicate, List.modify, doAll]
        cases d .deny t1 <;> rfl
      simp only [Bool.not_true, Bool.false_eq_true, if_false, hm.subRules, matchSubs, Res.bind_ok', hacts, hgrp, Action.run, subActions,
        Res.ok.injEq] at g2
      subst g2
      obtain ⟨d1, _, d3, _⟩ := C26_deny t1
      have hst : t1.intervention.status = 200 := by rw [hun]; exact hufresh.status
      have hdat : t1.getData b!"status" = none := by
        simp only [Tx.getData, hfet.data]; exact hufresh.data
      rw [d3, d1 hst, hdat]
      simp [Spec.denyStatus]

/-- C62.  Load a text with a single `deny` rule, start a transaction, make any
calls that neither abort nor move the cursor nor reach the rule's phase, then
process that phase.  The values of the rule's variables are then fetched; unless
fetching aborts the transaction (an oversized body: then the verdict is the
abort's), the verdict is disruptive iff some value, passed through the
transformations, satisfies the operator (with `!`: does not), and the status is
then 403. -/
theorem C62_deny_rule {lib : Lib} {vo : VarOrd} {ord : IterOrd} {text : Bytes} {p : PRule} (ht : Program text [.rule p])
    (hd : DenyRule lib p) :
    ∃ set r, DireSet.addSecLangString lib vo [] text = .ok (set, none) ∧ RuleMeans lib p r ∧
      ∀ {n : Nat} {ops : List Op} {t t' : Tx} {os : List Out} {tr tr' : Trace},
        (∀ op ∈ ops, op.keepsCursor = true ∧ op.aborts = false) →
        (set.execute newEngine).newTransaction.steps ((set.execute newEngine).env lib ord) (set.execute newEngine).ruleSet n ops = .ok (t, os, tr) →
        t.phase < p.acts.phase →
        processPhase ((set.execute newEngine).env lib ord) (set.execute newEngine).ruleSet n p.acts.phase t = .ok (t', tr') →
        ∃ op u t1 ys, r.op = some op ∧ OpMeans lib p.op op ∧ At p.acts.phase 0 t u ∧
          FetchedValues ((set.execute newEngine).env lib ord) r.vars u ys t1 ∧
          (t1.abort = true → t'.intervention = t1.intervention) ∧
          (t1.abort = false →
            (t'.intervention.disruptive = true ↔ ∃ y ∈ ys, op.run t1 (Spec.pipe lib y.1 (p.acts.trans.map transOf) y.2) ≠ p.op.not) ∧
            (t'.intervention.disruptive = true → t'.intervention.status = 403) ∧
            (t'.intervention.disruptive = false → t'.intervention.status = 200)) := by
  obtain ⟨set, r, h1, hm, hacts, hfw, hlim, hph⟩ := deny_engine (vo := vo) ht hd
  refine ⟨set, r, h1, hm, ?_⟩
  intro n ops t t' os tr tr' hops hsteps hlt hpp
  have hle : p.acts.phase ≤ 5 := by
    have := C55_legal_phase ((C53_exact id _ _).2 ht) (r := p) (by simp)
    have := hd.phase
    omega
  have hge := hd.phase
  have hq : ∀ q, q ≠ p.acts.phase → (set.execute newEngine).ruleSet.phases q = [] := fun q h => by rw [hph, if_neg h]
  have hfresh : t.Fresh := fresh_steps hfw hq (fresh_new _) (by simp [newTransaction, phaseBegin]) hops hlt hsteps
  exact deny_phase hm hacts hfw hph hge hle hlt hfresh hpp

end Verif
