import Verif.Props.Phase
/-!
Properties C30 (what does not terminate), C31, C32: the effect of `allow`.
-/
namespace Verif
open Sample

/-! ### C30: rules that loop forever -/

/-- The rule matches every transaction (that is not aborted), without touching it. -/
def Rule.Unconditional (env : Env) (r : Rule) : Prop := ∀ t, t.abort = false → r.matches env t = .ok (true, t)

theorem loop_diverges {env : Env} {rs : RuleSet} {p : Int} (h0 : 0 ≤ p) (h7 : p ≤ 7) {arg : Bytes}
    (harg : ∀ t, t.phase = p → allowDo arg t = t.jumpToPhase p) {r : Rule} (hr : (rs.phases p)[0]? = some r)
    (hact : r.actions = [.allow arg]) (hsub : r.subRules = []) (hm : r.Unconditional env) :
    ∀ (n : Nat) (t : Tx), t.phase = p → t.abort = false → t.intervention.disruptive = false →
      processLoop env rs p n 0 t = .fuel := by
  intro n
  induction n with
  | zero => intro t _ _ _; rfl
  | succ n ih =>
    intro t hp ha hd
    have hlen : (0 : Int) < (rs.phases p).length := by
      rcases List.getElem?_eq_some_iff.1 hr with ⟨h, _⟩; omega
    have hproc : rs.process env n t p 0 = .ok (t.jumpToPhase p) := by
      simp only [RuleSet.process]
      rw [if_pos hlen, if_neg (by omega)]
      simp only [Int.toNat_zero, hr]
      simp [Rule.run, hm t ha, hsub, matchSubs, hact, subActions, actionsExecute, actionMap, Action.group,
        groupDisruptive, groupCount, doAll, Action.run, harg t hp]
    simp only [processLoop]
    rw [if_pos ⟨hp, by decide⟩, hproc]
    have hdis : (t.jumpToPhase p).touch.intervention.disruptive = false := hd
    simp only [Res.bind_ok', hdis, Bool.false_eq_true, if_false]
    obtain ⟨n1, n2, _, _⟩ := Tx.next_spec (t.jumpToPhase p).touch (rs.phases (t.jumpToPhase p).touch.phase).length
    rw [n1]
    have hz : (t.jumpToPhase p).touch.nextRule = 0 := rfl
    rw [hz, ih _ (by rw [n2]; exact jumpToPhase_self h0 h7 t) ?_ ?_]
    · rfl
    · have := sans_abort (Tx.next_sans (t.jumpToPhase p).touch (rs.phases (t.jumpToPhase p).touch.phase).length)
      rw [this]; exact ha
    · have := sans_intervention (Tx.next_sans (t.jumpToPhase p).touch (rs.phases (t.jumpToPhase p).touch.phase).length)
      rw [this]; exact hd

theorem phase_diverges {env : Env} {rs : RuleSet} {p : Int} (h0 : 0 ≤ p) (h7 : p ≤ 7) {arg : Bytes}
    (harg : ∀ t, t.phase = p → allowDo arg t = t.jumpToPhase p) {r : Rule} (hr : (rs.phases p)[0]? = some r)
    (hact : r.actions = [.allow arg]) (hsub : r.subRules = []) (hm : r.Unconditional env) (n : Nat) (t : Tx)
    (hp : t.phase < p) (ha : t.abort = false) (hd : t.intervention.disruptive = false) :
    processPhase env rs n p t = .fuel := by
  have haj : (t.jumpToPhase p).abort = false := ha
  simp only [processPhase]
  rw [if_neg (by omega)]
  simp only [processPhase', haj, Bool.false_eq_true, if_false]
  obtain ⟨i1, i2, _⟩ := PosInv.init h0 h7 rs t
  rw [i1]
  refine loop_diverges h0 h7 harg hr hact hsub hm n _ i2 ?_ ?_
  · rw [sans_abort (Tx.next_sans _ _)]; exact ha
  · rw [sans_intervention (Tx.next_sans _ _)]; exact hd

/-- A matching `allow:request` rule in the response-headers phase makes
`ProcessResponseHeaders` run forever: no amount of fuel is enough. -/
theorem C30_allow_request_diverges {env : Env} {rs : RuleSet} {r : Rule} (hr : (rs.phases phaseResponseHeaders)[0]? = some r)
    (hact : r.actions = [.allow b!"request"]) (hsub : r.subRules = []) (hm : r.Unconditional env) (n : Nat) (t : Tx)
    (hp : t.phase < phaseResponseHeaders) (ha : t.abort = false) (hd : t.intervention.disruptive = false)
    (code : Int) (proto : Bytes) (h : Option GoMap) :
    t.step env rs n (.processResponseHeaders code proto h) = .fuel := by
  simp only [Tx.step]
  rw [phase_diverges (by decide) (by decide) (fun t _ => rfl) hr hact hsub hm n { t with respCode := code, respProto := proto, respHeader := orEmpty h } hp ha hd]
  rfl

/-- Likewise a matching plain `allow` rule in the logging phase. -/
theorem C30_allow_logging_diverges {env : Env} {rs : RuleSet} {r : Rule} (hr : (rs.phases phaseLogging)[0]? = some r)
    (hact : r.actions = [.allow []]) (hsub : r.subRules = []) (hm : r.Unconditional env) (n : Nat) (t : Tx)
    (hp : t.phase < phaseLogging) (ha : t.abort = false) (hd : t.intervention.disruptive = false) :
    t.step env rs n .processLogging = .fuel := by
  simp only [Tx.step]
  rw [phase_diverges (by decide) (by decide) (fun t _ => rfl) hr hact hsub hm n _ hp ha hd]
  rfl

/-- `block` among the default actions never returns once executed. -/
theorem C30_block_default_diverges {rs : RuleSet} (h : rs.defaultActions = [.block]) (n : Nat) (t : Tx) :
    Action.run rs n .block t = .fuel := by
  induction n generalizing t with
  | zero => simp [Action.run]
  | succ n ih =>
    simp [Action.run, h, actionsExecute, actionMap, Action.group, groupDisruptive, groupCount, doAll, ih]

theorem always_unconditional (as : List Action) : (always as).Unconditional Sample.env := by
  intro t ha
  simp [Rule.matches, always, fetchVars, Rule.transformVariable, Var.fetch, matchLoop, ha, any, Operator.run]

theorem C30_refuted : ¬ C30_statement := by
  intro h
  obtain ⟨n, hn⟩ := h Sample.env (rules [(4, always [.allow b!"request"])]) (newTransaction limits)
    (.processResponseHeaders 200 [] none) (by intro b bd m; simp [Sample.env, lib])
  refine hn (C30_allow_request_diverges (r := { always [.allow b!"request"] with phase := 4 }) rfl rfl rfl ?_ n _ (by decide) rfl rfl _ _ _)
  exact fun t ha => always_unconditional [.allow b!"request"] t ha

/-! ### C31, C32: allow -/

/-- Actions that leave the phase alone. -/
def Action.staysInPhase : Action → Prop
  | .allow arg => arg ≠ [] ∧ arg ≠ b!"phase" ∧ arg ≠ b!"request"
  | .block => False
  | .custom _ f => ∀ t, (f t).phase = t.phase
  | _ => True

theorem staysInPhase_run {rs : RuleSet} {n : Nat} {a : Action} (ha : a.staysInPhase) {t t' : Tx}
    (h : Action.run rs n a t = .ok t') : t'.phase = t.phase := by
  cases a with
  | block => exact ha.elim
  | skip =>
    simp only [Action.run, Res.ok.injEq] at h; subst h
    simp only [skipDo, Tx.jumpTo]; split <;> rfl
  | allow arg =>
    simp only [Action.run, Res.ok.injEq] at h; subst h
    simp only [allowDo, if_neg ha.1, if_neg ha.2.1, if_neg ha.2.2]
  | custom g f => simp only [Action.run, Res.ok.injEq] at h; subst h; exact ha t
  | _ => simp only [Action.run, Res.ok.injEq] at h; subst h; rfl

/-- The rule's only jump is one `allow` with this argument. -/
def Rule.OnlyAllows (arg : Bytes) (r : Rule) : Prop :=
  ∃ pre post, r.actions = pre ++ .allow arg :: post ∧ (∀ a ∈ pre ++ post, a.staysInPhase) ∧
    (∀ s ∈ r.subRules, ∀ a ∈ s.actions, a.staysInPhase)

theorem onlyAllows_run {env : Env} {rs : RuleSet} {arg : Bytes} {r : Rule} (hr : r.OnlyAllows arg) {n : Nat} {t t' : Tx}
    (hf : r.Fires env t) (h : r.run env rs n t = .ok t') :
    ∃ u : Tx, u.phase = t.phase ∧ t'.phase = (allowDo arg u).phase := by
  obtain ⟨pre, post, e, h1, h2⟩ := hr
  obtain ⟨t1, t2, g1, g2, g3⟩ := Rule.run_of_fires hf h
  have hex := actionsExecute_ok g2
  have hsplit : ∃ l1 l2, grouped r.actions = l1 ++ .allow arg :: l2 ∧ (∀ a ∈ l1 ++ l2, a.staysInPhase) := by
    have hfil : ∀ g : Int, g ≠ 3 → inGroup g r.actions = inGroup g pre ++ inGroup g post := by
      intro g hg
      rw [e]
      have : (Action.allow arg).group ≠ g := by simp only [Action.group, groupDisruptive]; omega
      simp [inGroup, List.filter_append, this]
    have hfil3 : inGroup 3 r.actions = inGroup 3 pre ++ .allow arg :: inGroup 3 post := by
      rw [e]
      have : (Action.allow arg).group = 3 := rfl
      simp [inGroup, List.filter_append, this]
    refine ⟨(inGroup 0 pre ++ inGroup 0 post) ++ (inGroup 1 pre ++ inGroup 1 post) ++ (inGroup 2 pre ++ inGroup 2 post) ++ inGroup 3 pre,
      inGroup 3 post ++ (inGroup 4 pre ++ inGroup 4 post), ?_, ?_⟩
    · rw [grouped, hfil 0 (by omega), hfil 1 (by omega), hfil 2 (by omega), hfil 4 (by omega), hfil3]
      simp
    · intro a ha
      apply h1
      simp only [inGroup, List.mem_append, List.mem_filter] at ha ⊢
      grind
  obtain ⟨l1, l2, hl, hst⟩ := hsplit
  rw [hl, doAll_append] at hex
  obtain ⟨t3, k1, k2⟩ := Res.bind_eq_ok.1 hex
  have p3 : t3.phase = t.phase := doAll_inv (I := fun u => u.phase = t.phase)
    (fun a ha u u' hu hrun => by rw [staysInPhase_run (hst a (by simp [ha])) hrun]; exact hu) (by rw [g1.phase]) k1
  simp only [doAll, Action.run, Res.bind_ok'] at k2
  have p2 : t2.phase = (allowDo arg t3).phase := doAll_inv (I := fun u => u.phase = (allowDo arg t3).phase)
    (fun a ha u u' hu hrun => by rw [staysInPhase_run (hst a (by simp [ha])) hrun]; exact hu) rfl k2
  have p1 : t'.phase = (allowDo arg t3).phase := subActions_inv (I := fun u => u.phase = (allowDo arg t3).phase)
    (fun s hs a ha u u' hu hrun => by rw [staysInPhase_run (h2 s hs a ha) hrun]; exact hu) p2 g3
  exact ⟨t3, p3, p1⟩

/-- Evaluations in a phase after which the phase is another one end it. -/
theorem PhaseRun.last_of_left {env : Env} {rs : RuleSet} {p : Int} {k : Nat} {t s : Tx} {es : List Ev}
    (h : PhaseRun env rs p k t es s) {pre post : List Ev} {e : Ev} (he : es = pre ++ e :: post) (hp : e.after.phase ≠ p) :
    post = [] ∧ s = e.after := by
  induction h generalizing pre with
  | done _ => simp at he
  | stop _ _ =>
    cases pre with
    | nil => simp at he; exact ⟨he.2, by rw [he.1]⟩
    | cons _ _ => simp at he
  | leave _ _ _ =>
    cases pre with
    | nil => simp at he; exact ⟨he.2, by rw [he.1]⟩
    | cons _ _ => simp at he
  | next _ _ hph _ _ ih =>
    cases pre with
    | nil => simp at he; rw [he.1] at hph; exact absurd hph hp
    | cons a pre => simp only [List.cons_append, List.cons.injEq] at he; exact ih he.2
  | skip _ _ hph _ _ ih =>
    cases pre with
    | nil => simp at he; rw [he.1] at hph; exact absurd hph hp
    | cons a pre => simp only [List.cons_append, List.cons.injEq] at he; exact ih he.2

theorem PhaseRun.valid {env : Env} {rs : RuleSet} {p : Int} {k : Nat} {t s : Tx} {es : List Ev}
    (h : PhaseRun env rs p k t es s) : ∀ e ∈ es, ∃ t, e.Valid env rs p t := by
  induction h with
  | done _ => intro e he; cases he
  | stop hv _ => intro e he; simp at he; subst he; exact ⟨_, hv⟩
  | leave hv _ _ => intro e he; simp at he; subst he; exact ⟨_, hv⟩
  | next hv _ _ _ _ ih =>
    intro e he
    rcases List.mem_cons.1 he with rfl | he
    · exact ⟨_, hv⟩
    · exact ih e he
  | skip hv _ _ _ _ ih =>
    intro e he
    rcases List.mem_cons.1 he with rfl | he
    · exact ⟨_, hv⟩
    · exact ih e he

/-- What a phase does when a rule with `allow arg` fires: it is the last rule
evaluated, and the transaction ends up in the phase `allow` selects. -/
theorem allow_ends_phase {env : Env} {rs : RuleSet} (hrs : rs.Forward) {p : Int} {n : Nat} {t t' : Tx} {tr : Trace}
    (h0 : 0 ≤ p) (h7 : p ≤ 7) (hp : t.phase < p) (ha : t.abort = false)
    (h : processPhase env rs n p t = .ok (t', tr)) {arg : Bytes} {q : Int} (hq : q ≠ p)
    (harg : ∀ u : Tx, u.phase = p → (allowDo arg u).phase = q) :
    ∃ (es : List Ev) (s : Tx), tr = evTrace p es ∧ Evaluated env rs p (t.jumpToPhase p) es s ∧
      s.sansCursor = t'.sansCursor ∧
      ∀ pre e post, es = pre ++ e :: post → e.rule.OnlyAllows arg → e.rule.Fires env e.before →
        post = [] ∧ t'.phase = q := by
  obtain ⟨es, s, h1, h2, h3, h4⟩ := phase_refines hrs h0 h7 hp ha h
  refine ⟨es, s, h1, h2.evaluated.1, h3, ?_⟩
  intro pre e post he hal hf
  obtain ⟨_, hv⟩ := h2.valid e (by simp [he])
  obtain ⟨m, hrun⟩ := hv.run
  obtain ⟨u, hu, hph⟩ := onlyAllows_run hal hf hrun
  have hlast : e.after.phase = q := by rw [hph]; exact harg u (by rw [hu]; exact hv.at_.1)
  obtain ⟨e1, e2⟩ := h2.last_of_left he (by rw [hlast]; exact hq)
  exact ⟨e1, by rw [← h4, e2, hlast]⟩

/-- C31, the full claim: after a matching rule executes `allow` in a phase before
logging, (1) no rule of the remaining phases before logging is evaluated and (2)
the rules of the logging phase are evaluated by `ProcessLogging`. -/
def C31_statement : Prop :=
  ∀ (env : Env) (rs : RuleSet) (n : Nat) (p : Int) (t t' t'' : Tx) (tr tr' : Trace) (ops : List Op) (os : List Out),
    rs.Forward → 0 ≤ p → p < phaseLogging → t.phase < p → t.abort = false →
    processPhase env rs n p t = .ok (t', tr) →
    (∃ es s, tr = evTrace p es ∧ Evaluated env rs p (t.jumpToPhase p) es s ∧
      ∃ e ∈ es, e.rule.OnlyAllows [] ∧ e.rule.Fires env e.before) →
    t'.intervention.disruptive = false →
    (∀ op ∈ ops, op.keepsCursor = true ∧ op.aborts = false) → t'.steps env rs n ops = .ok (t'', os, tr') →
    (∀ e ∈ tr', phaseLogging ≤ e.1) ∧
    (.processLogging ∈ ops → rs.phases phaseLogging ≠ [] → (phaseLogging, 0) ∈ tr')

/-- C31, first half, and in fact: after `allow` neither the later rules of the
phase nor any rule of any later phase is evaluated - logging included. -/
theorem C31_rest_skipped_partial {env : Env} {rs : RuleSet} (hrs : rs.Forward) {p : Int} {n : Nat} {t t' : Tx} {tr : Trace}
    (h0 : 0 ≤ p) (h6 : p < phaseLogging) (hp : t.phase < p) (ha : t.abort = false)
    (h : processPhase env rs n p t = .ok (t', tr)) :
    ∃ (es : List Ev) (s : Tx), tr = evTrace p es ∧ Evaluated env rs p (t.jumpToPhase p) es s ∧
      s.sansCursor = t'.sansCursor ∧
      ∀ pre e post, es = pre ++ e :: post → e.rule.OnlyAllows [] → e.rule.Fires env e.before →
        post = [] ∧
        ∀ ops, (∀ op ∈ ops, op.keepsCursor = true) → ∀ m t'' os tr', t'.steps env rs m ops = .ok (t'', os, tr') →
          ∀ e ∈ tr', phaseLogging < e.1 := by
  have h6' : p < 6 := h6
  obtain ⟨es, s, e1, e2, e3, e4⟩ := allow_ends_phase hrs h0 (by omega) hp ha h (arg := []) (q := 6) (by omega)
    (fun u _ => by simp only [allowDo, if_true]; exact jumpToPhase_self (by decide) (by decide) u)
  refine ⟨es, s, e1, e2, e3, fun pre e post he hal hf => ?_⟩
  obtain ⟨g1, g2⟩ := e4 pre e post he hal hf
  refine ⟨g1, fun ops hops m t'' os tr' hst e' he' => ?_⟩
  have := (steps_phase hrs (by omega) hops hst).2.2.1 e' he'
  simp only [phaseLogging]; omega

/-- An `allow` rule in phase 2, and rules in all later phases: none is evaluated. -/
example : traceOf (run (rules [(2, always [.allow []]), (2, always [.deny]), (3, always [.log]), (6, always [.log])]) exchange)
    = some [(2, 0)] := by decide +kernel

/-- The second half of C31 is false: `ProcessLogging` evaluates nothing after `allow`. -/
theorem C31_refuted : ¬ C31_statement := by
  intro h
  let r : Rule := { always [.allow []] with phase := 2 }
  let l : Rule := { always [.log] with phase := 6 }
  let rs : RuleSet := rules [(2, always [.allow []]), (6, always [.log])]
  have hrs : rs.Forward := by
    intro p r hr a ha
    have h2 : rs.phases = fun p => if p = 6 then [l] else if p = 2 then [Verif.Rule.mk 0 2 [.requestMethod] [] (some any) [.allow []] false [] []] else [] := by
      funext p
      simp [rs, rules, RuleSet.addRules, RuleSet.addRule, phaseEnd, phaseBegin, l, always]
    have hd : rs.defaultActions = [] := rfl
    rw [h2] at hr; rw [hd] at ha
    simp at hr
    split at hr
    · simp at hr; subst hr; simp [Rule.allActions, l, always] at ha; subst ha; trivial
    · split at hr
      · simp at hr; subst hr; simp [Rule.allActions] at ha; subst ha; simp_all [Action.ForwardAt]
      · cases hr
  have hpp : ∃ t' tr, processPhase Sample.env rs 20 2 (newTransaction limits) = .ok (t', tr) ∧ tr = [(2, 0)] ∧
      t'.intervention.disruptive = false ∧ ∃ t'' os, t'.steps Sample.env rs 20 [.processLogging] = .ok (t'', os, []) := by
    refine ⟨_, _, rfl, ?_, ?_, _, _, rfl⟩ <;> decide +kernel
  obtain ⟨t', tr, g1, g2, g3, t'', os, g4⟩ := hpp
  obtain ⟨es, s, e1, e2, _, _⟩ := C31_rest_skipped_partial hrs (by omega) (by decide) (by decide) rfl g1
  have := (h Sample.env rs 20 2 (newTransaction limits) t' t'' tr [] [.processLogging] os hrs (by omega) (by decide) (by decide)
    rfl g1 ⟨es, s, e1, e2, ?_⟩ g3 (by decide) g4).2 (by simp) (by simp [rs, rules, RuleSet.addRules, RuleSet.addRule, phaseEnd, phaseBegin, phaseLogging])
  · simp at this
  · cases e2 with
    | nil => rw [e1] at g2; simp [evTrace] at g2
    | @cons _ e es _ hv _ =>
      refine ⟨e, by simp, ?_, ?_⟩
      all_goals
        have hpos : e.pos = 0 := by
          rw [e1] at g2; simp only [evTrace, List.map_cons, List.cons.injEq, Prod.mk.injEq] at g2
          omega
        have hrule : e.rule = r := by
          have := hv.rule
          rw [hpos] at this
          have h0 : (rs.phases 2)[0]? = some r := rfl
          rw [h0] at this
          exact (Option.some.inj this).symm
        rw [hrule]
      · exact ⟨[], [], rfl, by simp, by simp [r, always]⟩
      · have hab : e.before.abort = false := by
          have := sans_abort hv.at_.2.2
          rw [this]; rfl
        exact ⟨_, _, always_unconditional [.allow []] e.before hab, rfl⟩

/-- C32, the full claim: after `allow:phase` in phase `p` the rest of the phase is
skipped and the next phase is processed normally (its first rule is evaluated). -/
def C32_statement : Prop :=
  ∀ (env : Env) (rs : RuleSet) (n : Nat) (p : Int) (t t' t'' : Tx) (tr tr' : Trace),
    rs.Forward → 0 ≤ p → p < phaseLogging → t.phase < p → t.abort = false →
    processPhase env rs n p t = .ok (t', tr) →
    (∃ es s, tr = evTrace p es ∧ Evaluated env rs p (t.jumpToPhase p) es s ∧
      ∃ e ∈ es, e.rule.OnlyAllows b!"phase" ∧ e.rule.Fires env e.before) →
    t'.abort = false →
    processPhase env rs n (p + 1) t' = .ok (t'', tr') → rs.phases (p + 1) ≠ [] → (p + 1, 0) ∈ tr'

/-- C32, the true part: `allow:phase` ends the phase, and rules of the phase
after the next one are still evaluated from the first on. -/
theorem C32_rest_of_phase_skipped_partial {env : Env} {rs : RuleSet} (hrs : rs.Forward) {p : Int} {n : Nat} {t t' : Tx}
    {tr : Trace} (h0 : 0 ≤ p) (h6 : p < phaseLogging) (hp : t.phase < p) (ha : t.abort = false)
    (h : processPhase env rs n p t = .ok (t', tr)) :
    ∃ (es : List Ev) (s : Tx), tr = evTrace p es ∧ Evaluated env rs p (t.jumpToPhase p) es s ∧
      s.sansCursor = t'.sansCursor ∧
      ∀ pre e post, es = pre ++ e :: post → e.rule.OnlyAllows b!"phase" → e.rule.Fires env e.before →
        post = [] ∧
        (∀ m t'' tr', processPhase env rs m (p + 1) t' = .ok (t'', tr') → tr' = []) ∧
        (t'.abort = false → ∀ q, p + 1 < q → q ≤ 7 → rs.phases q ≠ [] →
          ∀ m t'' tr', processPhase env rs m q t' = .ok (t'', tr') → (q, 0) ∈ tr') := by
  have h6' : p < 6 := h6
  obtain ⟨es, s, e1, e2, e3, e4⟩ := allow_ends_phase hrs h0 (by omega) hp ha h (arg := b!"phase") (q := p + 1) (by omega)
    (fun u hu => by
      have hj := jumpToPhase_phase (p + 1) u
      simp only [allowDo, Tx.nextPhase, hu]
      rw [if_neg (by decide), if_pos trivial]
      omega)
  refine ⟨es, s, e1, e2, e3, fun pre e post he hal hf => ?_⟩
  obtain ⟨g1, g2⟩ := e4 pre e post he hal hf
  refine ⟨g1, fun m t'' tr' hpp => (processPhase_idle (.inl (by omega)) hpp).1, ?_⟩
  intro hab q hq hq7 hne m t'' tr' hpp
  obtain ⟨es', s', k1, k2, _⟩ := phase_refines hrs (by omega) hq7 (by omega) hab hpp
  rw [k1]
  have hpos : ∃ e es, es' = e :: es ∧ e.pos = 0 := by
    have hlen : 0 < (rs.phases q).length := List.length_pos_iff.2 hne
    generalize hz : (0 : Nat) = z at k2
    cases k2 with
    | done hl => omega
    | stop _ _ => exact ⟨_, _, rfl, by omega⟩
    | leave _ _ _ => exact ⟨_, _, rfl, by omega⟩
    | next _ _ _ _ _ => exact ⟨_, _, rfl, by omega⟩
    | skip _ _ _ _ _ => exact ⟨_, _, rfl, by omega⟩
  obtain ⟨e0, es0, rfl, hz⟩ := hpos
  simp [evTrace, hz]

/-- `allow:phase` in phase 2: phase 3 is not evaluated, phase 4 is. -/
example : traceOf (run (rules [(2, always [.allow b!"phase"]), (2, always [.deny]), (3, always [.log]), (4, always [.log])]) exchange)
    = some [(2, 0), (4, 0)] := by decide +kernel

/-- Likewise `allow:request` skips the response-headers phase. -/
theorem C32_allow_request_skips_response_headers {env : Env} {rs : RuleSet} (hrs : rs.Forward) {p : Int} {n : Nat} {t t' : Tx}
    {tr : Trace} (h0 : 0 ≤ p) (h4 : p < phaseResponseHeaders) (hp : t.phase < p) (ha : t.abort = false)
    (h : processPhase env rs n p t = .ok (t', tr)) :
    ∃ (es : List Ev) (s : Tx), tr = evTrace p es ∧ Evaluated env rs p (t.jumpToPhase p) es s ∧
      s.sansCursor = t'.sansCursor ∧
      ∀ pre e post, es = pre ++ e :: post → e.rule.OnlyAllows b!"request" → e.rule.Fires env e.before →
        post = [] ∧ ∀ q ≤ phaseResponseHeaders, ∀ m t'' tr', processPhase env rs m q t' = .ok (t'', tr') → tr' = [] := by
  have h4' : p < 4 := h4
  obtain ⟨es, s, e1, e2, e3, e4⟩ := allow_ends_phase hrs h0 (by omega) hp ha h (arg := b!"request") (q := 4) (by omega)
    (fun u _ => by
      simp only [allowDo]
      rw [if_neg (by decide), if_neg (by decide), if_pos trivial]
      exact jumpToPhase_self (by decide) (by decide) u)
  refine ⟨es, s, e1, e2, e3, fun pre e post he hal hf => ?_⟩
  obtain ⟨g1, g2⟩ := e4 pre e post he hal hf
  refine ⟨g1, fun q hq m t'' tr' hpp => (processPhase_idle (.inl ?_) hpp).1⟩
  have : phaseResponseHeaders = 4 := rfl
  omega

theorem C32_refuted : ¬ C32_statement := by
  intro h
  let r : Rule := { always [.allow b!"phase"] with phase := 2 }
  let l : Rule := { always [.log] with phase := 3 }
  let rs : RuleSet := rules [(2, always [.allow b!"phase"]), (3, always [.log])]
  have hrs : rs.Forward := by
    intro p r hr a ha
    have h2 : rs.phases = fun p => if p = 3 then [l] else if p = 2 then [Verif.Rule.mk 0 2 [.requestMethod] [] (some any) [.allow b!"phase"] false [] []] else [] := by
      funext p
      simp [rs, rules, RuleSet.addRules, RuleSet.addRule, phaseEnd, phaseBegin, l, always]
    have hd : rs.defaultActions = [] := rfl
    rw [h2] at hr; rw [hd] at ha
    simp at hr
    split at hr
    · simp at hr; subst hr; simp [Rule.allActions, l, always] at ha; subst ha; trivial
    · split at hr
      · simp at hr; subst hr; simp [Rule.allActions] at ha; subst ha; simp_all [Action.ForwardAt]
      · cases hr
  have hpp : ∃ t' tr, processPhase Sample.env rs 20 2 (newTransaction limits) = .ok (t', tr) ∧ tr = [(2, 0)] ∧
      t'.abort = false ∧ ∃ t'', processPhase Sample.env rs 20 (2 + 1) t' = .ok (t'', []) := by
    refine ⟨_, _, rfl, ?_, ?_, _, rfl⟩ <;> decide +kernel
  obtain ⟨t', tr, g1, g2, g3, t'', g4⟩ := hpp
  obtain ⟨es, s, e1, e2, _, _⟩ := C32_rest_of_phase_skipped_partial hrs (by omega) (by decide) (by decide) rfl g1
  have := h Sample.env rs 20 2 (newTransaction limits) t' t'' tr [] hrs (by omega) (by decide) (by decide)
    rfl g1 ⟨es, s, e1, e2, ?_⟩ g3 g4 (by simp [rs, rules, RuleSet.addRules, RuleSet.addRule, phaseEnd, phaseBegin])
  · simp at this
  · cases e2 with
    | nil => rw [e1] at g2; simp [evTrace] at g2
    | @cons _ e es _ hv _ =>
      refine ⟨e, by simp, ?_, ?_⟩
      all_goals
        have hpos : e.pos = 0 := by
          rw [e1] at g2; simp only [evTrace, List.map_cons, List.cons.injEq, Prod.mk.injEq] at g2
          omega
        have hrule : e.rule = r := by
          have := hv.rule
          rw [hpos] at this
          have h0 : (rs.phases 2)[0]? = some r := rfl
          rw [h0] at this
          exact (Option.some.inj this).symm
        rw [hrule]
      · exact ⟨[], [], rfl, by simp, by simp [r, always]⟩
      · have hab : e.before.abort = false := by
          have := sans_abort hv.at_.2.2
          rw [this]; rfl
        exact ⟨_, _, always_unconditional [.allow b!"phase"] e.before hab, rfl⟩

end Verif
