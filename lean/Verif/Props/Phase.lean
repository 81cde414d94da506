import Verif.Proofs.Fuel
import Verif.Props.Sample
/-!
Properties C21, C22, C23, C29, C30, C31, C32: phases, order of evaluation,
stopping, jumping and termination.
-/
namespace Verif
open Sample

/-! ### C22, C29: order of evaluation -/

/-- `ProcessPhase` follows the reference semantics of a phase. -/
theorem phase_refines {env : Env} {rs : RuleSet} (hrs : rs.Forward) {p : Int} {n : Nat} {t t' : Tx} {tr : Trace}
    (h0 : 0 ≤ p) (h7 : p ≤ 7) (hp : t.phase < p) (ha : t.abort = false)
    (h : processPhase env rs n p t = .ok (t', tr)) :
    ∃ es s, tr = evTrace p es ∧ PhaseRun env rs p 0 (t.jumpToPhase p) es s ∧
      s.sansCursor = t'.sansCursor ∧ s.phase = t'.phase := by
  obtain ⟨es, s, h1, h2, h3, h4, _⟩ := processPhase_run hrs h0 h7 hp ha h
  exact ⟨es, s, h1, h2, h3, h4⟩

/-- C22.  The positions evaluated in a phase are `0, 1, 2, ...` in order, each at
most once; a position is left out only after a rule that executed `skip`; and
evaluation goes on to the last rule unless there is a disruptive verdict or the
phase was left. -/
theorem C22_registration_order {env : Env} {rs : RuleSet} (hrs : rs.Forward) {p : Int} {n : Nat} {t t' : Tx} {tr : Trace}
    (h0 : 0 ≤ p) (h7 : p ≤ 7) (hp : t.phase < p) (ha : t.abort = false)
    (h : processPhase env rs n p t = .ok (t', tr)) :
    ∃ (es : List Ev) (s : Tx), tr = evTrace p es ∧ Evaluated env rs p (t.jumpToPhase p) es s ∧
      s.sansCursor = t'.sansCursor ∧
      Walk (fun j => ∃ e ∈ es, e.pos = j ∧ e.rule.SkipsAt env rs e.before)
        (t'.intervention.disruptive = false ∧ t'.phase = p) (rs.phases p).length 0 (es.map Ev.pos) := by
  obtain ⟨es, s, h1, h2, h3, h4⟩ := phase_refines hrs h0 h7 hp ha h
  refine ⟨es, s, h1, h2.evaluated.1, h3, ?_⟩
  have := h2.walk
  rw [sans_intervention h3, h4] at this
  exact this

/-- C22, without `skip`: exactly the rules `0 .. k-1` in order, and all of them
if nothing stopped the phase. -/
theorem C22_no_skip {env : Env} {rs : RuleSet} (hrs : rs.Forward) {p : Int} {n : Nat} {t t' : Tx} {tr : Trace}
    (h0 : 0 ≤ p) (h7 : p ≤ 7) (hp : t.phase < p) (ha : t.abort = false)
    (hns : ∀ r ∈ rs.phases p, r.skips rs = false)
    (h : processPhase env rs n p t = .ok (t', tr)) :
    ∃ k ≤ (rs.phases p).length, tr = (List.range k).map (fun j : Nat => (p, (j : Int))) ∧
      (t'.intervention.disruptive = false → t'.phase = p → k = (rs.phases p).length) := by
  obtain ⟨es, s, h1, he, _, h2⟩ := C22_registration_order hrs h0 h7 hp ha h
  have hvalid : ∀ {t s : Tx} {es : List Ev}, Evaluated env rs p t es s → ∀ e ∈ es, e.rule ∈ rs.phases p := by
    intro t s es he
    induction he with
    | nil => intro e he; cases he
    | cons hv _ ih =>
      intro e he
      rcases List.mem_cons.1 he with rfl | he
      · exact List.mem_of_getElem? hv.rule
      · exact ih e he
  have h2 := h2.mono (sk' := fun _ => False) (by
    rintro j ⟨e, hm, _, hs⟩
    have := hns _ (hvalid he e hm)
    rw [hs.2] at this; cases this)
  have key : ∀ (is : List Nat) (i : Nat), i ≤ (rs.phases p).length →
      Walk (fun _ => False)
        (t'.intervention.disruptive = false ∧ t'.phase = p) (rs.phases p).length i is →
      ∃ k ≤ (rs.phases p).length, i ≤ k ∧ is = List.range' i (k - i) ∧
        (t'.intervention.disruptive = false → t'.phase = p → k = (rs.phases p).length) := by
    intro is
    induction is with
    | nil => intro i hi hw; exact ⟨i, hi, by omega, by simp, fun a b => by have := hw ⟨a, b⟩; omega⟩
    | cons j js ih =>
      rintro i hi ⟨rfl, hl, hw⟩
      rcases hw with hw | ⟨hf, _⟩
      · obtain ⟨k, g1, g2, g3, g4⟩ := ih (j + 1) hl hw
        refine ⟨k, g1, by omega, ?_, g4⟩
        have : k - j = (k - (j + 1)) + 1 := by omega
        rw [this, List.range'_succ, ← g3]
      · exact hf.elim
  obtain ⟨k, g1, _, g3, g4⟩ := key _ 0 (by omega) h2
  refine ⟨k, g1, ?_, g4⟩
  have e1 : tr = (es.map Ev.pos).map (fun j : Nat => (p, (j : Int))) := by rw [h1, evTrace, List.map_map]; rfl
  rw [e1, g3, List.range_eq_range']; simp

/-- Three rules, the first with `skip`: rules 0 and 2 are evaluated. -/
example : traceOf (run (rules [(2, always [.skip]), (2, always [.deny]), (2, always [.log])])
    [.processRequestHeader none]) = some [(2, 0), (2, 2)] := by decide +kernel

/-- Without `skip`, and stopping at the second of three rules. -/
example : traceOf (run (rules [(2, always [.log]), (2, always [.deny]), (2, always [.log])])
    [.processRequestHeader none]) = some [(2, 0), (2, 1)] := by decide +kernel

/-- C29.  Whenever a phase evaluates a rule and goes on in the phase, the next
position evaluated is two later if the rule executed `skip` and one later
otherwise; if there is no next evaluation, the rules end before that position. -/
theorem C29_skip_skips_one {env : Env} {rs : RuleSet} (hrs : rs.Forward) {p : Int} {n : Nat} {t t' : Tx} {tr : Trace}
    (h0 : 0 ≤ p) (h7 : p ≤ 7) (hp : t.phase < p) (ha : t.abort = false)
    (h : processPhase env rs n p t = .ok (t', tr)) :
    ∃ (es : List Ev) (s : Tx), tr = evTrace p es ∧ Evaluated env rs p (t.jumpToPhase p) es s ∧
      s.sansCursor = t'.sansCursor ∧
      ∀ pre e post, es = pre ++ e :: post → e.after.intervention.disruptive = false → e.after.phase = p →
        ∃ next : Nat, ((e.rule.SkipsAt env rs e.before ∧ next = e.pos + 2) ∨
            (¬ e.rule.SkipsAt env rs e.before ∧ next = e.pos + 1)) ∧
          (∀ e', post.head? = some e' → e'.pos = next) ∧ (post = [] → (rs.phases p).length ≤ next) := by
  obtain ⟨es, s, h1, h2, h3, h4⟩ := phase_refines hrs h0 h7 hp ha h
  refine ⟨es, s, h1, h2.evaluated.1, h3, ?_⟩
  have hhead : ∀ {k t es s}, PhaseRun env rs p k t es s →
      (∀ e', es.head? = some e' → e'.pos = k) ∧ (es = [] → (rs.phases p).length ≤ k) := by
    intro k t es s h
    cases h with
    | done hl => exact ⟨fun _ h => by simp at h, fun _ => hl⟩
    | stop _ _ => exact ⟨fun _ h => by simp at h; rw [h], fun h => by cases h⟩
    | leave _ _ _ => exact ⟨fun _ h => by simp at h; rw [h], fun h => by cases h⟩
    | next _ _ _ _ _ => exact ⟨fun _ h => by simp at h; rw [h], fun h => by cases h⟩
    | skip _ _ _ _ _ => exact ⟨fun _ h => by simp at h; rw [h], fun h => by cases h⟩
  have key : ∀ {k t es s}, PhaseRun env rs p k t es s →
      ∀ pre e post, es = pre ++ e :: post → e.after.intervention.disruptive = false → e.after.phase = p →
        ∃ next : Nat, ((e.rule.SkipsAt env rs e.before ∧ next = e.pos + 2) ∨
            (¬ e.rule.SkipsAt env rs e.before ∧ next = e.pos + 1)) ∧
          (∀ e', post.head? = some e' → e'.pos = next) ∧ (post = [] → (rs.phases p).length ≤ next) := by
    intro k t es s h2
    induction h2 with
    | done _ => intro pre e post he; simp at he
    | stop _ hd =>
      intro pre e post he hnd
      cases pre with
      | nil => simp at he; rw [he.1] at hd; rw [hd] at hnd; cases hnd
      | cons _ _ => simp at he
    | leave _ _ hl =>
      intro pre e post he _ hph
      cases pre with
      | nil => simp at he; rw [he.1] at hl; exact absurd hph hl
      | cons _ _ => simp at he
    | next _ _ _ hs hrest ih =>
      intro pre e post he hd hph
      cases pre with
      | nil =>
        simp only [List.nil_append, List.cons.injEq] at he
        obtain ⟨rfl, rfl⟩ := he
        exact ⟨_, .inr ⟨hs, rfl⟩, hhead hrest⟩
      | cons a pre =>
        simp only [List.cons_append, List.cons.injEq] at he
        exact ih pre e post he.2 hd hph
    | skip _ _ _ hs hrest ih =>
      intro pre e post he hd hph
      cases pre with
      | nil =>
        simp only [List.nil_append, List.cons.injEq] at he
        obtain ⟨rfl, rfl⟩ := he
        exact ⟨_, .inl ⟨hs, rfl⟩, hhead hrest⟩
      | cons a pre =>
        simp only [List.cons_append, List.cons.injEq] at he
        exact ih pre e post he.2 hd hph
  exact key h2

/-- `skip` at the last but one rule ends the phase. -/
example : traceOf (run (rules [(2, always [.skip]), (2, always [.deny])])
    [.processRequestHeader none]) = some [(2, 0)] := by decide +kernel

/-! ### C21: phases -/

/-- C21.  With forward-only rules and any calls (other than moving the rule
cursor by hand) on a new transaction, the rules evaluated are strictly
increasing in (phase, position): no rule, hence no phase, is processed twice. -/
theorem C21_each_rule_once {env : Env} {rs : RuleSet} (hrs : rs.Forward) {l : Limits} {n : Nat} {ops : List Op}
    (hops : ∀ op ∈ ops, op.keepsCursor = true) {t : Tx} {os : List Out} {tr : Trace}
    (h : (newTransaction l).steps env rs n ops = .ok (t, os, tr)) :
    tr.Pairwise (fun a b => a.1 < b.1 ∨ (a.1 = b.1 ∧ a.2 < b.2)) :=
  (steps_phase hrs (by simp [newTransaction, phaseBegin]) hops h).2.2.2

/-- C21.  Between any two points of a history the phase does not decrease, and
the rules evaluated after a point belong to phases strictly later than the ones
evaluated before it: two different calls never evaluate rules of the same phase. -/
theorem C21_phases_forward {env : Env} {rs : RuleSet} (hrs : rs.Forward) {l : Limits} {n : Nat} {ops ops' : List Op}
    (hops : ∀ op ∈ ops ++ ops', op.keepsCursor = true) {t t' : Tx} {os os' : List Out} {tr tr' : Trace}
    (h : (newTransaction l).steps env rs n ops = .ok (t, os, tr)) (h' : t.steps env rs n ops' = .ok (t', os', tr')) :
    t.phase ≤ t'.phase ∧ ∀ e ∈ tr, ∀ e' ∈ tr', e.1 < e'.1 := by
  obtain ⟨a1, a2, a3, _⟩ := steps_phase hrs (by simp [newTransaction, phaseBegin]) (fun op ho => hops op (by simp [ho])) h
  obtain ⟨b1, b2, b3, _⟩ := steps_phase hrs a2 (fun op ho => hops op (by simp [ho])) h'
  refine ⟨b1, fun e he e' he' => ?_⟩
  have := a3 e he
  have := b3 e' he'
  omega

/-- The condition on rules is met by ordinary rule sets ... -/
example : (rules [(2, always [.deny]), (3, always [.allow b!"request"]), (5, always [.allow [], .skip])]).Forward := by
  intro p r hr a ha
  simp only [rules, RuleSet.addRules, List.map, List.foldl, RuleSet.addRule, phaseEnd, phaseBegin] at hr ha
  simp at hr ha
  split at hr
  · simp at hr; obtain ⟨rfl⟩ := hr
    simp [Rule.allActions, always] at ha
    rcases ha with rfl | rfl <;> simp_all [Action.ForwardAt]
  · split at hr
    · simp at hr; obtain ⟨rfl⟩ := hr
      simp [Rule.allActions, always] at ha
      subst ha; simp_all [Action.ForwardAt]
    · split at hr
      · simp at hr; obtain ⟨rfl⟩ := hr
        simp [Rule.allActions, always] at ha
        subst ha; simp_all [Action.ForwardAt]
      · cases hr

/-- ... with which repeated and out-of-order calls evaluate each rule once. -/
example : traceOf (run (rules [(2, always [.log]), (3, always [.log])])
    [.processRequestBody, .processRequestHeader none, .processRequestBody, .processLogging]) = some [(3, 0)] := by
  decide +kernel

/-- The condition is needed: a rule with `allow:request` in the response-body
phase sends the transaction back to the response-headers phase. -/
theorem C21_refuted_without_forward :
    ¬ ∀ (rs : RuleSet) (ops : List Op), (∀ op ∈ ops, op.keepsCursor = true) → ∀ n t os tr,
      (newTransaction limits).steps env rs n ops = .ok (t, os, tr) →
      tr.Pairwise (fun a b => a.1 < b.1 ∨ (a.1 = b.1 ∧ a.2 < b.2)) := by
  intro h
  have := h (rules [(5, always [.allow b!"request"])]) [.processResponseBody, .processResponseBody] (by decide) 20 _ _ _ rfl
  revert this
  decide +kernel

/-! ### C23: a disruptive verdict stops the phase -/

/-- C23, first half.  Every rule evaluated in a phase, except possibly the last
one evaluated, left the transaction without a disruptive verdict: once a rule
leaves one, no later rule of the phase is evaluated. -/
theorem C23_verdict_stops_phase {env : Env} {rs : RuleSet} (hrs : rs.Forward) {p : Int} {n : Nat} {t t' : Tx} {tr : Trace}
    (h0 : 0 ≤ p) (h7 : p ≤ 7) (hp : t.phase < p) (ha : t.abort = false)
    (h : processPhase env rs n p t = .ok (t', tr)) :
    ∃ (es : List Ev) (s : Tx), tr = evTrace p es ∧ Evaluated env rs p (t.jumpToPhase p) es s ∧
      s.sansCursor = t'.sansCursor ∧ ∀ e ∈ es.dropLast, e.after.intervention.disruptive = false := by
  obtain ⟨es, s, h1, h2, h3, _⟩ := phase_refines hrs h0 h7 hp ha h
  exact ⟨es, s, h1, h2.evaluated.1, h3, h2.evaluated.2⟩

/-- Actions that never withdraw a disruptive verdict. -/
def Action.keepsVerdict : Action → Prop
  | .pass => False
  | .custom _ f => ∀ t, t.intervention.disruptive = true → (f t).intervention.disruptive = true
  | _ => True

theorem keepsVerdict_prim {rs : RuleSet} {a : Action} (hb : a ≠ .block) (ha : a.keepsVerdict) (n : Nat) (t t' : Tx)
    (hI : t.intervention.disruptive = true) (h : Action.run rs n a t = .ok t') : t'.intervention.disruptive = true := by
  cases a with
  | block => exact absurd rfl hb
  | pass => exact ha.elim
  | deny => simp only [Action.run, Res.ok.injEq] at h; subst h; simp [denyDo, Tx.log, Tx.setIntervention, Tx.intervention]
  | log => simp only [Action.run, Res.ok.injEq] at h; subst h; exact hI
  | skip =>
    simp only [Action.run, Res.ok.injEq] at h; subst h
    simp only [skipDo, Tx.jumpTo]; split <;> exact hI
  | status _ => simp only [Action.run, Res.ok.injEq] at h; subst h; exact hI
  | allow arg =>
    simp only [Action.run, Res.ok.injEq] at h; subst h
    simp only [allowDo]; split
    · exact hI
    · split
      · exact hI
      · split <;> exact hI
  | custom g f => simp only [Action.run, Res.ok.injEq] at h; subst h; exact ha t hI

theorem Fetched.disruptive {t t' : Tx} (h : Fetched t t') (hd : t.intervention.disruptive = true) :
    t'.intervention.disruptive = true := by
  rcases h.verdict with ⟨_, h⟩ | ⟨_, h, _⟩
  · simp only [Tx.intervention, h]; exact hd
  · exact h

/-- C23, second half: the full claim - a disruptive verdict stays until it is
read or reset by the host. -/
def C23_statement : Prop :=
  ∀ (env : Env) (rs : RuleSet) (n : Nat) (t t' : Tx) (ops : List Op) (os : List Out) (tr : Trace),
    (∀ op ∈ ops, op.readsVerdict = false) → t.intervention.disruptive = true →
    t.steps env rs n ops = .ok (t', os, tr) → t'.intervention.disruptive = true

/-- C23, second half, for rule sets without `pass` (nor host-written actions
that withdraw verdicts). -/
theorem C23_verdict_kept_partial {env : Env} {rs : RuleSet} {n : Nat}
    (hdef : ∀ a ∈ rs.defaultActions, a.keepsVerdict) (hact : ∀ p, ∀ r ∈ rs.phases p, ∀ a ∈ r.allActions, a.keepsVerdict) :
    ∀ {ops : List Op} {t t' : Tx} {os : List Out} {tr : Trace},
    (∀ op ∈ ops, op.readsVerdict = false) → t.intervention.disruptive = true →
    t.steps env rs n ops = .ok (t', os, tr) → t'.intervention.disruptive = true := by
  have hi : TxInv env rs (fun t => t.intervention.disruptive = true) Action.keepsVerdict (fun op => op.readsVerdict = false) := by
    refine ⟨fun _ h => h, fun _ _ _ _ h => h, fun _ _ hd hf => hf.disruptive hd,
      fun _ hb ha n t t' => keepsVerdict_prim hb ha n t t', hdef, hact, fun _ _ _ _ _ _ _ _ _ _ _ _ h => h,
      fun _ _ _ _ _ _ _ h _ => h, fun _ _ _ _ _ _ _ h _ => h, ?_⟩
    intro op hv hop n t t' o tr hd h
    cases op <;> cases hv <;> cases hop
    all_goals simp only [Tx.step, Res.ok.injEq, Prod.mk.injEq] at h
    all_goals obtain ⟨rfl, _⟩ := h
    all_goals first | exact hd | rfl
  intro ops t t' os tr hops hd h
  exact hi.steps hops hd h

/-- The full claim fails: the first rule of a later phase is still evaluated and
`pass` erases the verdict of an earlier phase. -/
theorem C23_refuted : ¬ C23_statement := by
  intro h
  have := h env (rules [(3, always [.pass])]) 20 ((newTransaction limits).abortWithStatus 403 |>.resetIntervention |> denyDo
    |> fun t => { t with abort := false }) _ [.processRequestBody] _ _ (by decide) (by decide +kernel) rfl
  revert this
  decide +kernel

/-- A `deny` in the request-headers phase: the next rule is not evaluated and the
verdict is still there at the end of the exchange. -/
example : traceOf (run (rules [(2, always [.deny]), (2, always [.log])]) exchange) = some [(2, 0)] ∧
    (txOf (run (rules [(2, always [.deny]), (2, always [.log])]) exchange)).map (·.intervention.disruptive) = some true := by
  decide +kernel

/-! ### C30: termination -/

/-- The full claim: every call returns, whatever the rules (given that the
library's form reader does). -/
def C30_statement : Prop :=
  ∀ (env : Env) (rs : RuleSet) (t : Tx) (op : Op), env.lib.FormReturns → ∃ n, t.step env rs n op ≠ .fuel

/-- C30 for rule sets that only jump forward and have no `block` among the
default actions: every call returns, within fuel linear in the number of rules,
and all larger fuels give the same result. This is if the library's form reader
returns, or if no rule looks at the fields of the body. -/
theorem C30_terminates_partial {env : Env} {rs : RuleSet} (hf : env.lib.FormReturns ∨ Spec.NoFields rs) (hb : rs.NoBlockDefault)
    (hrs : rs.Forward) (t : Tx) (op : Op) :
    ∃ n r, r ≠ .fuel ∧ ∀ m ≥ n, t.step env rs m op = r := by
  have hl := placid_always hf
  have lift : ∀ n, t.step env rs n op ≠ .fuel → ∃ n r, r ≠ .fuel ∧ ∀ m ≥ n, t.step env rs m op = r := by
    intro n hn
    refine ⟨n, _, hn, fun m hm => ?_⟩
    exact ((Tx.step_le env rs hm t op).resolve_left hn).symm
  have hw : ∀ (b : Buf) p io, b.write p io ≠ .fuel := by
    intro b p io
    simp only [Buf.write]
    repeat' split
    all_goals simp
  cases op
  case processConnection => exact lift _ (Res.bind_ne_fuel (processPhase_returns hl hb hrs _ (Nat.le_refl _) trivial) fun _ _ => by simp)
  case processRequestHeader => exact lift _ (Res.bind_ne_fuel (processPhase_returns hl hb hrs _ (Nat.le_refl _) trivial) fun _ _ => by simp)
  case processRequestBody => exact lift _ (Res.bind_ne_fuel (processPhase_returns hl hb hrs _ (Nat.le_refl _) trivial) fun _ _ => by simp)
  case processResponseHeaders => exact lift _ (Res.bind_ne_fuel (processPhase_returns hl hb hrs _ (Nat.le_refl _) trivial) fun _ _ => by simp)
  case processResponseBody => exact lift _ (Res.bind_ne_fuel (processPhase_returns hl hb hrs _ (Nat.le_refl _) trivial) fun _ _ => by simp)
  case processLogging => exact lift _ (Res.bind_ne_fuel (processPhase_returns hl hb hrs _ (Nat.le_refl _) trivial) fun _ _ => by simp)
  case processPhase p => exact lift _ (Res.bind_ne_fuel (processPhase_returns hl hb hrs _ (Nat.le_refl _) trivial) fun _ _ => by simp)
  case appendRequestBody => exact lift 0 (Res.bind_ne_fuel (hw _ _ _) fun _ _ => by simp)
  case appendResponseBody => exact lift 0 (Res.bind_ne_fuel (hw _ _ _) fun _ _ => by simp)
  all_goals exact lift 0 (by simp [Tx.step])

end Verif
