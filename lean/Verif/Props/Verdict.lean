import Verif.Proofs.PhaseRun
import Verif.Proofs.Compare
import Verif.Props.Actions
/-!
Properties C24, C25, C36: aborting, reading the verdict, and the log.
-/
namespace Verif
open Sample

/-! ### C24: abort -/

/-- The transaction is aborted with status `c`. -/
def Aborted (c : Int) (t : Tx) : Prop :=
  t.abort = true ∧ t.intervention.disruptive = true ∧ t.intervention.status = c

/-- Calls after which a verdict may differ: further aborts and an explicit reset. -/
def Op.overrides : Op → Bool
  | .abortWithStatus _ | .abortWithError _ _ | .resetIntervention => true
  | _ => false

theorem aborted_phase {env : Env} {rs : RuleSet} {n : Nat} {p c : Int} {t t' : Tx} {tr : Trace} (ha : Aborted c t)
    (h : processPhase env rs n p t = .ok (t', tr)) : Aborted c t' ∧ tr = [] := by
  have haj : (t.jumpToPhase p).abort = true := ha.1
  simp only [processPhase, processPhase', haj, if_true] at h
  split at h
  · cases h; exact ⟨ha, rfl⟩
  · cases h; exact ⟨ha, rfl⟩

theorem aborted_step {env : Env} {rs : RuleSet} {n : Nat} {c : Int} {t t' : Tx} {op : Op} {o : Out} {tr : Trace}
    (ha : Aborted c t) (hop : op.overrides = false) (h : t.step env rs n op = .ok (t', o, tr)) :
    Aborted c t' ∧ tr = [] ∧ (∀ i, o = .intervention i → i.disruptive = true ∧ i.status = c) := by
  have hph : ∀ {u : Tx} {p : Int}, Aborted c u →
      ((processPhase env rs n p u).bind fun x => .ok (x.1, Out.unit, x.2)) = .ok (t', o, tr) →
      Aborted c t' ∧ tr = [] ∧ (∀ i, o = .intervention i → i.disruptive = true ∧ i.status = c) := by
    intro u p hu h
    obtain ⟨⟨t1, tr1⟩, g1, g2⟩ := Res.bind_eq_ok.1 h
    cases g2
    obtain ⟨k1, k2⟩ := aborted_phase hu g1
    exact ⟨k1, k2, fun i hi => by cases hi⟩
  cases op <;> cases hop
  all_goals simp only [Tx.step, Tx.result] at h
  case appendRequestBody.refl =>
    obtain ⟨⟨b, k, e⟩, g1, g2⟩ := Res.bind_eq_ok.1 h
    cases g2; exact ⟨ha, rfl, fun i hi => by cases hi⟩
  case appendResponseBody.refl =>
    obtain ⟨⟨b, k, e⟩, g1, g2⟩ := Res.bind_eq_ok.1 h
    cases g2; exact ⟨ha, rfl, fun i hi => by cases hi⟩
  case result.refl =>
    simp only [Res.ok.injEq, Prod.mk.injEq] at h
    obtain ⟨rfl, rfl, rfl⟩ := h
    have hn : (!t.touch.abort) = false := by simp [Tx.touch, ha.1]
    simp only [hn, Bool.false_eq_true, if_false]
    exact ⟨ha, by trivial, fun i hi => by cases hi; exact ha.2⟩
  case intervention.refl =>
    simp only [Res.ok.injEq, Prod.mk.injEq] at h
    obtain ⟨rfl, rfl, rfl⟩ := h
    exact ⟨ha, rfl, fun i hi => by cases hi; exact ha.2⟩
  case jumpTo.refl =>
    simp only [Res.ok.injEq, Prod.mk.injEq] at h
    obtain ⟨rfl, rfl, rfl⟩ := h
    refine ⟨?_, rfl, fun i hi => by cases hi⟩
    simp only [Tx.jumpTo]; split <;> exact ha
  case next.refl =>
    simp only [Res.ok.injEq, Prod.mk.injEq] at h
    obtain ⟨rfl, rfl, rfl⟩ := h
    refine ⟨?_, rfl, fun i hi => by cases hi⟩
    simp only [Tx.next]; split
    · exact ha
    · split <;> exact ha
  case processConnection.refl =>
    obtain ⟨⟨t1, tr1⟩, g1, g2⟩ := Res.bind_eq_ok.1 h
    cases g2
    have k := fun hu => aborted_phase (c := c) hu g1
    exact ⟨(k ha).1, (k ha).2, fun i hi => by cases hi⟩
  case processRequestHeader.refl =>
    obtain ⟨⟨t1, tr1⟩, g1, g2⟩ := Res.bind_eq_ok.1 h
    cases g2
    have k := fun hu => aborted_phase (c := c) hu g1
    exact ⟨(k ha).1, (k ha).2, fun i hi => by cases hi⟩
  case processResponseHeaders.refl =>
    obtain ⟨⟨t1, tr1⟩, g1, g2⟩ := Res.bind_eq_ok.1 h
    cases g2
    have k := fun hu => aborted_phase (c := c) hu g1
    exact ⟨(k ha).1, (k ha).2, fun i hi => by cases hi⟩
  all_goals first
    | exact hph ha h
    | (simp only [Res.ok.injEq, Prod.mk.injEq] at h
       obtain ⟨rfl, rfl, rfl⟩ := h
       exact ⟨ha, rfl, fun i hi => by cases hi⟩)

/-- C24.  On an aborted transaction, whatever is called except further aborts and
`ResetIntervention`: no rule is evaluated any more, every `Result` (or
`Intervention`) is disruptive with the abort's status, and the transaction stays
aborted. -/
theorem C24_abort_final {env : Env} {rs : RuleSet} {n : Nat} {c : Int} : ∀ {ops : List Op} {t t' : Tx} {os : List Out} {tr : Trace},
    Aborted c t → (∀ op ∈ ops, op.overrides = false) → t.steps env rs n ops = .ok (t', os, tr) →
    tr = [] ∧ (∀ i, .intervention i ∈ os → i.disruptive = true ∧ i.status = c) ∧ Aborted c t' := by
  intro ops
  induction ops with
  | nil => intro t t' os tr ha _ h; simp only [Tx.steps] at h; cases h; exact ⟨rfl, by simp, ha⟩
  | cons op ops ih =>
    intro t t' os tr ha hops h
    obtain ⟨t1, o, tr1, os2, tr2, h1, h2, rfl, rfl⟩ := steps_cons h
    obtain ⟨a1, rfl, a3⟩ := aborted_step ha (hops op (by simp)) h1
    obtain ⟨b1, b2, b3⟩ := ih a1 (fun op ho => hops op (by simp [ho])) h2
    refine ⟨by simp [b1], ?_, b3⟩
    intro i hi
    rcases List.mem_cons.1 hi with e | hi
    · exact a3 i e.symm
    · exact b2 i hi

/-- C24.  The abort calls of the host lead to such a state ... -/
theorem C24_host_abort (t : Tx) (c : Int) (e : Err) : Aborted c (t.abortWithStatus c) ∧ Aborted c (t.abortWithError c e) :=
  ⟨⟨rfl, rfl, rfl⟩, ⟨rfl, rfl, rfl⟩⟩

/-- ... and so does a variable fetch that aborts; no condition of the rule is
then true (not even a negated one) and no action runs: the outcome is the
transaction left by the fetches, whatever the operator and the actions. -/
theorem C24_fetch_abort {env : Env} {r : Rule} {t t1 : Tx} {vals : List Bytes}
    (h : fetchVars env r r.vars t = .ok (vals, t1)) (h0 : t.abort = false) (h1 : t1.abort = true) :
    (Aborted 413 t1 ∨ Aborted 500 t1) ∧ ∀ rs n, r.run env rs n t = .ok t1 := by
  constructor
  · rcases (fetchVars_fetched h).verdict with ⟨k, _⟩ | ⟨k1, k2, k3 | k3⟩
    · rw [h0, h1] at k; cases k
    · exact .inl ⟨k1, k2, k3⟩
    · exact .inr ⟨k1, k2, k3.1⟩
  · intro rs n
    simp [Rule.run, Rule.matches, h, matchLoop_abort h1]

/-- A body larger than memory, inspected by the second of two rules: abort with
413, the negated rule does not fire, `pass` in later phases is not evaluated and
every `Result` repeats the verdict. -/
example :
    let rs := rules [(3, { always [.pass] with vars := [.requestBody], not := true }), (3, always [.pass]), (4, always [.pass])]
    outsOf (run rs [.processRequestURL none b!"POST" [], .processRequestHeader (some [(b!"Content-Type", [b!"application/x-www-form-urlencoded"])]),
      .appendRequestBody b!"0123456789" {}, .processRequestBody, .result, .processResponseHeaders 200 [] none, .result]) |>.map
        (·.map fun o => match o with | .intervention i => (i.status, i.disruptive) | _ => (0, false))
      = some [(0, false), (0, false), (0, false), (0, false), (413, true), (0, false), (413, true)] := by
  decide +kernel

/-! ### C25: Result -/

/-- The neutral intervention. -/
def Spec.neutral : Intervention := { status := 200, pause := 0, url := none, log := [], disruptive := false }

theorem result_aborted {t : Tx} (h : t.abort = true) : t.result = (t.touch, t.intervention) := by
  have : (!t.touch.abort) = false := by simp [Tx.touch, h]
  simp only [Tx.result, this, Bool.false_eq_true, if_false]

theorem result_not_aborted {t : Tx} (h : t.abort = false) :
    t.result = ({ t with interv := some Intervention.neutral }, t.intervention) := by
  have : (!t.touch.abort) = true := by simp [Tx.touch, h]
  simp only [Tx.result, this, if_true]; rfl

/-- C25.  A new transaction has a neutral intervention; `Result` returns the
current one; afterwards it is neutral if the transaction is not aborted, and
unchanged otherwise; nothing else changes. -/
theorem C25_result (t : Tx) :
    t.result.2 = t.intervention ∧
    t.result.1.intervention = (if t.abort then t.intervention else Spec.neutral) ∧
    { t.result.1 with interv := t.interv } = t := by
  by_cases ht : t.abort = true
  · rw [result_aborted ht, if_pos ht]; exact ⟨rfl, rfl, rfl⟩
  · have ht' : t.abort = false := by simpa using ht
    rw [result_not_aborted ht', if_neg ht]; exact ⟨rfl, rfl, rfl⟩

theorem C25_new_is_neutral (l : Limits) : (newTransaction l).intervention = Spec.neutral := rfl

/-- C25.  Two `Result`s with nothing in between: the second is neutral, or when
aborted equal to the first, and leaves the transaction as it is. -/
theorem C25_result_twice (t : Tx) :
    t.result.1.result.2 = (if t.abort then t.result.2 else Spec.neutral) ∧ t.result.1.result.1 = t.result.1 := by
  refine ⟨?_, ?_⟩
  · rw [(C25_result t.result.1).1, (C25_result t).2.1, (C25_result t).1]
  · by_cases ht : t.abort = true
    · have h1 : t.touch.abort = true := ht
      rw [result_aborted ht, result_aborted h1]; rfl
    · have ht' : t.abort = false := by simpa using ht
      have h1 : ({ t with interv := some Intervention.neutral } : Tx).abort = false := ht'
      rw [result_not_aborted ht', result_not_aborted h1]

/-- C25.  `ResetIntervention`, and the action `pass`, make the intervention neutral even when
aborted, and change nothing else. -/
theorem C25_reset (t : Tx) :
    t.resetIntervention.intervention = Spec.neutral ∧ { t.resetIntervention with interv := t.interv } = t ∧
    (∀ rs n, Action.run rs n .pass t = .ok t.resetIntervention) ∧
    ∀ env rs n, t.step env rs n .resetIntervention = .ok (t.resetIntervention, .unit, []) :=
  ⟨rfl, rfl, fun _ _ => by simp only [Action.run], fun _ _ _ => rfl⟩

/-- Actions that do not erase the log. -/
def Action.keepsLog : Action → Prop
  | .pass => False
  | .custom _ f => ∀ t, t.intervention.log <+: (f t).intervention.log
  | _ => True

theorem keepsLog_prim {rs : RuleSet} {a : Action} (hb : a ≠ .block) (ha : a.keepsLog) {n : Nat} {t t' : Tx}
    (h : Action.run rs n a t = .ok t') : t.intervention.log <+: t'.intervention.log := by
  cases a with
  | block => exact absurd rfl hb
  | pass => exact ha.elim
  | custom g f => simp only [Action.run, Res.ok.injEq] at h; subst h; exact ha t
  | skip =>
    simp only [Action.run, Res.ok.injEq] at h; subst h
    simp only [skipDo, Tx.jumpTo]; split <;> exact List.prefix_refl _
  | allow arg =>
    simp only [Action.run, Res.ok.injEq] at h; subst h
    simp only [allowDo]; split
    · exact List.prefix_refl _
    · split
      · exact List.prefix_refl _
      · split <;> exact List.prefix_refl _
  | status m => simp only [Action.run, Res.ok.injEq] at h; subst h; exact List.prefix_refl _
  | log => simp only [Action.run, Res.ok.injEq] at h; subst h; exact List.prefix_append _ _
  | deny =>
    simp only [Action.run, Res.ok.injEq] at h; subst h
    rw [denyDo_eq]
    exact List.prefix_append _ _

/-- C25.  What has been logged since the last `Result` accumulates: calls other
than reading and resetting, with rules without `pass`, only extend the log. -/
theorem C25_log_accumulates {env : Env} {rs : RuleSet} {n : Nat}
    (hdef : ∀ a ∈ rs.defaultActions, a.keepsLog) (hact : ∀ p, ∀ r ∈ rs.phases p, ∀ a ∈ r.allActions, a.keepsLog)
    {ops : List Op} {t t' : Tx} {os : List Out} {tr : Trace} (hops : ∀ op ∈ ops, op.readsVerdict = false)
    (h : t.steps env rs n ops = .ok (t', os, tr)) : t.intervention.log <+: t'.intervention.log := by
  have hi : TxInv env rs (fun u => t.intervention.log <+: u.intervention.log) Action.keepsLog (fun op => op.readsVerdict = false) := by
    refine ⟨fun _ h => h, fun _ _ _ _ h => h, ?_, fun a hb ha n u u' hu hr => hu.trans (keepsLog_prim hb ha hr), hdef, hact,
      fun _ _ _ _ _ _ _ _ _ _ _ _ h => h, fun _ _ _ _ _ _ _ h _ => h, fun _ _ _ _ _ _ _ h _ => h, ?_⟩
    · intro u u' hu hf
      obtain ⟨ms, e⟩ := hf.log
      rw [e]; exact hu.trans (List.prefix_append _ _)
    · intro op hv hop n u u' o tr hu h
      cases op <;> cases hv <;> cases hop
      all_goals simp only [Tx.step, Res.ok.injEq, Prod.mk.injEq] at h
      all_goals obtain ⟨rfl, _⟩ := h
      all_goals first | exact hu | exact hu.trans (List.prefix_append _ _)
  exact hi.steps hops (List.prefix_refl _) h

/-- Two phases with a logging rule, read together, then nothing more to read. -/
example : (outsOf (run (rules [(2, always [.log]), (3, always [.log])])
    [.processRequestHeader none, .processRequestBody, .result, .result])).map
      (·.map fun o => match o with | .intervention i => i.log.length | _ => 9) = some [9, 9, 2, 0] := by
  decide +kernel

/-! ### C36: the log -/

/-- C36.  Logging appends one line, `[client ip:port] (phase n) ` and the message
with `n` the decimal phase number, to the intervention's log and changes nothing
else. -/
theorem C36_log_line (t : Tx) (msg : Bytes) :
    ∃ d, Spec.Decimal d t.phase ∧
      (t.log msg).intervention.log =
        t.intervention.log ++ [b!"[client " ++ t.srcIp ++ b!":" ++ t.srcPort ++ b!"] (phase " ++ d ++ b!") " ++ msg] ∧
      { (t.log msg).intervention with log := t.intervention.log } = t.intervention ∧
      { t.log msg with interv := t.interv } = t :=
  ⟨itoa t.phase, itoa_decimal _, rfl, rfl, rfl⟩

/-- The phases print as one digit. -/
theorem C36_phase_digit : ∀ p : Nat, p ≤ 7 → itoa p = [UInt8.ofNat (48 + p)] := by
  intro p hp
  have : ¬ ((p : Int) < 0) := by omega
  simp only [itoa, this, if_false, Int.natAbs_natCast]
  rw [natDigits, if_pos (by omega)]

/-- A line naming a client and a phase. -/
def Spec.LogLine (l : Bytes) : Prop :=
  ∃ ip port d n msg, Spec.Decimal d n ∧
    l = b!"[client " ++ ip ++ b!":" ++ port ++ b!"] (phase " ++ d ++ b!") " ++ msg

/-- Actions that log through the transaction. -/
def Action.logsLines : Action → Prop
  | .custom _ f => ∀ t, (∀ l ∈ t.intervention.log, Spec.LogLine l) → ∀ l ∈ (f t).intervention.log, Spec.LogLine l
  | _ => True

theorem logLine_ok (t : Tx) (msg : Bytes) : Spec.LogLine (t.logLine msg) :=
  ⟨t.srcIp, t.srcPort, itoa t.phase, t.phase, msg, itoa_decimal _, rfl⟩

/-- C36.  Whatever is called and whatever the rules, every line in the log of a
transaction names the client and the phase. -/
theorem C36_every_line {env : Env} {rs : RuleSet} {n : Nat} (hdef : ∀ a ∈ rs.defaultActions, a.logsLines)
    (hact : ∀ p, ∀ r ∈ rs.phases p, ∀ a ∈ r.allActions, a.logsLines) {l : Limits} {ops : List Op} {t : Tx} {os : List Out}
    {tr : Trace} (h : (newTransaction l).steps env rs n ops = .ok (t, os, tr)) :
    ∀ l ∈ t.intervention.log, Spec.LogLine l := by
  have hadd : ∀ {t : Tx} {u : Tx} {msg : Bytes}, (∀ l ∈ t.intervention.log, Spec.LogLine l) →
      u.intervention.log = t.intervention.log ++ [t.logLine msg] → ∀ l ∈ u.intervention.log, Spec.LogLine l := by
    intro t u msg h e l hl
    rw [e] at hl
    rcases List.mem_append.1 hl with hl | hl
    · exact h l hl
    · simp only [List.mem_singleton] at hl; subst hl; exact logLine_ok t msg
  have hi : TxInv env rs (fun u => ∀ l ∈ u.intervention.log, Spec.LogLine l) Action.logsLines (fun _ => True) := by
    refine ⟨fun _ h => h, fun _ _ _ _ h => h, ?_, ?_, hdef, hact,
      fun _ _ _ _ _ _ _ _ _ _ _ _ h => h, fun _ _ _ _ _ _ _ h _ => h, fun _ _ _ _ _ _ _ h _ => h, ?_⟩
    · intro u u' hu hf l hl
      obtain ⟨ms, e⟩ := hf.log
      rw [e] at hl
      rcases List.mem_append.1 hl with hl | hl
      · exact hu l hl
      · obtain ⟨m, _, rfl⟩ := List.mem_map.1 hl; exact logLine_ok u m
    · intro a hb ha n u u' hu h
      cases a with
      | block => exact absurd rfl hb
      | pass => simp only [Action.run, Res.ok.injEq] at h; subst h; simp [Tx.resetIntervention, Tx.setIntervention, Tx.intervention, Intervention.neutral]
      | custom g f => simp only [Action.run, Res.ok.injEq] at h; subst h; exact ha u hu
      | skip =>
        simp only [Action.run, Res.ok.injEq] at h; subst h
        simp only [skipDo, Tx.jumpTo]; split <;> exact hu
      | allow arg =>
        simp only [Action.run, Res.ok.injEq] at h; subst h
        simp only [allowDo]; split
        · exact hu
        · split
          · exact hu
          · split <;> exact hu
      | status m => simp only [Action.run, Res.ok.injEq] at h; subst h; exact hu
      | log => simp only [Action.run, Res.ok.injEq] at h; subst h; exact hadd hu rfl
      | deny =>
        simp only [Action.run, Res.ok.injEq] at h; subst h
        refine hadd (msg := b!"ModSecurity: Access denied with code 403") hu ?_
        rw [denyDo_eq]; rfl
    · intro op hv _ n u u' o tr hu h
      cases op <;> cases hv
      all_goals simp only [Tx.step, Tx.result, Res.ok.injEq, Prod.mk.injEq] at h
      all_goals obtain ⟨rfl, _⟩ := h
      all_goals first
        | exact hu
        | exact hadd hu rfl
        | (split
           · simp [Tx.setIntervention, Tx.intervention, Intervention.neutral]
           · exact hu)
        | simp [Tx.resetIntervention, Tx.setIntervention, Tx.intervention, Intervention.neutral]
  exact hi.steps (fun _ _ => trivial) (by simp [newTransaction, Tx.intervention, Intervention.neutral]) h

/-- The line of a `log` action in the request-headers phase. -/
example : (txOf (run (rules [(2, always [.log])]) exchange)).map (·.intervention.log) =
    some [b!"[client 1.2.3.4:5] (phase 2) ModSecurity: running action in phase 2 rule 0"] := by decide +kernel

end Verif
