import Verif.Props.Loaded
import Verif.Props.Verdict
import Verif.Props.Variables
/-! C70, C71: what becomes of log lines; C23 and C68 for rules loaded from a text. -/
namespace Verif
open Sample Spec

/-- Every action of the rules loaded from a text is one of those a text can name. -/
theorem loaded_action {lib : Lib} {vo : VarOrd} {text : Bytes} {set : DireSet}
    (hl : DireSet.addSecLangString lib vo [] text = .ok (set, none)) :
    (∀ p, ∀ r ∈ (set.execute newEngine).ruleSet.phases p, ∀ a ∈ r.allActions, ∃ x, ActMeans x a) ∧
      (set.execute newEngine).ruleSet.defaultActions = [] := by
  obtain ⟨dirs, ds, hp, hd, rfl⟩ := loaded_set hl
  refine ⟨?_, (C58_switches (group ds) newEngine).2.2⟩
  intro q r hr a ha
  have key : ∀ p x, RuleMeans lib p x → ∀ a ∈ x.actions, ∃ b, ActMeans b a := by
    intro p x hm a ha
    obtain ⟨b, _, hba⟩ := pairs_mem_right hm.actions ha
    exact ⟨b, hba⟩
  obtain ⟨_, _, h3, _⟩ := engine_rule hd hr
  obtain ⟨⟨p1, _, o2⟩, o3⟩ := grouped_rule_origin hd h3
  simp only [Rule.allActions, List.mem_append, List.mem_flatMap] at ha
  rcases ha with ha | ⟨s, hs, ha⟩
  · exact key p1 _ o2 a ha
  · obtain ⟨p2, _, k2⟩ := o3 s hs
    exact key p2 s k2 a ha

/-- C23 for texts: in an engine whose rules were loaded from a text, a disruptive
verdict stays until the host reads or resets it. -/
theorem C23_loaded {lib : Lib} {vo : VarOrd} {ord : IterOrd} {text : Bytes} {set : DireSet}
    (hl : DireSet.addSecLangString lib vo [] text = .ok (set, none)) {n : Nat} {ops : List Op} {t t' : Tx} {os : List Out} {tr : Trace}
    (hops : ∀ op ∈ ops, op.readsVerdict = false) (hd : t.intervention.disruptive = true)
    (h : t.steps ((set.execute newEngine).env lib ord) (set.execute newEngine).ruleSet n ops = .ok (t', os, tr)) :
    t'.intervention.disruptive = true := by
  obtain ⟨h1, h2⟩ := loaded_action hl
  refine C23_verdict_kept_partial (by rw [h2]; simp) ?_ hops hd h
  intro p r hr a ha
  obtain ⟨x, hx⟩ := h1 p r hr a ha
  cases hx <;> trivial

/-- C68 for texts: rules loaded from a text do not alter what the host has told. -/
theorem C68_loaded {lib : Lib} {vo : VarOrd} {text : Bytes} {set : DireSet}
    (hl : DireSet.addSecLangString lib vo [] text = .ok (set, none)) : (set.execute newEngine).ruleSet.KeepsFacts := by
  obtain ⟨h1, h2⟩ := loaded_action hl
  refine ⟨?_, by rw [h2]; simp⟩
  intro p r hr a ha
  obtain ⟨x, hx⟩ := h1 p r hr a ha
  cases hx <;> trivial

/-- C36 in terms of the calls: the line the host logs names the client of the last
`ProcessConnection`, and is the last line of the log. -/
theorem C36_client {env : Env} {rs : RuleSet} (hrs : rs.KeepsFacts) {l : Limits} {n : Nat} {ops : List Op} {m : Bytes} {t : Tx}
    {os : List Out} {tr : Trace} (h : (newTransaction l).steps env rs n (ops ++ [.logf m]) = .ok (t, os, tr)) :
    ∃ d, Spec.Decimal d t.phase ∧ t.intervention.log.getLast? =
      some (b!"[client " ++ (ops.foldl told {}).srcIp ++ b!":" ++ (ops.foldl told {}).srcPort ++ b!"] (phase " ++ d ++ b!") " ++ m) := by
  obtain ⟨t1, os1, tr1, os2, tr2, a1, a2, _, _⟩ := steps_append h
  obtain ⟨t2, o, tr3, os3, tr4, a3, a4, _, _⟩ := steps_cons a2
  simp only [Tx.steps, Res.ok.injEq, Prod.mk.injEq] at a4
  obtain ⟨rfl, _, _⟩ := a4
  simp only [Tx.step, Res.ok.injEq, Prod.mk.injEq] at a3
  obtain ⟨rfl, _, _⟩ := a3
  have hf := C68_history hrs a1
  rw [C68_new] at hf
  obtain ⟨d, h1, h2, _, h4⟩ := C36_log_line t1 m
  refine ⟨d, by rw [← h4] at h1; exact h1, ?_⟩
  rw [h2, List.getLast?_append, ← hf]
  rfl

/-- Two connections: the line names the second. -/
example (env : Env) : ∃ t os tr, (newTransaction { requestBody := 1, requestBodyInMem := 1, responseBody := 1 }).steps env {} 9
      ([.processConnection b!"1.1.1.1" b!"1" b!"2.2.2.2" b!"2", .processConnection b!"3.3.3.3" b!"3" b!"4.4.4.4" b!"4"] ++ [.logf b!"x"]) = .ok (t, os, tr) ∧
    t.intervention.log = [b!"[client 3.3.3.3:3] (phase 1) x"] := ⟨_, _, _, rfl, by decide +kernel⟩

/-! ### C70: no log line is lost -/

/-- C70, the full claim: a line logged by the host is in the log that the next
`Result` returns. -/
def C70_statement : Prop :=
  ∀ (env : Env) (rs : RuleSet) (n : Nat) (t t' : Tx) (m : Bytes) (ops : List Op) (os : List Out) (i : Intervention) (tr : Trace),
    (∀ op ∈ ops, op.readsVerdict = false) → t.steps env rs n (.logf m :: ops ++ [.result]) = .ok (t', os ++ [.intervention i], tr) →
    t.logLine m ∈ i.log

/-- C70, what is true: without `pass` (and host-written actions that remove lines)
the line is reported, after everything logged before it. -/
theorem C70_reported_partial {env : Env} {rs : RuleSet} {n : Nat}
    (hdef : ∀ a ∈ rs.defaultActions, a.keepsLog) (hact : ∀ p, ∀ r ∈ rs.phases p, ∀ a ∈ r.allActions, a.keepsLog)
    {t t' : Tx} {m : Bytes} {ops : List Op} {os : List Out} {i : Intervention} {tr : Trace}
    (hops : ∀ op ∈ ops, op.readsVerdict = false) (h : t.steps env rs n (.logf m :: ops ++ [.result]) = .ok (t', os ++ [.intervention i], tr)) :
    t.logLine m ∈ i.log ∧ t.intervention.log <+: i.log := by
  obtain ⟨t1, o, tr1, os2, tr2, h1, h2, h3, rfl⟩ := steps_cons h
  simp only [Tx.step, Res.ok.injEq, Prod.mk.injEq] at h1
  obtain ⟨rfl, rfl, rfl⟩ := h1
  obtain ⟨t2, os3, tr3, os4, tr4, g1, g2, rfl, rfl⟩ := steps_append h2
  obtain ⟨t3, o3, tr5, os5, tr6, k1, k2, rfl, rfl⟩ := steps_cons g2
  simp only [Tx.steps, Res.ok.injEq, Prod.mk.injEq] at k2
  obtain ⟨rfl, rfl, rfl⟩ := k2
  simp only [Tx.step, Tx.result, Res.ok.injEq, Prod.mk.injEq] at k1
  obtain ⟨_, rfl, _⟩ := k1
  have e : i = t2.intervention := by
    have := congrArg List.getLast? h3
    rw [← List.cons_append, List.getLast?_append, List.getLast?_append] at this
    simpa using this
  subst e
  have hp := C25_log_accumulates hdef hact hops g1
  have hl : (t.log m).intervention.log = t.intervention.log ++ [t.logLine m] := rfl
  rw [hl] at hp
  exact ⟨hp.mem (by simp), (List.prefix_append _ _).trans hp⟩

/-- C70 for texts: no rule that can be written in a text loses a log line. -/
theorem C70_loaded {lib : Lib} {vo : VarOrd} {ord : IterOrd} {text : Bytes} {set : DireSet}
    (hl : DireSet.addSecLangString lib vo [] text = .ok (set, none)) {n : Nat} {ops : List Op} {t t' : Tx} {os : List Out} {tr : Trace}
    (hops : ∀ op ∈ ops, op.readsVerdict = false)
    (h : t.steps ((set.execute newEngine).env lib ord) (set.execute newEngine).ruleSet n ops = .ok (t', os, tr)) :
    t.intervention.log <+: t'.intervention.log := by
  obtain ⟨h1, h2⟩ := loaded_action hl
  refine C25_log_accumulates (by rw [h2]; simp) ?_ hops h
  intro p r hr a ha
  obtain ⟨x, hx⟩ := h1 p r hr a ha
  cases hx <;> trivial

/-- C70: `pass` empties the log, whatever is in it. -/
theorem C70_pass (rs : RuleSet) (n : Nat) (t : Tx) : ∃ t', Action.run rs n .pass t = .ok t' ∧ t'.intervention.log = [] :=
  ⟨_, by cases n <;> rfl, rfl⟩

theorem C70_refuted : ¬ C70_statement := by
  intro h
  have := h env (rules [(2, always [.pass])]) 20 (newTransaction limits) _ b!"note" [.processRequestHeader none] [.unit, .unit] _ _
    (by decide) rfl
  revert this
  decide +kernel

/-- Without `pass` the host's line and those of the rules are reported together. -/
example :
    (outsOf (run (rules [(2, always [.log]), (2, always [.deny])]) [.logf b!"note", .processRequestHeader none, .result])).map
      (·.map fun o => match o with | .intervention i => i.log.length | _ => 9) = some [9, 9, 3] := by
  decide +kernel

/-! ### C71: the log line of deny -/

/-- C71, the full claim: the line logged by `deny` names the status of the verdict. -/
def C71_statement : Prop :=
  ∀ t : Tx, ∃ d, Decimal d (denyDo t).intervention.status ∧
    (denyDo t).intervention.log = t.intervention.log ++ [t.logLine (b!"ModSecurity: Access denied with code " ++ d)]

theorem decimal_403 {v : Int} : Decimal b!"403" v ↔ v = 403 := by
  have h : Decimal b!"403" 403 := ((parseInt_iff _ _).1 (by decide +kernel)).1
  refine ⟨fun hv => ?_, fun hv => hv ▸ h⟩
  obtain ⟨ds, _, ⟨h1, h2⟩ | ⟨h1, _⟩ | ⟨h1, _⟩⟩ := hv
  · subst h1; rw [h2]; decide +kernel
  · have : (b!"403").head? = some 43 := by rw [h1]; rfl
    exact absurd this (by decide +kernel)
  · have : (b!"403").head? = some 45 := by rw [h1]; rfl
    exact absurd this (by decide +kernel)

/-- C71, exactly: it does so iff the status is 403; 403 is what it always says. -/
theorem C71_log_partial (t : Tx) :
    (denyDo t).intervention.log = t.intervention.log ++ [t.logLine b!"ModSecurity: Access denied with code 403"] ∧
    ((∃ d, Decimal d (denyDo t).intervention.status ∧
        (denyDo t).intervention.log = t.intervention.log ++ [t.logLine (b!"ModSecurity: Access denied with code " ++ d)]) ↔
      (denyDo t).intervention.status = 403) := by
  have h1 : (denyDo t).intervention.log = t.intervention.log ++ [t.logLine b!"ModSecurity: Access denied with code 403"] := by
    rw [denyDo_eq]; rfl
  have e : b!"ModSecurity: Access denied with code 403" = b!"ModSecurity: Access denied with code " ++ b!"403" := by decide +kernel
  refine ⟨h1, ?_⟩
  rw [h1, e]
  constructor
  · rintro ⟨d, hd, h⟩
    have : b!"403" = d := by simpa [Tx.logLine] using h
    exact decimal_403.1 (this ▸ hd)
  · intro h
    exact ⟨b!"403", decimal_403.2 h, rfl⟩

theorem C71_refuted : ¬ C71_statement := by
  intro h
  have := (C71_log_partial ((newTransaction limits).setIntervention { (newTransaction limits).intervention with status := 404 })).2.1 (h _)
  revert this
  decide +kernel

end Verif
