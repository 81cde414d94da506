import Verif.Proofs.Logs
import Verif.Props.Log
import Verif.Props.Engine
/-! C126, C127: what a request can make the log say, and how much. -/
namespace Verif
open Sample Spec

/-! ### C126: a request cannot flood the log -/

/-- C126.  Rules that do not jump back write each of their lines once at most, however the exchange
goes and whatever the request holds: no verdict that a call returned, and not the one that is
pending, has more lines than the host wrote, the rules have and, if the transaction was aborted,
the rule that read the body has variables. -/
theorem C126_log_bounded {env : Env} {rs : RuleSet} (hl : rs.OfLibrary) (hf : rs.Forward) {m : Nat} (hm : rs.ReadsAtMost m) {l : Limits} {n : Nat} {ops : List Op}
    (hops : ∀ op ∈ ops, op.keepsCursor = true) {t : Tx} {os : List Out} {tr : Trace} (h : (newTransaction l).steps env rs n ops = .ok (t, os, tr)) :
    ∀ i ∈ t.intervention :: verdicts os, i.log.length ≤ (ops.flatMap Op.hostLines).length + rs.allLines + m := by
  intro i hi
  have h1 := (steps_wrote hl hm h).2.1 i hi
  have h2 := linesAt_sum hl.phases (C21_each_rule_once hf hops h)
  have h3 : (newTransaction l).intervention.log = [] := rfl
  have h4 : (newTransaction l).abort = false := rfl
  rw [h3, h4, if_neg (by simp)] at h1
  simp only [List.length_nil] at h1
  omega

theorem RuleSet.OfLibrary.reads {rs : RuleSet} (hl : rs.OfLibrary) : ∃ m, rs.ReadsAtMost m := by
  have bound : ∀ (f : Rule → Nat) (xs : List Rule), ∃ m, ∀ r ∈ xs, f r ≤ m := by
    intro f xs
    induction xs with
    | nil => exact ⟨0, by simp⟩
    | cons x xs ih =>
      obtain ⟨m, hm⟩ := ih
      refine ⟨f x + m, fun r hr => ?_⟩
      rcases List.mem_cons.1 hr with rfl | hr
      · omega
      · have := hm r hr; omega
  obtain ⟨a, ha⟩ := bound (fun r => r.vars.length) (([1, 2, 3, 4, 5, 6] : List Int).flatMap fun p => rs.phases p)
  obtain ⟨b, hb⟩ := bound (fun r => r.vars.length) ((([1, 2, 3, 4, 5, 6] : List Int).flatMap fun p => rs.phases p).flatMap Rule.subRules)
  refine ⟨a + b, fun p r hr => ?_⟩
  have hmem : r ∈ ([1, 2, 3, 4, 5, 6] : List Int).flatMap fun p => rs.phases p := by
    refine List.mem_flatMap.2 ⟨p, ?_, hr⟩
    have : 0 < p ∧ p < 7 := by
      refine Decidable.byContradiction fun hc => ?_
      rw [hl.phases p (by omega)] at hr
      cases hr
    simp only [List.mem_cons, List.not_mem_nil, or_false]; omega
  refine ⟨Nat.le_trans (ha r hmem) (by omega), fun s hs => Nat.le_trans (hb s (List.mem_flatMap.2 ⟨r, hmem, hs⟩)) (by omega)⟩

/-- C126, for a transaction that was not aborted: all that `Result` has handed out and what is still
pending, together, have no more lines than the host wrote and the rules have. -/
theorem C126_all_results {env : Env} {rs : RuleSet} (hl : rs.OfLibrary) (hf : rs.Forward) {l : Limits} {n : Nat} {ops : List Op}
    (hops : ∀ op ∈ ops, op.keepsCursor = true) {t : Tx} {os : List Out} {tr : Trace} (h : (newTransaction l).steps env rs n ops = .ok (t, os, tr)) (ha : t.abort = false) :
    t.intervention.log.length + handedOut ops os ≤ (ops.flatMap Op.hostLines).length + rs.allLines := by
  obtain ⟨m, hm⟩ := hl.reads
  have h1 := ((steps_wrote hl hm h).2.2 ha).2
  have h2 := linesAt_sum hl.phases (C21_each_rule_once hf hops h)
  have h3 : (newTransaction l).intervention.log = [] := rfl
  rw [h3] at h1
  simp only [List.length_nil] at h1
  omega

theorem RuleSet.OfLibrary.empty : ({} : RuleSet).OfLibrary := ⟨fun _ _ => rfl, fun _ _ h => (by cases h), fun _ h => (by cases h)⟩

theorem RuleSet.OfLibrary.addRule {rs : RuleSet} (h : rs.OfLibrary) {r : Rule} (hr : ∀ a ∈ r.allActions, a.Library) : (rs.addRule r).OfLibrary := by
  refine ⟨fun p hp => ?_, fun p x hx a ha => ?_, by rw [addRule_default]; exact h.defaults⟩
  · rw [addRule_phases, h.phases p hp, if_neg (by omega)]; rfl
  · rw [addRule_phases] at hx
    rcases List.mem_append.1 hx with hx | hx
    · exact h.acts p x hx a ha
    · split at hx
      · rw [List.mem_singleton.1 hx] at ha
        exact hr a ha
      · cases hx

/-- Rules of the library may be added to rules of the library. -/
theorem RuleSet.OfLibrary.addRules : ∀ {rules : List Rule} {rs : RuleSet}, rs.OfLibrary → (∀ r ∈ rules, ∀ a ∈ r.allActions, a.Library) → (rs.addRules rules).OfLibrary
  | [], _, h, _ => h
  | _ :: rules, _, h, hr => RuleSet.OfLibrary.addRules (rules := rules) (h.addRule (hr _ List.mem_cons_self)) fun x hx => hr x (List.mem_cons_of_mem _ hx)

theorem Sample.library (l : List (Int × List Action)) (h : ∀ e ∈ l, ∀ a ∈ e.2, a.Library) : (rules (l.map fun e => (e.1, always e.2))).OfLibrary := by
  refine RuleSet.OfLibrary.empty.addRules fun r hr a ha => ?_
  simp only [List.map_map, List.mem_map, Function.comp] at hr
  obtain ⟨e, he, rfl⟩ := hr
  simp [Rule.allActions, always] at ha
  exact h e he a ha

/-- Four lines and, if the client denies itself with the second rule, three of them. -/
def Sample.logging : RuleSet := rules [(2, always [.log, .log]), (2, always [.deny]), (2, always [.log]), (5, always [.skip])]

theorem Sample.logging_library : logging.OfLibrary :=
  library [(2, [.log, .log]), (2, [.deny]), (2, [.log]), (5, [.skip])] (by simp [Action.Library])

example : logging.allLines = 4 := by decide +kernel

example : ∃ t os tr, (newTransaction limits).steps env logging 20 [.processConnection b!"1.2.3.4" b!"55" b!"5.6.7.8" b!"80", .logf b!"hello",
      .processRequestHeader none, .processRequestHeader none, .result, .processLogging] = .ok (t, os, tr) ∧
    (verdicts os).map (·.log) = [[b!"[client 1.2.3.4:55] (phase 1) hello", b!"[client 1.2.3.4:55] (phase 2) ModSecurity: running action in phase 2 rule 0",
      b!"[client 1.2.3.4:55] (phase 2) ModSecurity: running action in phase 2 rule 0", b!"[client 1.2.3.4:55] (phase 2) ModSecurity: Access denied with code 403"]] :=
  ⟨_, _, _, rfl, by decide +kernel⟩

/-- The condition is needed: a rule that jumps back from the phase of the response body has the log
grow with each call. -/
theorem C126_condition_needed :
    ¬ ∀ (rs : RuleSet) (m : Nat) (ops : List Op), rs.OfLibrary → rs.ReadsAtMost m → (∀ op ∈ ops, op.keepsCursor = true) → ∀ n t os tr,
      (newTransaction limits).steps env rs n ops = .ok (t, os, tr) →
      ∀ i ∈ t.intervention :: verdicts os, i.log.length ≤ (ops.flatMap Op.hostLines).length + rs.allLines + m := by
  intro h
  have hl : (rules [(5, always [.log, .allow b!"request"])]).OfLibrary := library [(5, [.log, .allow b!"request"])] (by simp [Action.Library])
  have hm : (rules [(5, always [.log, .allow b!"request"])]).ReadsAtMost 1 := by
    intro p r hr
    simp only [rules, RuleSet.addRules, List.map, List.foldl, addRule_phases] at hr
    rcases List.mem_append.1 hr with hr | hr
    · cases hr
    · split at hr
      · rw [List.mem_singleton.1 hr]; simp [always]
      · cases hr
  have := h _ 1 [.processResponseBody, .processResponseBody, .processResponseBody] hl hm (by decide) 20 _ _ _ rfl _ List.mem_cons_self
  revert this
  decide +kernel

/-! #### For texts -/

/-- The number of `deny` and `log` in a text. -/
def Spec.logsIn (dirs : List PDir) : Nat :=
  (dirs.map fun | .rule p => (p.acts.action.map fun a => match a.tk with | .deny | .log => 1 | _ => 0).sum | _ => 0).sum

theorem pairs_sum {α β : Type} {R : α → β → Prop} {f : α → Nat} {g : β → Nat} (h : ∀ a b, R a b → f a = g b) : ∀ {l : List α} {l' : List β}, Pairs R l l' → (l.map f).sum = (l'.map g).sum
  | _, _, .nil => rfl
  | _, _, .cons hr ht => by rw [List.map_cons, List.map_cons, List.sum_cons, List.sum_cons, h _ _ hr, pairs_sum h ht]

theorem pairs_length {α β : Type} {R : α → β → Prop} : ∀ {l : List α} {l' : List β}, Pairs R l l' → l.length = l'.length
  | _, _, .nil => rfl
  | _, _, .cons _ ht => by rw [List.length_cons, List.length_cons, pairs_length ht]

/-- The rules of an engine that a text made. -/
theorem loaded_ofLibrary {lib : Lib} {vo : VarOrd} {text : Bytes} {set : DireSet} (hl : DireSet.addSecLangString lib vo [] text = .ok (set, none)) :
    (set.execute newEngine).ruleSet.OfLibrary := by
  obtain ⟨h1, h2⟩ := loaded_action hl
  refine ⟨fun p hp => ?_, fun p r hr a ha => ?_, by rw [h2]; simp⟩
  · rw [C58_rules, newEngine_phases, List.nil_append, if_neg (by omega)]
  · obtain ⟨x, hx⟩ := h1 p r hr a ha
    cases hx <;> trivial

theorem sum_filters (w : Rule → Nat) (g : Rule → Int) : ∀ (ps : List Int), ps.Nodup → ∀ (xs : List Rule), (ps.map fun p => ((xs.filter fun r => g r = p).map w).sum).sum ≤ (xs.map w).sum
  | ps, hn, [] => by
    induction ps with
    | nil => simp
    | cons p ps ih => simpa using ih (List.nodup_cons.1 hn).2
  | ps, hn, x :: xs => by
    have ih := sum_filters w g ps hn xs
    have : (ps.map fun p => (((x :: xs).filter fun r => g r = p).map w).sum).sum ≤ w x + (ps.map fun p => ((xs.filter fun r => g r = p).map w).sum).sum := by
      clear ih
      induction ps with
      | nil => simp
      | cons p ps ih =>
        rw [List.nodup_cons] at hn
        simp only [List.map_cons, List.sum_cons]
        by_cases hp : g x = p
        · have hx : (ps.map fun p => (((x :: xs).filter fun r => g r = p).map w).sum) = ps.map fun p => ((xs.filter fun r => g r = p).map w).sum := by
            apply List.map_congr_left
            intro q hq
            have : g x ≠ q := by rintro rfl; exact hn.1 (hp ▸ hq)
            rw [List.filter_cons, if_neg (by simpa using this)]
          rw [hx, List.filter_cons, if_pos (by simpa using hp), List.map_cons, List.sum_cons]
          omega
        · have := ih hn.2
          rw [List.filter_cons, if_neg (by simpa using hp)]
          omega
    rw [List.map_cons, List.sum_cons]
    omega

/-- The rules that a text makes write a line for each `deny` and `log` in the text, at most. -/
theorem loaded_lines {lib : Lib} {vo : VarOrd} {text : Bytes} {set : DireSet} (hl : DireSet.addSecLangString lib vo [] text = .ok (set, none)) {dirs : List PDir} (hp : Program text dirs) :
    (set.execute newEngine).ruleSet.allLines ≤ logsIn dirs := by
  obtain ⟨dirs', ds, hp', hd, rfl⟩ := loaded_set hl
  have : dirs' = dirs := by
    have h1 := (C53_exact id _ _).2 hp
    have h2 := (C53_exact id _ _).2 hp'
    rw [h1] at h2
    simpa using h2.symm
  subst this
  have hdef : (DireSet.execute (group ds) newEngine).ruleSet.defaultActions = [] := (C58_switches (group ds) newEngine).2.2
  have hall := C57_all_rules ds.length ds (Nat.le_refl _) (fun r hr => (loaded_rule_origin hd hr).elim fun _ hp => hp.2.subRules)
  have hlines : ∀ a : Action, (DireSet.execute (group ds) newEngine).ruleSet.linesOf a = a.linesAlone := by
    intro a
    cases a <;> simp only [RuleSet.linesOf]
    rw [hdef]; rfl
  have hrule : ∀ r : Rule, (DireSet.execute (group ds) newEngine).ruleSet.linesOfRule r = (r.allActions.map Action.linesAlone).sum := by
    intro r
    rw [RuleSet.linesOfRule, List.map_congr_left fun a _ => hlines a]
  have hphase : ∀ p : Int, p ∈ ([1, 2, 3, 4, 5, 6] : List Int) → (DireSet.execute (group ds) newEngine).ruleSet.phases p = (rulesOf (group ds)).filter fun r => r.phase = p := by
    intro p hp
    rw [C58_rules, newEngine_phases, List.nil_append, if_pos]
    simp only [List.mem_cons, List.not_mem_nil, or_false] at hp
    omega
  have h1 : (DireSet.execute (group ds) newEngine).ruleSet.allLines ≤ ((rulesOf (group ds)).map fun r => (r.allActions.map Action.linesAlone).sum).sum := by
    refine Nat.le_trans (Nat.le_of_eq ?_) (sum_filters (fun r => (r.allActions.map Action.linesAlone).sum) Rule.phase [1, 2, 3, 4, 5, 6] (by decide) (rulesOf (group ds)))
    simp only [RuleSet.allLines]
    congr 1
    apply List.map_congr_left
    intro p hp
    rw [hphase p hp]
    congr 1
    exact List.map_congr_left fun r _ => hrule r
  have h2 : ∀ xs : List Rule, (xs.map fun r => (r.allActions.map Action.linesAlone).sum).sum =
      ((xs.flatMap fun r => ({ r with subRules := [] } : Rule) :: r.subRules).map fun r => (r.actions.map Action.linesAlone).sum).sum := by
    intro xs
    induction xs with
    | nil => rfl
    | cons x xs ih =>
      have : ∀ ss : List Rule, ((ss.flatMap fun s => s.actions).map Action.linesAlone).sum = (ss.map fun r => (r.actions.map Action.linesAlone).sum).sum := by
        intro ss
        induction ss with
        | nil => rfl
        | cons s ss ih => rw [List.flatMap_cons, List.map_append, List.sum_append_nat, ih, List.map_cons, List.sum_cons]
      rw [List.map_cons, List.sum_cons, ih, List.flatMap_cons, List.map_append, List.sum_append_nat, List.map_cons, List.sum_cons, Rule.allActions, List.map_append, List.sum_append_nat, this]
  have hmeans : ∀ p r, RuleMeans lib p r → (r.actions.map Action.linesAlone).sum = (p.acts.action.map fun a => match a.tk with | .deny | .log => 1 | _ => 0).sum := by
    intro p r hm
    rw [← pairs_sum (f := fun a : PAct => match a.tk with | .deny | .log => 1 | _ => 0) (by intro a b h; cases h <;> rfl) hm.actions]
    generalize p.acts.action = as
    induction as with
    | nil => rfl
    | cons a as ih =>
      rcases a with ⟨k, arg⟩
      cases k <;> simp only [List.filter_cons, metaName, Option.isNone_some, Option.isNone_none, Bool.false_eq_true, if_true, if_false, List.map_cons, List.sum_cons] at ih ⊢ <;> omega
  have h3 : ∀ {dirs : List PDir} {ds : List Dire}, Pairs (DirMeans lib) dirs ds → ((rulesOf ds).map fun r => (r.actions.map Action.linesAlone).sum).sum = logsIn dirs := by
    intro dirs ds h
    induction h with
    | nil => rfl
    | @cons a b l l' hr ht ih =>
      cases hr with
      | rule hm =>
        simp only [rulesOf, List.filterMap_cons, List.map_cons, List.sum_cons, logsIn] at ih ⊢
        rw [hmeans _ _ hm, ih]
      | _ =>
        simp only [rulesOf, List.filterMap_cons, List.map_cons, List.sum_cons, logsIn] at ih ⊢
        omega
  rw [h2, hall, h3 hd] at h1
  exact h1

/-- C126 for texts: in an engine whose rules were loaded from a text without `allow:request` no
verdict has more lines than the host wrote, the text has `deny` and `log`, and any one rule of it
has variables. -/
theorem C126_loaded {lib : Lib} {vo : VarOrd} {ord : IterOrd} {text : Bytes} {set : DireSet} (hl : DireSet.addSecLangString lib vo [] text = .ok (set, none))
    {dirs : List PDir} (hp : Program text dirs) (hno : ∀ p a, .rule p ∈ dirs → a ∈ p.acts.action → a.tk = .allow → ¬ Unquoted a.arg b!"request")
    {m : Nat} (hm : ∀ p, .rule p ∈ dirs → p.vars.length ≤ m) {n : Nat} {ops : List Op} (hops : ∀ op ∈ ops, op.keepsCursor = true) {t : Tx} {os : List Out} {tr : Trace}
    (h : (set.execute newEngine).newTransaction.steps ((set.execute newEngine).env lib ord) (set.execute newEngine).ruleSet n ops = .ok (t, os, tr)) :
    (∀ i ∈ t.intervention :: verdicts os, i.log.length ≤ (ops.flatMap Op.hostLines).length + logsIn dirs + m) ∧
      (t.abort = false → t.intervention.log.length + handedOut ops os ≤ (ops.flatMap Op.hostLines).length + logsIn dirs) := by
  have huniq : ∀ dirs', Program text dirs' → dirs' = dirs := by
    intro dirs' hp'
    have h1 := (C53_exact id _ _).2 hp
    have h2 := (C53_exact id _ _).2 hp'
    rw [h1] at h2
    simpa using h2.symm
  have hf := (loaded_forward hl fun dirs' p a hp' => by rw [huniq dirs' hp']; exact hno p a).1
  have hL := loaded_ofLibrary hl
  have hlines := loaded_lines hl hp
  have hm' : (set.execute newEngine).ruleSet.ReadsAtMost m := by
    obtain ⟨dirs', ds, hp', hd, rfl⟩ := loaded_set hl
    have := huniq dirs' hp'
    subst this
    have key : ∀ p x, .rule p ∈ dirs' → RuleMeans lib p x → x.vars.length ≤ m := by
      intro p x hp hx
      obtain ⟨ks, h1, h2, h3⟩ := hx.vars
      rw [← pairs_length h3]
      refine Nat.le_trans ?_ (hm p hp)
      have : ks.length ≤ (p.vars.map fun v => (v.tk, v.count)).length := by
        have := sum_le_of_nodup (fun _ => 1) (l' := p.vars.map fun v => (v.tk, v.count)) h1 fun k hk _ => by
          obtain ⟨v, hv, e⟩ := (h2 k).1 hk
          exact List.mem_map.2 ⟨v, hv, e⟩
        have one : ∀ {α : Type} (l : List α), (l.map fun _ => 1).sum = l.length := by
          intro α l
          induction l with
          | nil => rfl
          | cons a l ih => rw [List.map_cons, List.sum_cons, ih, List.length_cons, Nat.add_comm]
        rwa [one, one] at this
      simpa using this
    intro p r hr
    obtain ⟨_, _, h3, _⟩ := engine_rule hd hr
    obtain ⟨⟨p1, o1, o2⟩, o3⟩ := grouped_rule_origin hd h3
    exact ⟨key p1 { r with subRules := [] } o1 o2, fun s hs => (o3 s hs).elim fun p2 k => key p2 s k.1 k.2⟩
  refine ⟨fun i hi => ?_, fun ha => ?_⟩
  · have := C126_log_bounded hL hf hm' hops h i hi
    omega
  · have := C126_all_results hL hf hops h ha
    omega

/-- One rule with `deny` and one variable: whatever is sent, a verdict has two lines at most. -/
example {set : DireSet} (hl : DireSet.addSecLangString lib varOrd [] denyText = .ok (set, none)) {n : Nat} {hd : Option GoMap} {cs : List (Bytes × IOFault)} {t : Tx} {os : List Out} {tr : Trace}
    (h : (set.execute newEngine).newTransaction.steps ((set.execute newEngine).env lib Sample.ord) (set.execute newEngine).ruleSet n
      (.processRequestHeader hd :: (cs.map fun c => .appendRequestBody c.1 c.2) ++ [.processRequestBody, .processLogging, .result]) = .ok (t, os, tr)) :
    ∀ i ∈ verdicts os, i.log.length ≤ 2 := by
  intro i hi
  have := (C126_loaded hl denyText_program (m := 1) (by intro p a hp ha htk; simp at hp; subst hp; simp [denyParsed] at ha; rw [ha] at htk; cases htk)
    (by intro p hp; simp at hp; subst hp; decide) (by intro op hop; simp at hop; rcases hop with rfl | ⟨a, b, _, rfl⟩ | rfl | rfl | rfl <;> rfl) h).1 i (List.mem_cons_of_mem _ hi)
  have e : ((.processRequestHeader hd :: (cs.map fun c => .appendRequestBody c.1 c.2) ++ [.processRequestBody, .processLogging, .result] : List Op).flatMap Op.hostLines) = [] := by
    simp [List.flatMap_cons, List.flatMap_append, Op.hostLines, List.flatMap_map]
  rw [e] at this
  exact this

/-! ### C127: nothing of the request gets into the log but the client's address -/

/-- C127.  Every line of every verdict names a client that `ProcessConnection` told (or none) and
carries a message of the library, whose only variable parts are numbers of phases and rules, or
one that the host wrote.  Nothing else of what the client sends gets into the log. -/
theorem C127_log_lines {env : Env} {rs : RuleSet} (hl : rs.OfLibrary) {l : Limits} {n : Nat} {ops : List Op} {t : Tx} {os : List Out} {tr : Trace}
    (h : (newTransaction l).steps env rs n ops = .ok (t, os, tr)) :
    ∀ i ∈ t.intervention :: verdicts os, ∀ x ∈ i.log, LineBy (([], []) :: ops.flatMap Op.client) (ops.flatMap Op.hostLines) x := by
  intro i hi x hx
  obtain ⟨m, hm⟩ := hl.reads
  rcases (steps_wrote hl hm h).1 i hi x hx with h | h
  · cases h
  · exact h

/-- A request that tries: nothing of it is in the log. -/
example {t : Tx} {os : List Out} {tr : Trace} {hd : Bytes} {n : Nat}
    (h : (newTransaction limits).steps env logging n [.processConnection b!"1.2.3.4" b!"55" b!"5.6.7.8" b!"80",
      .processRequestHeader (some [(b!"User-Agent", [hd])]), .processRequestBody, .processLogging] = .ok (t, os, tr)) :
    ∀ x ∈ t.intervention.log, LineBy [([], []), (b!"1.2.3.4", b!"55")] [] x :=
  C127_log_lines logging_library h _ List.mem_cons_self

/-- The client's address is what `ProcessConnection` was told, of any bytes. -/
example : ∃ t os tr, (newTransaction limits).steps env logging 20 [.processConnection b!"1.2.3.4\nevil" b!"55" [] [], .logf b!"x"] = .ok (t, os, tr) ∧
    t.intervention.log = [b!"[client 1.2.3.4\nevil:55] (phase 1) x"] := ⟨_, _, _, rfl, by decide +kernel⟩

/-- C127 for texts: whatever text the rules were loaded from. -/
theorem C127_loaded {lib : Lib} {vo : VarOrd} {ord : IterOrd} {text : Bytes} {set : DireSet} (hl : DireSet.addSecLangString lib vo [] text = .ok (set, none))
    {n : Nat} {ops : List Op} {t : Tx} {os : List Out} {tr : Trace}
    (h : (set.execute newEngine).newTransaction.steps ((set.execute newEngine).env lib ord) (set.execute newEngine).ruleSet n ops = .ok (t, os, tr)) :
    ∀ i ∈ t.intervention :: verdicts os, ∀ x ∈ i.log, LineBy (([], []) :: ops.flatMap Op.client) (ops.flatMap Op.hostLines) x :=
  C127_log_lines (loaded_ofLibrary hl) h

end Verif
