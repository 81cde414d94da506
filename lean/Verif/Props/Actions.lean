import Verif.Proofs.PhaseRun
import Verif.Proofs.Fuel
import Verif.Props.Sample
/-!
Properties C26, C27, C28, C39: the actions of a rule.
-/
namespace Verif
open Sample

/-! ### C27: order of the actions -/

/-- C27.  Two action lists with the same actions of each group, in the same
order inside each group, have the same effect. -/
theorem C27_only_group_order_matters {as bs : List Action}
    (h : ∀ g : Int, as.filter (fun a => decide (a.group = g)) = bs.filter (fun a => decide (a.group = g)))
    (rs : RuleSet) (n : Nat) (t : Tx) :
    actionsExecute (Action.run rs n) as t = actionsExecute (Action.run rs n) bs t := by
  have hmem : ∀ {as bs : List Action}, (∀ g : Int, as.filter (fun a => decide (a.group = g)) = bs.filter (fun a => decide (a.group = g))) →
      ∀ a ∈ as, a ∈ bs := by
    intro as bs h a ha
    have : a ∈ as.filter (fun b => decide (b.group = a.group)) := by simp [List.mem_filter, ha]
    rw [h] at this
    exact (List.mem_filter.1 this).1
  have hg : grouped as = grouped bs := by
    simp only [grouped, inGroup]
    rw [h 0, h 1, h 2, h 3, h 4]
  simp only [actionsExecute]
  cases e1 : actionMap as (List.replicate groupCount []) with
  | none =>
    obtain ⟨a, ha, hr⟩ := actionMap_none.1 e1
    have e2 : actionMap bs (List.replicate groupCount []) = none := actionMap_none.2 ⟨a, hmem h a ha, hr⟩
    rw [e2]
  | some m =>
    cases e2 : actionMap bs (List.replicate groupCount []) with
    | none =>
      obtain ⟨a, ha, hr⟩ := actionMap_none.1 e2
      have e3 : actionMap as (List.replicate groupCount []) = none := actionMap_none.2 ⟨a, hmem (fun g => (h g).symm) a ha, hr⟩
      rw [e1] at e3; cases e3
    | some m' => simp only [actionMap_grouped e1, actionMap_grouped e2, hg]

/-- Actions run one after the other, each on what the one before it left; none after a panic. -/
def Spec.oneAfterOther (run : Action → Tx → Res Tx) (as : List Action) (t : Tx) : Res Tx := as.foldl (fun u a => u.bind (run a)) (.ok t)

theorem doAll_oneAfterOther (run : Action → Tx → Res Tx) (as : List Action) (t : Tx) : doAll run as t = Spec.oneAfterOther run as t := by
  have go : ∀ (as : List Action) (u : Res Tx), as.foldl (fun u a => u.bind (run a)) u = u.bind fun t => doAll run as t := by
    intro as
    induction as with
    | nil => intro u; cases u <;> rfl
    | cons a as ih => intro u; rw [List.foldl_cons, ih]; cases u <;> rfl
  exact (go as (.ok t)).symm

/-- C27.  The order across groups: metadata (0), data (1), non-disruptive (2),
disruptive (3), flow (4), each group in list order; an action of any other group
makes the execution panic. -/
theorem C27_group_sequence (as : List Action) (rs : RuleSet) (n : Nat) (t : Tx) :
    ((∀ a ∈ as, 0 ≤ a.group ∧ a.group ≤ 4) →
      actionsExecute (Action.run rs n) as t =
        Spec.oneAfterOther (Action.run rs n) ([0, 1, 2, 3, 4].flatMap fun g => as.filter fun a => decide (a.group = g)) t) ∧
    ((∃ a ∈ as, a.group < 0 ∨ 4 < a.group) → actionsExecute (Action.run rs n) as t = .panic) := by
  have hlen : (List.replicate groupCount ([] : List Action)).length = 5 := by simp [groupCount]
  constructor
  · intro h
    simp only [actionsExecute]
    cases e : actionMap as (List.replicate groupCount []) with
    | none =>
      obtain ⟨a, ha, hr⟩ := actionMap_none.1 e
      rw [hlen] at hr
      have := h a ha
      omega
    | some m =>
      simp only [actionMap_grouped e, grouped, inGroup, doAll_oneAfterOther]
      simp
  · rintro ⟨a, ha, hr⟩
    have e : actionMap as (List.replicate groupCount []) = none :=
      actionMap_none.2 ⟨a, ha, by rw [hlen]; omega⟩
    simp only [actionsExecute, e]

/-- What kind of action a built-in action is. -/
inductive Spec.Kind where
  | data | log | disruptive | flow
deriving DecidableEq

def Spec.kind : Action → Option Kind
  | .status _ => some .data
  | .log => some .log
  | .deny | .block | .pass | .allow _ => some .disruptive
  | .skip => some .flow
  | .custom _ _ => none

/-- C27 for the built-in actions: however they are listed, the statuses are set first,
then the logging is done, then the disruptive actions, then the skips. -/
theorem C27_builtin_order {as : List Action} (h : ∀ a ∈ as, Spec.kind a ≠ none) (rs : RuleSet) (n : Nat) (t : Tx) :
    actionsExecute (Action.run rs n) as t =
      Spec.oneAfterOther (Action.run rs n) ([Spec.Kind.data, .log, .disruptive, .flow].flatMap fun k => as.filter fun a => decide (Spec.kind a = some k)) t := by
  have hk : ∀ a ∈ as, a.group = match Spec.kind a with | some .data => 1 | some .log => 2 | some .disruptive => 3 | _ => 4 := by
    intro a ha
    have := h a ha
    cases a <;> first | rfl | exact absurd rfl this
  rw [(C27_group_sequence as rs n t).1 (by
    intro a ha
    rw [hk a ha]
    split <;> omega)]
  have e : ∀ (g : Int) (k : Spec.Kind), (g = match k with | .data => 1 | .log => 2 | .disruptive => 3 | .flow => 4) →
      (as.filter fun a => decide (a.group = g)) = as.filter fun a => decide (Spec.kind a = some k) := by
    intro g k hgk
    refine List.filter_congr fun a ha => ?_
    rw [hk a ha, hgk]
    cases hka : Spec.kind a with
    | none => exact absurd hka (h a ha)
    | some k' => cases k <;> cases k' <;> rfl
  have e0 : (as.filter fun a => decide (a.group = 0)) = [] := by
    rw [List.filter_eq_nil_iff]
    intro a ha
    rw [hk a ha, decide_eq_true_eq]
    split <;> omega
  simp only [List.flatMap_cons, List.flatMap_nil, e0, e 1 .data rfl, e 2 .log rfl, e 3 .disruptive rfl, e 4 .flow rfl, List.nil_append]

/-- C27: `deny,status:404` has the effect of `status:404,deny`, whatever surrounds them. -/
theorem C27_status_then_deny (pre post : List Action) (k : Int) (rs : RuleSet) (n : Nat) (t : Tx) :
    actionsExecute (Action.run rs n) (pre ++ .deny :: .status k :: post) t =
      actionsExecute (Action.run rs n) (pre ++ .status k :: .deny :: post) t := by
  refine C27_only_group_order_matters (fun g => ?_) rs n t
  simp only [List.filter_append, List.filter_cons, Action.group, groupDisruptive, groupData]
  by_cases h1 : (3 : Int) = g
  · have : ¬ ((1 : Int) = g) := by omega
    simp [h1, this]
  · simp [h1]

/-- ... and blocks with 404. -/
example : (txOf (run (rules [(2, always [.deny, .status 404])]) exchange)).map (·.intervention.status) = some 404 := by
  decide +kernel

/-! ### C26: the status of `deny` -/

/-- The status `deny` gives a neutral intervention, from the stored status. -/
def Spec.denyStatus : Option DataVal → Int
  | some (.int n) => if 100 ≤ n ∧ n ≤ 599 then n else 403
  | _ => 403

theorem denyDo_eq (t : Tx) : denyDo t = t.setIntervention { t.intervention with
  status := if t.intervention.status = 200 then Spec.denyStatus (t.getData b!"status") else t.intervention.status
  disruptive := true
  log := t.intervention.log ++ [t.logLine b!"ModSecurity: Access denied with code 403"] } := by
  simp only [denyDo]
  generalize t.intervention = i
  by_cases h : i.status = 200
  · simp only [h, if_true, Spec.denyStatus]
    cases t.getData b!"status" with
    | none => rfl
    | some d =>
      cases d with
      | other => rfl
      | int n =>
        simp only [ge_iff_le]
        split <;> rfl
  · simp only [h, if_false]; rfl

/-- C26.  `deny` sets the status by the stored one (403 if there is none or it is
not an HTTP status), keeps a status other than 200, always makes the verdict
disruptive, adds exactly one log line and changes nothing else. -/
theorem C26_deny (t : Tx) :
    (t.intervention.status = 200 → (denyDo t).intervention.status = Spec.denyStatus (t.getData b!"status")) ∧
    (t.intervention.status ≠ 200 → (denyDo t).intervention.status = t.intervention.status) ∧
    (denyDo t).intervention.disruptive = true ∧
    (∃ line, (denyDo t).intervention.log = t.intervention.log ++ [line]) ∧
    (denyDo t).intervention.url = t.intervention.url ∧ (denyDo t).intervention.pause = t.intervention.pause ∧
    { denyDo t with interv := t.interv } = t := by
  rw [denyDo_eq]
  refine ⟨fun h => ?_, fun h => ?_, rfl, ⟨_, rfl⟩, rfl, rfl, rfl⟩
  · show (if _ then _ else _) = _
    rw [if_pos h]
  · show (if _ then _ else _) = _
    rw [if_neg h]

/-- The last `status:n` of a list of actions, if any. -/
def Spec.lastStatus : List Action → Option Int
  | [] => none
  | .status n :: as => some ((Spec.lastStatus as).getD n)
  | _ :: as => Spec.lastStatus as

/-- Actions that do not hide other actions: neither `block` nor host-written. -/
def Action.plain : Action → Bool
  | .block | .custom _ _ => false
  | _ => true

theorem getData_setData (t : Tx) (k : Bytes) (v : DataVal) : (t.setData k v).getData k = some v := by
  simp [Tx.setData, Tx.getData]

theorem plain_data {rs : RuleSet} {n : Nat} {a : Action} (ha : a.plain = true) {t t' : Tx}
    (h : Action.run rs n a t = .ok t') : t'.data = match a with
      | .status m => (t.setData b!"status" (.int m)).data
      | _ => t.data := by
  cases a with
  | block => cases ha
  | custom _ _ => cases ha
  | skip => simp only [Action.run, Res.ok.injEq] at h; subst h; simp only [skipDo, Tx.jumpTo]; split <;> rfl
  | allow arg =>
    simp only [Action.run, Res.ok.injEq] at h; subst h
    simp only [allowDo]; split
    · rfl
    · split
      · rfl
      · split <;> rfl
  | deny => simp only [Action.run, Res.ok.injEq] at h; subst h; rfl
  | log => simp only [Action.run, Res.ok.injEq] at h; subst h; rfl
  | pass => simp only [Action.run, Res.ok.injEq] at h; subst h; rfl
  | status m => simp only [Action.run, Res.ok.injEq] at h; subst h; rfl

theorem doAll_stored_status {rs : RuleSet} {n : Nat} : ∀ {as : List Action} {t t' : Tx}, (∀ a ∈ as, a.plain = true) →
    doAll (Action.run rs n) as t = .ok t' →
    t'.getData b!"status" = match Spec.lastStatus as with
      | some m => some (.int m)
      | none => t.getData b!"status" := by
  intro as
  induction as with
  | nil => intro t t' _ h; cases h; rfl
  | cons a as ih =>
    intro t t' hp h
    simp only [doAll] at h
    obtain ⟨t1, h1, h2⟩ := Res.bind_eq_ok.1 h
    have hd := plain_data (hp a (by simp)) h1
    rw [ih (fun b hb => hp b (by simp [hb])) h2]
    cases a with
    | status m =>
      simp only at hd
      simp only [Spec.lastStatus]
      cases Spec.lastStatus as with
      | some k => rfl
      | none => simp only [Option.getD_none, Tx.getData, hd]; exact getData_setData t _ _
    | _ =>
      simp only at hd
      simp only [Spec.lastStatus]
      cases Spec.lastStatus as with
      | some k => rfl
      | none => simp only [Tx.getData, hd]

theorem lastStatus_append (as bs : List Action) : Spec.lastStatus (as ++ bs) = (Spec.lastStatus bs).or (Spec.lastStatus as) := by
  induction as with
  | nil => rw [List.nil_append]; cases Spec.lastStatus bs <;> rfl
  | cons a as ih =>
    cases a <;> simp only [List.cons_append, Spec.lastStatus, ih]
    cases Spec.lastStatus bs <;> cases Spec.lastStatus as <;> rfl

theorem lastStatus_filter {p : Action → Bool} (as : List Action) (h : ∀ m, p (.status m) = true) : Spec.lastStatus (as.filter p) = Spec.lastStatus as := by
  induction as with
  | nil => rfl
  | cons a as ih =>
    rw [List.filter_cons]
    cases a with
    | status m => rw [if_pos (h m)]; simp only [Spec.lastStatus, ih]
    | _ => split <;> simp only [Spec.lastStatus, ih]

theorem lastStatus_none {as : List Action} (h : ∀ a ∈ as, ∀ m, a ≠ .status m) : Spec.lastStatus as = none := by
  induction as with
  | nil => rfl
  | cons a as ih =>
    cases a with
    | status m => exact absurd rfl (h _ List.mem_cons_self m)
    | _ => exact ih fun b hb => h b (List.mem_cons_of_mem _ hb)

/-- C26.  After the actions of a rule have run, the stored status is that of the last `status:n`
in the list, or the one stored before if there is none. -/
theorem C26_stored_status {rs : RuleSet} {n : Nat} {as : List Action} {t t' : Tx} (hp : ∀ a ∈ as, a.plain = true)
    (h : actionsExecute (Action.run rs n) as t = .ok t') :
    t'.getData b!"status" = match Spec.lastStatus as with
      | some m => some (.int m)
      | none => t.getData b!"status" := by
  have e : Spec.lastStatus (grouped as) = Spec.lastStatus as := by
    have none : ∀ g : Int, g ≠ 1 → Spec.lastStatus (inGroup g as) = none := by
      intro g hg
      refine lastStatus_none fun a ha m e => hg ?_
      have := (List.mem_filter.1 ha).2
      subst e
      simpa [Action.group, groupData] using (of_decide_eq_true this).symm
    simp only [grouped, lastStatus_append, none 0 (by decide), none 2 (by decide), none 3 (by decide), none 4 (by decide)]
    rw [show Spec.lastStatus (inGroup 1 as) = Spec.lastStatus as from lastStatus_filter as fun m => rfl]
    cases Spec.lastStatus as <;> rfl
  have := doAll_stored_status (fun a ha => hp a (mem_grouped ha)) (actionsExecute_ok h)
  rwa [e] at this

/-- C26.  The stored status outlives the rule: only `status` actions (and
host-written ones) change it, whatever is called. -/
theorem C26_status_persists {env : Env} {rs : RuleSet} {n : Nat}
    (hdef : ∀ a ∈ rs.defaultActions, a.plain = true ∧ ∀ m, a ≠ .status m)
    (hact : ∀ p, ∀ r ∈ rs.phases p, ∀ a ∈ r.allActions, (a.plain = true ∨ a = .block) ∧ ∀ m, a ≠ .status m) :
    ∀ {ops : List Op} {t t' : Tx} {os : List Out} {tr : Trace},
    t.steps env rs n ops = .ok (t', os, tr) → t'.data = t.data := by
  intro ops t t' os tr h
  have hi : TxInv env rs (fun u => u.data = t.data) (fun a => (a.plain = true ∨ a = .block) ∧ ∀ m, a ≠ .status m) (fun _ => True) := by
    refine ⟨fun _ h => h, fun _ _ _ _ h => h, fun _ _ hd hf => by rw [hf.data]; exact hd, ?_,
      fun a ha => ⟨.inl (hdef a ha).1, (hdef a ha).2⟩, hact, fun _ _ _ _ _ _ _ _ _ _ _ _ h => h,
      fun _ _ _ _ _ _ _ h _ => h, fun _ _ _ _ _ _ _ h _ => h, ?_⟩
    · intro a hb ⟨hp, hs⟩ n u u' hu hr
      have := plain_data (hp.resolve_right hb) hr
      cases a
      case status m => exact absurd rfl (hs m)
      all_goals exact this.trans hu
    · intro op hv _ n u u' o tr hu h
      cases op <;> cases hv
      all_goals simp only [Tx.step, Tx.result, Res.ok.injEq, Prod.mk.injEq] at h
      all_goals obtain ⟨rfl, _⟩ := h
      all_goals first | exact hu | (split <;> exact hu)
  exact hi.steps (fun _ _ => trivial) rfl h

/-- A status stored by an earlier rule is used by a later phase's `deny`; a
status outside 100..599 is not used. -/
example : (txOf (run (rules [(2, always [.status 500, .status 404]), (3, always [.deny])]) exchange)).map (·.intervention.status) = some 404 ∧
    (txOf (run (rules [(2, always [.status 999]), (3, always [.deny])]) exchange)).map (·.intervention.status) = some 403 := by
  decide +kernel

/-! ### C28: chains -/

/-- All the conditions of the listed rules hold, evaluated in order from `t`,
ending in `t'`. -/
inductive ChainHolds (env : Env) : List Rule → Tx → Tx → Prop where
  | nil {t} : ChainHolds env [] t t
  | cons {r rest t t1 t'} : r.matches env t = .ok (true, t1) → ChainHolds env rest t1 t' → ChainHolds env (r :: rest) t t'

/-- Some condition fails: those before it hold, and evaluation stops there. -/
inductive ChainFails (env : Env) : List Rule → Tx → Tx → Prop where
  | here {r rest t t'} : r.matches env t = .ok (false, t') → ChainFails env (r :: rest) t t'
  | later {r rest t t1 t'} : r.matches env t = .ok (true, t1) → ChainFails env rest t1 t' → ChainFails env (r :: rest) t t'

/-- The action lists run one after the other. -/
inductive ActionLists (rs : RuleSet) (n : Nat) : List (List Action) → Tx → Tx → Prop where
  | nil {t} : ActionLists rs n [] t t
  | cons {as rest t t1 t'} : actionsExecute (Action.run rs n) as t = .ok t1 → ActionLists rs n rest t1 t' →
      ActionLists rs n (as :: rest) t t'

theorem matchSubs_true_iff {env : Env} : ∀ {ss : List Rule} {t t' : Tx},
    matchSubs env ss t = .ok (true, t') ↔ ChainHolds env ss t t' := by
  intro ss
  induction ss with
  | nil =>
    intro t t'
    simp only [matchSubs, Res.ok.injEq, Prod.mk.injEq, true_and]
    exact ⟨fun h => h ▸ .nil, fun h => by cases h; rfl⟩
  | cons s ss ih =>
    intro t t'
    simp only [matchSubs]
    rw [Res.bind_eq_ok]
    constructor
    · rintro ⟨⟨b, t1⟩, h1, h2⟩
      cases b with
      | false => simp at h2
      | true => simp at h2; exact .cons h1 (ih.1 h2)
    · intro h
      cases h with
      | cons h1 h2 => exact ⟨(true, _), h1, by simpa using ih.2 h2⟩

theorem matchSubs_false_iff {env : Env} : ∀ {ss : List Rule} {t t' : Tx},
    matchSubs env ss t = .ok (false, t') ↔ ChainFails env ss t t' := by
  intro ss
  induction ss with
  | nil => intro t t'; simp only [matchSubs]; exact ⟨fun h => by simp at h, fun h => by cases h⟩
  | cons s ss ih =>
    intro t t'
    simp only [matchSubs]
    rw [Res.bind_eq_ok]
    constructor
    · rintro ⟨⟨b, t1⟩, h1, h2⟩
      cases b with
      | false => simp at h2; subst h2; exact .here h1
      | true => simp at h2; exact .later h1 (ih.1 h2)
    · intro h
      cases h with
      | here h1 => exact ⟨(false, _), h1, by simp⟩
      | later h1 h2 => exact ⟨(true, _), h1, by simpa using ih.2 h2⟩

theorem subActions_iff {rs : RuleSet} {n : Nat} : ∀ {ss : List Rule} {t t' : Tx},
    subActions rs n ss t = .ok t' ↔ ActionLists rs n (ss.map Rule.actions) t t' := by
  intro ss
  induction ss with
  | nil =>
    intro t t'
    simp only [subActions, List.map_nil, Res.ok.injEq]
    exact ⟨fun h => h ▸ .nil, fun h => by cases h; rfl⟩
  | cons s ss ih =>
    intro t t'
    simp only [subActions, List.map_cons]
    rw [Res.bind_eq_ok]
    constructor
    · rintro ⟨t1, h1, h2⟩; exact .cons h1 (ih.1 h2)
    · intro h
      cases h with
      | cons h1 h2 => exact ⟨_, h1, ih.2 h2⟩

/-- C28.  Evaluating a rule with sub-rules: either its condition and those of all
the sub-rules hold, and then its actions run, followed by those of each sub-rule
in order; or some condition fails, and then nothing runs. -/
theorem C28_chain {env : Env} {rs : RuleSet} {n : Nat} {r : Rule} {t t' : Tx} :
    r.run env rs n t = .ok t' ↔
      (∃ t1, ChainHolds env (r :: r.subRules) t t1 ∧ ActionLists rs n (r.actions :: r.subRules.map Rule.actions) t1 t') ∨
      ChainFails env (r :: r.subRules) t t' := by
  simp only [Rule.run]
  rw [Res.bind_eq_ok]
  constructor
  · rintro ⟨⟨b, t1⟩, h1, h2⟩
    cases b with
    | false => simp at h2; subst h2; exact .inr (.here h1)
    | true =>
      simp at h2
      obtain ⟨⟨b, t2⟩, h3, h4⟩ := Res.bind_eq_ok.1 h2
      cases b with
      | false => simp at h4; subst h4; exact .inr (.later h1 (matchSubs_false_iff.1 h3))
      | true =>
        simp at h4
        obtain ⟨t3, h5, h6⟩ := Res.bind_eq_ok.1 h4
        exact .inl ⟨t2, .cons h1 (matchSubs_true_iff.1 h3), .cons h5 (subActions_iff.1 h6)⟩
  · rintro (⟨t1, h1, h2⟩ | h)
    · cases h1 with
      | cons h1 h3 =>
        cases h2 with
        | cons h4 h5 =>
          refine ⟨(true, _), h1, ?_⟩
          simp only [Bool.not_true, Bool.false_eq_true, if_false, matchSubs_true_iff.2 h3, Res.bind_ok', h4]
          exact subActions_iff.2 h5
    · cases h with
      | here h1 => exact ⟨(false, _), h1, by simp⟩
      | later h1 h2 => exact ⟨(true, _), h1, by simp [matchSubs_false_iff.2 h2]⟩

theorem ChainHolds.fetched {env : Env} {ss : List Rule} {t t' : Tx} (h : ChainHolds env ss t t') : Fetched t t' :=
  matchSubs_fetched (matchSubs_true_iff.2 h)

theorem ChainFails.fetched {env : Env} {ss : List Rule} {t t' : Tx} (h : ChainFails env ss t t') : Fetched t t' :=
  matchSubs_fetched (matchSubs_false_iff.2 h)

/-- C28.  Evaluating the conditions leaves the intervention, the stored data and
the rule cursor unchanged, unless inspecting a body aborts the transaction. -/
theorem C28_conditions_have_no_effect {env : Env} {ss : List Rule} {t t' : Tx}
    (h : ChainFails env ss t t' ∨ ChainHolds env ss t t') :
    t'.data = t.data ∧ t'.phase = t.phase ∧ t'.currentRule = t.currentRule ∧ t'.nextRule = t.nextRule ∧
    (t'.abort = t.abort ∧ t'.intervention = t.intervention ∨ t'.abort = true) := by
  have hf : Fetched t t' := h.elim ChainFails.fetched ChainHolds.fetched
  refine ⟨hf.data, hf.phase, hf.currentRule, hf.nextRule, ?_⟩
  rcases hf.verdict with ⟨h1, h2⟩ | ⟨h1, _⟩
  · exact .inl ⟨h1, by simp only [Tx.intervention, h2]⟩
  · exact .inr h1

/-- A chain of three with a failing second link does nothing; with all links
matching the actions run in order (`pass` of the last link erases the log). -/
example :
    let chain (mid : Rule) : Rule := { always [.log] with subRules := [mid, always [.log]] }
    (txOf (run (rules [(2, chain (never [.log]))]) exchange)).map (·.intervention.log.length) = some 0 ∧
    (txOf (run (rules [(2, chain (always [.log]))]) exchange)).map (·.intervention.log.length) = some 3 ∧
    (txOf (run (rules [(2, chain (always [.pass]))]) exchange)).map (·.intervention.log.length) = some 1 := by
  decide +kernel

/-! ### C39: block -/

theorem doAll_congr {d d' : Action → Tx → Res Tx} : ∀ {as : List Action}, (∀ a ∈ as, ∀ t, d a t = d' a t) → ∀ t,
    doAll d as t = doAll d' as t := by
  intro as
  induction as with
  | nil => intro _ t; rfl
  | cons a as ih =>
    intro h t
    simp only [doAll, h a (by simp)]
    congr 1
    funext t
    exact ih (fun b hb => h b (by simp [hb])) t

theorem actionsExecute_congr {d d' : Action → Tx → Res Tx} {as : List Action} (h : ∀ a ∈ as, ∀ t, d a t = d' a t) (t : Tx) :
    actionsExecute d as t = actionsExecute d' as t := by
  simp only [actionsExecute]
  cases e : actionMap as (List.replicate groupCount []) with
  | none => rfl
  | some m =>
    simp only [actionMap_grouped e]
    exact doAll_congr (fun a ha => h a (mem_grouped ha)) t

/-- C39.  A rule whose only action is `block` behaves exactly as the rule with
the configured default actions in its place. -/
theorem C39_block_is_default_actions {env : Env} {rs : RuleSet} (hb : ∀ a ∈ rs.defaultActions, a ≠ .block) (n : Nat) (r : Rule)
    (t : Tx) :
    Rule.run env rs (n + 1) { r with actions := [.block] } t = Rule.run env rs (n + 1) { r with actions := rs.defaultActions } t := by
  have key : ∀ t, actionsExecute (Action.run rs (n + 1)) [.block] t = actionsExecute (Action.run rs (n + 1)) rs.defaultActions t := by
    intro t
    have h1 : actionsExecute (Action.run rs (n + 1)) [.block] t = actionsExecute (Action.run rs n) rs.defaultActions t := by
      simp only [actionsExecute, actionMap, Action.group, groupDisruptive, groupCount, List.length_replicate, List.modify]
      simp [List.replicate, doAll, Action.run, actionsExecute, groupCount]
      cases actionMap rs.defaultActions [[], [], [], [], []] with
      | none => rfl
      | some m => simp only; cases doAll (Action.run rs n) m.flatten t <;> rfl
    rw [h1]
    refine actionsExecute_congr (fun a ha t => ?_) t
    have := hb a ha
    cases a <;> first | (simp only [Action.run]; done) | exact absurd rfl this
  have hm : Rule.matches env { r with actions := [.block] } = Rule.matches env { r with actions := rs.defaultActions } := by
    funext t
    have hf : ∀ vs t, fetchVars env { r with actions := [.block] } vs t = fetchVars env { r with actions := rs.defaultActions } vs t := by
      intro vs
      induction vs with
      | nil => intro t; rfl
      | cons v vs ih => intro t; simp only [fetchVars, ih]; rfl
    have hl : ∀ t vs, matchLoop { r with actions := [.block] } t vs = matchLoop { r with actions := rs.defaultActions } t vs := by
      intro t vs
      induction vs with
      | nil => rfl
      | cons v vs ih => simp only [matchLoop, ih]
    simp only [Rule.matches, hf, hl]
  simp only [Rule.run, hm, key]

/-- C39.  With no default actions configured `block` does nothing: the rule
behaves as one without actions. -/
theorem C39_block_without_defaults {env : Env} {rs : RuleSet} (h : rs.defaultActions = []) (n : Nat) (r : Rule) (t : Tx) :
    Rule.run env rs (n + 1) { r with actions := [.block] } t = Rule.run env rs (n + 1) { r with actions := [] } t := by
  rw [C39_block_is_default_actions (by simp [h]), h]

/-- C39.  Default actions that are added later run after those that were configured before. -/
theorem C39_defaults_add_up {env : Env} {rs : RuleSet} {as bs : List Action} (hb : ∀ a ∈ rs.defaultActions ++ as ++ bs, a ≠ .block) (n : Nat) (r : Rule) (t : Tx) :
    Rule.run env ((rs.addDefaultActions as).addDefaultActions bs) (n + 1) { r with actions := [.block] } t =
      Rule.run env ((rs.addDefaultActions as).addDefaultActions bs) (n + 1) { r with actions := rs.defaultActions ++ as ++ bs } t :=
  C39_block_is_default_actions (rs := (rs.addDefaultActions as).addDefaultActions bs) hb n r t

/-- `block` with `deny,status:404` as default actions, and with none. -/
example :
    (txOf (run ((rules [(2, always [.block])]).addDefaultActions [.deny, .status 404]) exchange)).map (·.intervention.status) = some 404 ∧
    (txOf (run (rules [(2, always [.block])]) exchange)).map (·.intervention.disruptive) = some false := by
  decide +kernel

end Verif
