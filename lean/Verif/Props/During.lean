import Verif.Proofs.OneMoment
import Verif.Props.Engine
/-!
C105, C106: calls made while other goroutines change the rule set.
-/
namespace Verif
open Sample

section
variable {lc : Prop} {C : RuleSet → Prop} {M : Nat → Scene}

theorem phase_one_moment (hM : Grows lc C M) {c : Nat → Nat} (hc : ∀ i j, i ≤ j → c i ≤ c j) (n k : Nat) (phase : Int) (t : Tx) :
    ∃ m, c k ≤ m ∧ EndsAfter c m (processPhaseDuring (fun k => M (c k)) n k phase t) (processPhase (M m).env (M m).rules n phase t) := by
  simp only [processPhaseDuring, processPhase, processPhase']
  by_cases h : t.phase ≥ phase
  · refine ⟨c k, Nat.le_refl _, ?_⟩
    simp only [h, if_true]
    exact .ok ⟨rfl, rfl, Nat.le_refl _⟩
  · simp only [h, if_false]
    generalize hu : t.jumpToPhase phase = u
    have hu0 : u.nextRule = 0 := by rw [← hu]; rfl
    by_cases ha : u.abort = true
    · refine ⟨c k, Nat.le_refl _, ?_⟩
      simp only [ha, if_true]
      exact .ok ⟨rfl, rfl, Nat.le_refl _⟩
    · simp only [if_neg ha, next_eq, hu0]
      obtain ⟨m, h1, h2⟩ := loop_one_moment hM hc phase n (k + 1) k 0
        { u with currentRule := 0, nextRule := curAt ((M (c k)).rules.phases u.phase).length 0 } (by omega) rfl
        (fun _ => by
          rcases Nat.eq_zero_or_pos ((M (c k)).rules.phases phase).length with h | h
          · exact .inr (.inr ⟨rfl, h⟩)
          · exact .inr (.inl (Int.ofNat_lt.2 h)))
      refine ⟨m, h1, ?_⟩
      exact h2

/-- The outcome of a call, which ended, if it did, when the changes up to `m` had been
made. -/
def CallAt (c : Nat → Nat) (m : Nat) (x : Res (Tx × Out × Trace × Nat)) (y : Res (Tx × Out × Trace)) : Prop :=
  x.Both (fun a b => a.1 = b.1 ∧ a.2.1 = b.2.1 ∧ a.2.2.1 = b.2.2 ∧ m ≤ c a.2.2.2) y

theorem EndsAfter.call {c : Nat → Nat} {m : Nat} {x : Res (Tx × Trace × Nat)} {y : Res (Tx × Trace)} (h : EndsAfter c m x y) :
    CallAt c m (x.bind fun (t, tr, e) => .ok (t, .unit, tr, e)) (y.bind fun (t, tr) => .ok (t, .unit, tr)) :=
  Res.Both.bind h fun _ _ hab => .ok ⟨hab.1, rfl, hab.2.1, hab.2.2⟩

theorem CallAt.once {c : Nat → Nat} {k : Nat} (y : Res (Tx × Out × Trace)) :
    CallAt c (c k) (y.bind fun (t, o, tr) => .ok (t, o, tr, k)) y := by
  cases y with
  | ok a => exact .ok ⟨rfl, rfl, rfl, Nat.le_refl _⟩
  | panic => exact .panic
  | fuel => exact .fuel

theorem step_one_moment (hM : Grows lc C M) {c : Nat → Nat} (hc : ∀ i j, i ≤ j → c i ≤ c j) (n k : Nat) (t : Tx) (op : Op) :
    ∃ m, c k ≤ m ∧ CallAt c m (t.stepDuring (fun k => M (c k)) n k op) (t.step (M m).env (M m).rules n op) := by
  have ph := phase_one_moment hM hc n k
  cases op with
  | processConnection a b d e => exact (ph phaseConnection { t with srcIp := a, srcPort := b, dstIp := d, dstPort := e }).imp fun _ h => ⟨h.1, h.2.call⟩
  | processRequestHeader h => exact (ph phaseRequestHeaders { t with reqHeader := orEmpty h }).imp fun _ h => ⟨h.1, h.2.call⟩
  | processRequestBody => exact (ph phaseRequestBody t).imp fun _ h => ⟨h.1, h.2.call⟩
  | processResponseHeaders a b h => exact (ph phaseResponseHeaders { t with respCode := a, respProto := b, respHeader := orEmpty h }).imp fun _ h => ⟨h.1, h.2.call⟩
  | processResponseBody => exact (ph phaseResponseBody t).imp fun _ h => ⟨h.1, h.2.call⟩
  | processLogging => exact (ph phaseLogging t).imp fun _ h => ⟨h.1, h.2.call⟩
  | processPhase p => exact (ph p t).imp fun _ h => ⟨h.1, h.2.call⟩
  | _ => exact ⟨c k, Nat.le_refl _, by simp only [Tx.stepDuring]; exact CallAt.once _⟩

/-- The outcome of several calls. -/
def CallsAt (c : Nat → Nat) (ms : List Nat) (x : Res (Tx × List Out × Trace × Nat)) (y : Res (Tx × List Out × Trace)) : Prop :=
  x.Both (fun a b => a.1 = b.1 ∧ a.2.1 = b.2.1 ∧ a.2.2.1 = b.2.2 ∧ ∀ m ∈ ms, m ≤ c a.2.2.2) y

theorem steps_one_moment (hM : Grows lc C M) {c : Nat → Nat} (hc : ∀ i j, i ≤ j → c i ≤ c j) (n : Nat) : ∀ (ops : List Op) (k : Nat) (t : Tx),
    ∃ ms : List Nat, ms.length = ops.length ∧ ms.Pairwise (· ≤ ·) ∧ (∀ m ∈ ms, c k ≤ m) ∧
      CallsAt c ms (t.stepsDuring (fun k => M (c k)) n k ops) (Spec.stepsAt M n t (ms.zip ops))
  | [], k, t => ⟨[], rfl, .nil, nofun, .ok ⟨rfl, rfl, rfl, nofun⟩⟩
  | op :: ops, k, t => by
    obtain ⟨m, hm, h⟩ := step_one_moment hM hc n k t op
    simp only [Tx.stepsDuring]
    generalize t.stepDuring (fun k => M (c k)) n k op = x at h
    generalize hy : t.step (M m).env (M m).rules n op = y at h
    have hrep : ∀ a ∈ List.replicate ops.length m, a = m := fun a ha => List.eq_of_mem_replicate ha
    have fail : (m :: List.replicate ops.length m).Pairwise (· ≤ ·) := by
      rw [List.pairwise_cons]
      exact ⟨fun a ha => by rw [hrep a ha]; exact Nat.le_refl _, List.pairwise_replicate.2 (.inr (Nat.le_refl _))⟩
    cases h with
    | panic =>
      refine ⟨m :: List.replicate ops.length m, by simp, fail, ?_, ?_⟩
      · intro a ha; rcases List.mem_cons.1 ha with rfl | ha
        · exact hm
        · rw [hrep a ha]; exact hm
      · simp only [List.zip_cons_cons, Spec.stepsAt, hy, Res.bind_panic']; exact .panic
    | fuel =>
      refine ⟨m :: List.replicate ops.length m, by simp, fail, ?_, ?_⟩
      · intro a ha; rcases List.mem_cons.1 ha with rfl | ha
        · exact hm
        · rw [hrep a ha]; exact hm
      · simp only [List.zip_cons_cons, Spec.stepsAt, hy, Res.bind_fuel']; exact .fuel
    | @ok a b hab =>
      obtain ⟨t', o, tr, e⟩ := a
      obtain ⟨u', o', tr'⟩ := b
      obtain ⟨rfl, rfl, rfl, he⟩ := hab
      obtain ⟨ms, h1, h2, h3, h4⟩ := steps_one_moment hM hc n ops (e + 1) t'
      have hge : ∀ a ∈ ms, m ≤ a := fun a ha => Nat.le_trans he (Nat.le_trans (hc e (e + 1) (by omega)) (h3 a ha))
      refine ⟨m :: ms, by simp [h1], List.pairwise_cons.2 ⟨hge, h2⟩, ?_, ?_⟩
      · intro a ha; rcases List.mem_cons.1 ha with rfl | ha
        · exact hm
        · exact Nat.le_trans hm (hge a ha)
      · simp only [List.zip_cons_cons, Spec.stepsAt, hy, Res.bind_ok']
        cases hops : ops with
        | nil =>
          subst hops
          cases ms with
          | cons => simp at h1
          | nil =>
            refine .ok ⟨rfl, rfl, rfl, ?_⟩
            intro x hx
            rw [List.mem_singleton.1 hx]
            exact Nat.le_trans he (hc e (e + 1) (by omega))
        | cons op' ops' =>
          rw [← hops]
          refine Res.Both.bind h4 fun a b hab => .ok ⟨hab.1, by rw [hab.2.1], by rw [hab.2.2.1], ?_⟩
          intro x hx
          rcases List.mem_cons.1 hx with rfl | hx
          · cases ms with
            | nil => rw [hops] at h1; cases h1
            | cons m' ms => exact Nat.le_trans (hge m' List.mem_cons_self) (hab.2.2.2 m' List.mem_cons_self)
          · exact hab.2.2.2 x hx

end

/-! ### The changes -/

/-- Rules made of parts that do not look at the place of the next rule. -/
def Rule.Blind1 (r : Rule) : Prop :=
  (∀ v ∈ r.vars, v.Blind) ∧ (∀ x ∈ r.trans, x.Blind) ∧ (∀ o, r.op = some o → o.Blind) ∧ ∀ a ∈ r.actions, a.Blind

def Rule.Blind (r : Rule) : Prop := r.Blind1 ∧ ∀ s ∈ r.subRules, s.Blind1

/-- A rule set of such rules and default actions. -/
structure RuleSet.Blind (rs : RuleSet) : Prop where
  rules : ∀ p, ∀ r ∈ rs.phases p, r.Blind
  default : ∀ a ∈ rs.defaultActions, a.Blind

/-- The rules added are of that kind, the default actions too. -/
def Spec.Change.Blind : Spec.Change → Prop
  | .rule r => r.Blind
  | .defaults as => ∀ a ∈ as, a.Blind
  | .limits _ => True

/-- `block` among the actions of a rule or of its chained rules. -/
def Rule.Blocks (r : Rule) : Prop := ∃ s ∈ r :: r.subRules, Action.block ∈ s.actions

/-- A variable that depends on the limits, in a rule or one of its chained rules. -/
def Rule.ReadsBodies (r : Rule) : Prop := ∃ s ∈ r :: r.subRules, ∃ v ∈ s.vars, v.Limited

/-- The rules there are from the beginning or later. -/
def Spec.everRule (s : Scene) (cs : List Spec.Change) (r : Rule) : Prop := (∃ p, r ∈ s.rules.phases p) ∨ .rule r ∈ cs

theorem moment_succ (s : Scene) (cs : List Spec.Change) (m : Nat) :
    Spec.moment s cs (m + 1) = match cs[m]? with
      | none => Spec.moment s cs m
      | some x => x.apply (Spec.moment s cs m) := by
  simp only [Spec.moment, List.take_add_one]
  cases cs[m]? with
  | none => simp
  | some x => simp

theorem moment_induct {s : Scene} {cs : List Spec.Change} {P : Scene → Prop} (h0 : P s) (h : ∀ x ∈ cs, ∀ u, P u → P (x.apply u)) :
    ∀ m, P (Spec.moment s cs m)
  | 0 => h0
  | m + 1 => by
    have ih := moment_induct h0 h m
    rw [moment_succ]
    cases hx : cs[m]? with
    | none => exact ih
    | some x => exact h x (List.mem_of_getElem? hx) _ ih

theorem change_phases (x : Spec.Change) (u : Scene) (p : Int) :
    (x.apply u).rules.phases p = u.rules.phases p ++ (match x with | .rule r => if r.phase = p ∧ 1 ≤ p ∧ p ≤ 6 then [r] else [] | _ => []) := by
  cases x with
  | rule r => exact addRule_phases u.rules r p
  | defaults as => simp [Spec.Change.apply, RuleSet.addDefaultActions]
  | limits l => simp [Spec.Change.apply]

theorem moment_grows (s : Scene) (cs : List Spec.Change) (hs : s.rules.Blind) (hcs : ∀ x ∈ cs, x.Blind)
    (hb : (∀ r, Spec.everRule s cs r → ¬ r.Blocks) ∨ ∀ as, .defaults as ∈ cs → as = [])
    (hl : (∀ r, Spec.everRule s cs r → ¬ r.ReadsBodies) ∨ ∀ l, .limits l ∈ cs → l = s.env.limits) :
    ∃ lc C, Grows lc C (Spec.moment s cs) := by
  refine ⟨¬ ∀ l, .limits l ∈ cs → l = s.env.limits,
    fun rs => (∀ as, .defaults as ∈ cs → as = []) → rs.defaultActions = s.rules.defaultActions, ?_, ?_, ?_, ?_, ?_⟩
  · have step : ∀ m p, (Spec.moment s cs m).rules.phases p <+: (Spec.moment s cs (m + 1)).rules.phases p := by
      intro m p
      rw [moment_succ]
      cases cs[m]? with
      | none => exact List.prefix_refl _
      | some x => simp only; rw [change_phases]; exact List.prefix_append _ _
    intro m m' h p
    obtain ⟨d, rfl⟩ := Nat.exists_eq_add_of_le h
    clear h
    induction d with
    | zero => exact List.prefix_refl _
    | succ d ih => exact ih.trans (step (m + d) p)
  · intro m p
    rw [moment_succ]
    cases cs[m]? with
    | none => simp
    | some x =>
      simp only
      rw [change_phases, List.length_append]
      cases x with
      | rule r => simp only; split <;> simp
      | _ => simp
  · intro m
    have h := moment_induct (s := s) (cs := cs) (P := fun u => u.env.lib = s.env.lib ∧ u.env.ord = s.env.ord ∧
      ((∀ l, Spec.Change.limits l ∈ cs → l = s.env.limits) → u.env.limits = s.env.limits)) ⟨rfl, rfl, fun _ => rfl⟩ ?_ m
    · exact ⟨h.1, h.2.1, fun hn => h.2.2 (Classical.not_not.1 hn)⟩
    · intro x hx u hu
      cases x with
      | rule r => exact hu
      | defaults as => exact hu
      | limits l => exact ⟨hu.1, hu.2.1, fun h => h l hx⟩
  · intro m
    refine moment_induct (s := s) (cs := cs) (P := fun u => (∀ as, Spec.Change.defaults as ∈ cs → as = []) → u.rules.defaultActions = s.rules.defaultActions)
      (fun _ => rfl) ?_ m
    intro x hx u hu h
    cases x with
    | rule r => simp only [Spec.Change.apply, addRule_default]; exact hu h
    | defaults as =>
      have := h as hx
      subst this
      simp only [Spec.Change.apply, RuleSet.addDefaultActions, List.append_nil]; exact hu h
    | limits l => exact hu h
  · intro m p r hr
    have h := moment_induct (s := s) (cs := cs) (P := fun u => ∀ p, ∀ r ∈ u.rules.phases p, Spec.everRule s cs r) (fun p r hr => .inl ⟨p, hr⟩) ?_ m p r hr
    · have hblind : r.Blind := by
        rcases h with ⟨p, h⟩ | h
        · exact hs.rules p r h
        · exact hcs _ h
      have hvars : ∀ q ∈ r :: r.subRules, ∀ v ∈ q.vars, v.Limited → ¬ ¬ ∀ l, Spec.Change.limits l ∈ cs → l = s.env.limits := by
        intro q hq v hv hlim hn
        rcases hl with hl | hl
        · exact hl r h ⟨q, hq, v, hv, hlim⟩
        · exact hn hl
      refine ⟨⟨fun v hv => ⟨hblind.1.1 v hv, hvars r List.mem_cons_self v hv⟩, hblind.1.2.1, hblind.1.2.2.1⟩,
        fun q hq => ⟨fun v hv => ⟨(hblind.2 q hq).1 v hv, hvars q (List.mem_cons_of_mem _ hq) v hv⟩, (hblind.2 q hq).2.1, (hblind.2 q hq).2.2.1⟩, ?_⟩
      intro q hq a ha
      refine ⟨?_, ?_⟩
      · rcases List.mem_cons.1 hq with rfl | hq'
        · exact hblind.1.2.2.2 a ha
        · exact (hblind.2 q hq').2.2.2 a ha
      · intro e
        subst e
        rcases hb with hb | hb
        · exact absurd ⟨q, hq, ha⟩ (hb r h)
        · exact ⟨s.rules.defaultActions, hs.default, fun rs h => h hb⟩
    · intro x hx u hu p r hr
      rw [change_phases] at hr
      rcases List.mem_append.1 hr with hr | hr
      · exact hu p r hr
      · cases x with
        | rule r' =>
          simp only at hr
          split at hr
          · rw [List.mem_singleton.1 hr]; exact .inr hx
          · cases hr
        | _ => cases hr

theorem Var.Stock.blind : ∀ {v : Var}, v.Stock → v.Blind
  | .count v, h => Var.Stock.blind (v := v) h
  | .custom _, h => h.elim
  | .args _ _, _ | .argsNames _ _, _ | .argsGet _, _ | .argsGetNames _, _ | .argsPost _, _ | .argsPostNames _, _ | .queryString, _ | .remoteAddr, _
  | .requestBasename, _ | .requestBody, _ | .requestCookies _, _ | .requestCookiesNames _, _ | .requestFilename, _ | .requestHeaders _, _
  | .requestHeadersNames _, _ | .requestMethod, _ | .requestProtocol, _ | .requestUri, _ | .responseBody, _ | .responseContentLength, _
  | .responseContentType, _ | .responseHeaders _, _ | .responseHeadersNames _, _ | .responseProtocol, _ | .responseStatus, _ => trivial

theorem Rule.Stock1.blind {r : Rule} (h : r.Stock1) : r.Blind1 := by
  refine ⟨fun v hv => (h.vars v hv).blind, fun x hx => ?_, fun o ho => ?_, fun a ha => ?_⟩
  · have := h.trans x hx; cases x <;> first | trivial | exact this.elim
  · have := h.op o ho; cases o <;> first | trivial | exact this.elim
  · have := h.actions a ha; cases a <;> first | trivial | exact this.elim

/-- Rules without parts written by the host are of this kind. -/
theorem Rule.Stock.blind {r : Rule} (h : r.Stock) : r.Blind := ⟨h.1.blind, fun s hs => (h.2 s hs).blind⟩

theorem RuleSet.Stock.blind {rs : RuleSet} (h : rs.Stock) : rs.Blind :=
  ⟨fun p r hr => (h.rules p r hr).blind, fun a ha => by have := h.default a ha; cases a <;> first | trivial | exact this.elim⟩

/-! ### C105: rules added meanwhile -/

/-- Only rules are added. -/
def Spec.OnlyRules (cs : List Spec.Change) : Prop := ∀ x ∈ cs, ∃ r : Rule, r.Blind ∧ x = .rule r

theorem OnlyRules.grows {s : Scene} {cs : List Spec.Change} (hs : s.rules.Blind) (hcs : Spec.OnlyRules cs) : ∃ lc C, Grows lc C (Spec.moment s cs) := by
  refine moment_grows s cs hs (fun x hx => ?_) (.inr fun as h => ?_) (.inr fun l h => ?_)
  · obtain ⟨r, h, rfl⟩ := hcs x hx; exact h
  · obtain ⟨r, _, h⟩ := hcs _ h; cases h
  · obtain ⟨r, _, h⟩ := hcs _ h; cases h

/-- C105.  While rules are being added, any call on a transaction leaves it, returns and
evaluates what it would at one moment not before its beginning and, if it returns, not after
its end. -/
theorem C105_one_moment (s : Scene) (cs : List Spec.Change) (hs : s.rules.Blind) (hcs : Spec.OnlyRules cs) (c : Nat → Nat)
    (hc : ∀ i j, i ≤ j → c i ≤ c j) (n k : Nat) (t : Tx) (op : Op) :
    ∃ m, c k ≤ m ∧ CallAt c m (t.stepDuring (fun k => Spec.moment s cs (c k)) n k op)
      (t.step (Spec.moment s cs m).env (Spec.moment s cs m).rules n op) := by
  obtain ⟨_, _, h⟩ := OnlyRules.grows hs hcs
  exact step_one_moment h hc n k t op

/-- C105, for all the calls on a transaction: their moments come in the same order. -/
theorem C105_moments_in_order (s : Scene) (cs : List Spec.Change) (hs : s.rules.Blind) (hcs : Spec.OnlyRules cs) (c : Nat → Nat)
    (hc : ∀ i j, i ≤ j → c i ≤ c j) (n k : Nat) (t : Tx) (ops : List Op) :
    ∃ ms : List Nat, ms.length = ops.length ∧ ms.Pairwise (· ≤ ·) ∧ (∀ m ∈ ms, c k ≤ m) ∧
      CallsAt c ms (t.stepsDuring (fun k => Spec.moment s cs (c k)) n k ops) (Spec.stepsAt (Spec.moment s cs) n t (ms.zip ops)) := by
  obtain ⟨_, _, h⟩ := OnlyRules.grows hs hcs
  exact steps_one_moment h hc n ops k t

/-- The number of lines logged. -/
def Sample.logged : Res (Tx × Out × Trace × Nat) → Option Nat
  | .ok (t, _) => some t.intervention.log.length
  | _ => none

def Sample.loggedAt : Res (Tx × Out × Trace) → Option Nat
  | .ok (t, _) => some t.intervention.log.length
  | _ => none

theorem CallAt.logged {c : Nat → Nat} {m : Nat} {x : Res (Tx × Out × Trace × Nat)} {y : Res (Tx × Out × Trace)} (h : CallAt c m x y) :
    Sample.logged x = Sample.loggedAt y := by
  cases h with
  | ok h => simp only [Sample.logged, Sample.loggedAt, h.1]
  | panic => rfl
  | fuel => rfl

theorem always_stock {as : List Action} (h : ∀ a ∈ as, a.Stock) {p : Int} : ({ always as with phase := p } : Rule).Stock := by
  refine ⟨⟨?_, ?_, ?_, h⟩, nofun⟩
  · intro v hv; rw [List.mem_singleton.1 hv]; trivial
  · intro x hx; cases hx
  · intro o ho; cases ho; trivial

theorem rules_blind {l : List (Int × Rule)} (h : ∀ x ∈ l, x.2.Blind) : (Sample.rules l).Blind := by
  have h35 := C35_registration {} (l.map fun e => ({ e.2 with phase := e.1 } : Rule))
  refine ⟨fun p r hr => ?_, fun a ha => ?_⟩
  · by_cases hp : 1 ≤ p ∧ p ≤ 6
    · rw [Sample.rules, h35.1 p hp.1 hp.2] at hr
      simp only [List.nil_append, List.mem_filter, List.mem_map] at hr
      obtain ⟨⟨x, hx, rfl⟩, _⟩ := hr
      exact h x hx
    · rw [Sample.rules, h35.2.1 p (by omega)] at hr; cases hr
  · rw [Sample.rules, h35.2.2] at ha; cases ha

/-- An empty phase, two rules added while it begins: `Next` sees no rule, `Process` both, the
next `Next` is not asked any more.  The first rule alone is evaluated, as when it alone had
been there. -/
def Sample.twoAdded : List Spec.Change := [.rule { always [.log] with phase := 1 }, .rule { always [.deny] with phase := 1 }]

example : let s : Scene := ⟨env, {}⟩
    let c : Nat → Nat := fun k => if k = 0 then 0 else 2
    Sample.logged ((newTransaction limits).stepDuring (fun k => Spec.moment s Sample.twoAdded (c k)) 9 0 (.processPhase 1)) = some 1 ∧
    Sample.loggedAt ((newTransaction limits).step env (Spec.moment s Sample.twoAdded 0).rules 9 (.processPhase 1)) = some 0 ∧
    Sample.loggedAt ((newTransaction limits).step env (Spec.moment s Sample.twoAdded 1).rules 9 (.processPhase 1)) = some 1 ∧
    Sample.loggedAt ((newTransaction limits).step env (Spec.moment s Sample.twoAdded 2).rules 9 (.processPhase 1)) = some 2 := by decide +kernel

example (c : Nat → Nat) (hc : ∀ i j, i ≤ j → c i ≤ c j) (ops : List Op) :=
  C105_moments_in_order ⟨env, {}⟩ Sample.twoAdded ⟨nofun, nofun⟩
    (by
      intro x hx
      simp only [Sample.twoAdded, List.mem_cons, List.not_mem_nil, or_false] at hx
      rcases hx with rfl | rfl
      · exact ⟨_, (always_stock (p := 1) (by simp [Action.Stock])).blind, rfl⟩
      · exact ⟨_, (always_stock (p := 1) (by simp [Action.Stock])).blind, rfl⟩)
    c hc 9 0 (newTransaction limits) ops

/-! ### C106: other changes -/

/-- C106, the full claim: the same whatever is changed meanwhile. -/
def C106_statement : Prop :=
  ∀ (s : Scene) (cs : List Spec.Change), s.rules.Blind → (∀ x ∈ cs, x.Blind) → ∀ c : Nat → Nat, (∀ i j, i ≤ j → c i ≤ c j) →
    ∀ (n k : Nat) (t : Tx) (op : Op),
    ∃ m, c k ≤ m ∧ CallAt c m (t.stepDuring (fun k => Spec.moment s cs (c k)) n k op)
      (t.step (Spec.moment s cs m).env (Spec.moment s cs m).rules n op)

/-- C106, what holds: default actions may be added if no rule has `block`, and the limits
changed if no rule looks at a body. -/
theorem C106_unseen_partial (s : Scene) (cs : List Spec.Change) (hs : s.rules.Blind) (hcs : ∀ x ∈ cs, x.Blind)
    (hb : (∀ r, Spec.everRule s cs r → ¬ r.Blocks) ∨ ∀ as, .defaults as ∈ cs → as = [])
    (hl : (∀ r, Spec.everRule s cs r → ¬ r.ReadsBodies) ∨ ∀ l, .limits l ∈ cs → l = s.env.limits)
    (c : Nat → Nat) (hc : ∀ i j, i ≤ j → c i ≤ c j) (n k : Nat) (t : Tx) (ops : List Op) :
    ∃ ms : List Nat, ms.length = ops.length ∧ ms.Pairwise (· ≤ ·) ∧ (∀ m ∈ ms, c k ≤ m) ∧
      CallsAt c ms (t.stepsDuring (fun k => Spec.moment s cs (c k)) n k ops) (Spec.stepsAt (Spec.moment s cs) n t (ms.zip ops)) := by
  obtain ⟨_, _, h⟩ := moment_grows s cs hs hcs hb hl
  exact steps_one_moment h hc n ops k t

/-- Two rules with `block`, and a default action added when the first has been evaluated:
one line is logged, while before the addition it would be none and afterwards two. -/
def Sample.twoBlocks : RuleSet := Sample.rules [(1, always [.block]), (1, always [.block])]

theorem moment_late {s : Scene} {cs : List Spec.Change} {m : Nat} (h : cs.length ≤ m) : Spec.moment s cs m = Spec.moment s cs cs.length := by
  simp only [Spec.moment, List.take_of_length_le h, List.take_length]

theorem C106_refuted : ¬ C106_statement := by
  intro h
  obtain ⟨m, _, hm⟩ := h ⟨env, Sample.twoBlocks⟩ [.defaults [.log]]
    (rules_blind (by
      intro x hx
      simp only [List.mem_cons, List.not_mem_nil, or_false] at hx
      rcases hx with rfl | rfl <;> exact (always_stock (p := 0) (by simp [Action.Stock])).blind))
    (by intro x hx; rw [List.mem_singleton.1 hx]; simp [Spec.Change.Blind, Action.Blind])
    (fun k => if k ≤ 3 then 0 else 1) (by intro i j hij; split <;> split <;> omega)
    20 0 (newTransaction limits) (.processPhase 1)
  have h1 := hm.logged
  have e1 : Sample.logged ((newTransaction limits).stepDuring (fun k => Spec.moment ⟨env, Sample.twoBlocks⟩ [.defaults [.log]] (if k ≤ 3 then 0 else 1)) 20 0 (.processPhase 1)) = some 1 := by
    decide +kernel
  rw [e1] at h1
  rcases Nat.eq_zero_or_pos m with rfl | hpos
  · revert h1; decide +kernel
  · rw [moment_late (show 1 ≤ m from hpos)] at h1
    revert h1; decide +kernel

/-- The same with the limits: access to response bodies granted between two rules that look
at one. -/
def Sample.twoBodies : RuleSet :=
  Sample.rules [(5, { vars := [.responseBody], op := some any, actions := [.log] }), (5, { vars := [.responseBody], op := some any, actions := [.log] })]

/-- The limits the engine has at first. -/
def Sample.closed : Limits := { limits with responseBodyAccess := false }

theorem C106_limits : ∃ (s : Scene) (l : Limits) (c : Nat → Nat) (t : Tx), s.rules.Blind ∧ (∀ i j, i ≤ j → c i ≤ c j) ∧
    ∀ m, ¬ CallAt c m (t.stepDuring (fun k => Spec.moment s [.limits l] (c k)) 20 0 .processResponseBody)
      (t.step (Spec.moment s [.limits l] m).env (Spec.moment s [.limits l] m).rules 20 .processResponseBody) := by
  refine ⟨⟨{ env with limits := Sample.closed }, Sample.twoBodies⟩, limits, fun k => if k ≤ 3 then 0 else 1,
    { newTransaction limits with respBody := { newBuffer 8 8 with memBuf := b!"x", length := 1 } }, ?_, ?_, ?_⟩
  · refine rules_blind ?_
    intro x hx
    simp only [List.mem_cons, List.not_mem_nil, or_false] at hx
    have : ({ vars := [.responseBody], op := some any, actions := [.log] } : Rule).Stock := by
      refine ⟨⟨?_, nofun, ?_, ?_⟩, nofun⟩
      · intro v hv; rw [List.mem_singleton.1 hv]; trivial
      · intro o ho; cases ho; trivial
      · intro a ha; rw [List.mem_singleton.1 ha]; trivial
    rcases hx with rfl | rfl <;> exact this.blind
  · intro i j hij; dsimp only; split <;> split <;> omega
  · intro m hm
    have h1 := hm.logged
    revert h1
    rcases Nat.eq_zero_or_pos m with rfl | hpos
    · decide +kernel
    · rw [moment_late (show 1 ≤ m from hpos)]
      decide +kernel

end Verif
