import Verif.Proofs.Rule
import Verif.Model.Transaction
/-!
Two transactions that differ in the request body only, evaluated side by side.
-/
namespace Verif

/-- Two computations with the same kind of outcome and related results. -/
inductive Res.Both {α β : Type} (R : α → β → Prop) : Res α → Res β → Prop
  | ok {a : α} {b : β} : R a b → Res.Both R (.ok a) (.ok b)
  | panic : Res.Both R .panic .panic
  | fuel : Res.Both R .fuel .fuel

theorem Res.Both.bind {α β γ δ : Type} {R : α → β → Prop} {S : γ → δ → Prop} {x : Res α} {y : Res β} {f : α → Res γ} {g : β → Res δ}
    (h : Res.Both R x y) (hf : ∀ a b, R a b → Res.Both S (f a) (g b)) : Res.Both S (x.bind f) (y.bind g) := by
  cases h with
  | ok h => exact hf _ _ h
  | panic => exact .panic
  | fuel => exact .fuel

theorem Res.Both.imp {α : Type} {P S : α → α → Prop} {x y : Res α} (h : x.Both P y) (hp : ∀ a b, P a b → S a b) : x.Both S y := by
  cases h with
  | ok h => exact .ok (hp _ _ h)
  | panic => exact .panic
  | fuel => exact .fuel

theorem actionMap_mem : ∀ {as : List Action} {m m' : List (List Action)}, actionMap as m = some m' → ∀ a ∈ m'.flatten, a ∈ as ∨ a ∈ m.flatten
  | [], m, m', h, a, ha => by simp only [actionMap, Option.some.injEq] at h; subst h; exact .inr ha
  | b :: as, m, m', h, a, ha => by
    simp only [actionMap] at h
    split at h
    · cases h
    · rcases actionMap_mem h a ha with h1 | h1
      · exact .inl (List.mem_cons_of_mem _ h1)
      · obtain ⟨l, hl, hal⟩ := List.mem_flatten.1 h1
        obtain ⟨i, hi, rfl⟩ := List.getElem_of_mem hl
        rw [List.getElem_modify] at hal
        split at hal
        · rcases List.mem_append.1 hal with hal | hal
          · exact .inr (List.mem_flatten.2 ⟨_, List.getElem_mem (by simpa using hi), hal⟩)
          · exact .inl (by simp at hal; simp [hal])
        · exact .inr (List.mem_flatten.2 ⟨_, List.getElem_mem (by simpa using hi), hal⟩)

/-- Without parts written by the host. -/
def Trans.Stock : Trans → Prop
  | .custom _ => False
  | _ => True

def Operator.Stock : Operator → Prop
  | .custom _ => False
  | _ => True

def Action.Stock : Action → Prop
  | .custom _ _ => False
  | _ => True

def Var.Stock : Var → Prop
  | .custom _ => False
  | .count v => v.Stock
  | _ => True

structure Rule.Stock1 (r : Rule) : Prop where
  vars : ∀ v ∈ r.vars, v.Stock
  trans : ∀ x ∈ r.trans, x.Stock
  op : ∀ o, r.op = some o → o.Stock
  actions : ∀ a ∈ r.actions, a.Stock

/-- A rule without parts written by the host, together with its chained rules. -/
def Rule.Stock (r : Rule) : Prop := r.Stock1 ∧ ∀ s ∈ r.subRules, s.Stock1

structure RuleSet.Stock (rs : RuleSet) : Prop where
  rules : ∀ p, ∀ r ∈ rs.phases p, r.Stock
  default : ∀ a ∈ rs.defaultActions, a.Stock

/-- The same but for the request bodies, which are related as `Q` says. -/
structure Duo (Q : Option GoMap → Buf → Buf → Prop) (t u : Tx) : Prop where
  rest : u = { t with reqBody := u.reqBody }
  body : Q t.reqHeader t.reqBody u.reqBody

variable {Q : Option GoMap → Buf → Buf → Prop}

theorem Duo.mk' {t : Tx} {b : Buf} (h : Q t.reqHeader t.reqBody b) : Duo Q t { t with reqBody := b } := ⟨rfl, h⟩

/-- What neither looks at the request body nor changes it or the headers. -/
theorem Duo.map {t u : Tx} (h : Duo Q t u) {f : Tx → Tx} (hf : ∀ (t : Tx) (b : Buf), f { t with reqBody := b } = { f t with reqBody := b })
    (hh : (f t).reqHeader = t.reqHeader) : Duo Q (f t) (f u) := by
  obtain ⟨h1, h2⟩ := h
  have e : (f t).reqBody = t.reqBody := by have := congrArg Tx.reqBody (hf t t.reqBody); exact this
  have e' : f u = { f t with reqBody := u.reqBody } := by
    conv => lhs; rw [h1]
    exact hf t u.reqBody
  refine ⟨by rw [e'], ?_⟩
  rw [e', e, hh]
  exact h2

/-- What two transactions show alike. -/
theorem Duo.get {α : Type} {t u : Tx} (h : Duo Q t u) (f : Tx → α) (hf : ∀ (t : Tx) (b : Buf), f { t with reqBody := b } = f t) : f u = f t := by
  rw [h.rest]; exact hf _ _

/-- The fetch of every stock variable gives the same values. -/
def FetchesAlike (env : Env) (Q : Option GoMap → Buf → Buf → Prop) : Prop :=
  ∀ (v : Var), v.Stock → ∀ {t u : Tx}, Duo Q t u → (v.fetch env t).Both (fun x y => x.1 = y.1 ∧ Duo Q x.2 y.2) (v.fetch env u)

section
variable {env : Env} (hF : FetchesAlike env Q)
include hF

theorem fetchVars_twin {r : Rule} (hr : ∀ x ∈ r.trans, x.Stock) : ∀ {vs : List Var}, (∀ v ∈ vs, v.Stock) → ∀ {t u : Tx}, Duo Q t u →
    (fetchVars env r vs t).Both (fun x y => x.1 = y.1 ∧ Duo Q x.2 y.2) (fetchVars env r vs u)
  | [], _, _, _, h => .ok ⟨rfl, h⟩
  | v :: vs, hv, t, u, h => by
    have ht : ∀ (t u : Tx) (s : Bytes), r.transformString env t s = r.transformString env u s := by
      intro t u s
      simp only [Rule.transformString]
      have : ∀ (ts : List Trans), (∀ x ∈ ts, x.Stock) → ∀ s, ts.foldl (fun s tr => tr.run env.lib t s) s = ts.foldl (fun s tr => tr.run env.lib u s) s := by
        intro ts
        induction ts with
        | nil => intro _ s; rfl
        | cons x xs ih =>
          intro hs s
          have e : x.run env.lib t s = x.run env.lib u s := by
            have := hs x List.mem_cons_self
            cases x <;> first | rfl | exact this.elim
          simp only [List.foldl_cons, e]
          exact ih (fun y hy => hs y (List.mem_cons_of_mem _ hy)) _
      exact this _ hr s
    simp only [fetchVars, Rule.transformVariable]
    refine Res.Both.bind (R := fun x y => x.1 = y.1 ∧ Duo Q x.2 y.2) ((hF v (hv v List.mem_cons_self) h).bind fun x y hxy => ?_) fun x y hxy => ?_
    · refine .ok ⟨?_, hxy.2⟩
      simp only [hxy.1]
      exact List.map_congr_left fun s _ => ht _ _ s
    · refine (fetchVars_twin hr (fun w hw => hv w (List.mem_cons_of_mem _ hw)) hxy.2).bind fun x' y' hxy' => ?_
      exact .ok ⟨by simp only [hxy.1, hxy'.1], hxy'.2⟩

theorem matches_twin {r : Rule} (hr : r.Stock1) {t u : Tx} (h : Duo Q t u) :
    (r.matches env t).Both (fun x y => x.1 = y.1 ∧ Duo Q x.2 y.2) (r.matches env u) := by
  simp only [Rule.matches]
  refine (fetchVars_twin hF hr.trans hr.vars h).bind fun x y hxy => ?_
  obtain ⟨e, hxy⟩ := hxy
  have key : ∀ vs, matchLoop r y.2 vs = matchLoop r x.2 vs := by
    intro vs
    induction vs with
    | nil => rfl
    | cons v vs ih =>
      have ea : y.2.abort = x.2.abort := hxy.get Tx.abort fun _ _ => rfl
      simp only [matchLoop, ea, ih]
      cases ho : r.op with
      | none => rfl
      | some o =>
        have : o.run y.2 v = o.run x.2 v := by
          have := hr.op o ho
          cases o <;> first | rfl | exact this.elim
        simp only [this]
  rw [← e, key]
  cases matchLoop r x.2 x.1 with
  | ok b => exact .ok ⟨rfl, hxy⟩
  | panic => exact .panic
  | fuel => exact .fuel

theorem matchSubs_twin : ∀ {ss : List Rule}, (∀ s ∈ ss, s.Stock1) → ∀ {t u : Tx}, Duo Q t u →
    (matchSubs env ss t).Both (fun x y => x.1 = y.1 ∧ Duo Q x.2 y.2) (matchSubs env ss u)
  | [], _, _, _, h => .ok ⟨rfl, h⟩
  | s :: ss, hs, t, u, h => by
    simp only [matchSubs]
    refine (matches_twin hF (hs s List.mem_cons_self) h).bind fun x y hxy => ?_
    simp only [← hxy.1]
    split
    · exact .ok ⟨rfl, hxy.2⟩
    · exact matchSubs_twin (fun s' hs' => hs s' (List.mem_cons_of_mem _ hs')) hxy.2

omit hF in
theorem doAll_twin {d : Action → Tx → Res Tx} : ∀ {as : List Action}, (∀ a ∈ as, ∀ {t u : Tx}, Duo Q t u → (d a t).Both (Duo Q) (d a u)) →
    ∀ {t u : Tx}, Duo Q t u → (doAll d as t).Both (Duo Q) (doAll d as u)
  | [], _, _, _, h => .ok h
  | a :: _, hd, _, _, h => (hd a List.mem_cons_self h).bind fun _ _ hxy => doAll_twin (fun b hb => hd b (List.mem_cons_of_mem _ hb)) hxy

omit hF in
theorem actionsExecute_twin {d : Action → Tx → Res Tx} {as : List Action} (hd : ∀ a ∈ as, ∀ {t u : Tx}, Duo Q t u → (d a t).Both (Duo Q) (d a u))
    {t u : Tx} (h : Duo Q t u) : (actionsExecute d as t).Both (Duo Q) (actionsExecute d as u) := by
  simp only [actionsExecute]
  split
  · exact .panic
  · rename_i m hm
    refine doAll_twin (fun a ha => hd a ?_) h
    exact (actionMap_mem hm a ha).elim id fun h => by simp [List.flatten_replicate_nil] at h

omit hF in
theorem action_twin {rs : RuleSet} (hd : ∀ a ∈ rs.defaultActions, a.Stock) : ∀ (n : Nat) (a : Action), a.Stock → ∀ {t u : Tx}, Duo Q t u →
    (Action.run rs n a t).Both (Duo Q) (Action.run rs n a u) := by
  intro n
  induction n with
  | zero =>
    intro a ha t u h
    cases a
    case custom => exact ha.elim
    case block => exact .fuel
    case deny => exact .ok (h.map (f := denyDo) (fun _ _ => rfl) rfl)
    case log => exact .ok (h.map (f := logDo) (fun _ _ => rfl) rfl)
    case pass => exact .ok (h.map (f := Tx.resetIntervention) (fun _ _ => rfl) rfl)
    case skip => exact .ok (h.map (f := skipDo rs) (fun t b => by simp only [skipDo, Tx.jumpTo]; split <;> rfl) (by simp only [skipDo, Tx.jumpTo]; split <;> rfl))
    case status c => exact .ok (h.map (f := fun t => t.setData b!"status" (.int c)) (fun _ _ => rfl) rfl)
    case allow arg =>
      exact .ok (h.map (f := allowDo arg) (fun t b => by simp only [allowDo]; repeat' split
                                                         all_goals rfl) (by simp only [allowDo]; repeat' split
                                                                            all_goals rfl))
  | succ n ih =>
    intro a ha t u h
    cases a
    case custom => exact ha.elim
    case block => exact actionsExecute_twin (fun a hm => ih a (hd a hm)) h
    case deny => exact .ok (h.map (f := denyDo) (fun _ _ => rfl) rfl)
    case log => exact .ok (h.map (f := logDo) (fun _ _ => rfl) rfl)
    case pass => exact .ok (h.map (f := Tx.resetIntervention) (fun _ _ => rfl) rfl)
    case skip => exact .ok (h.map (f := skipDo rs) (fun t b => by simp only [skipDo, Tx.jumpTo]; split <;> rfl) (by simp only [skipDo, Tx.jumpTo]; split <;> rfl))
    case status c => exact .ok (h.map (f := fun t => t.setData b!"status" (.int c)) (fun _ _ => rfl) rfl)
    case allow arg =>
      exact .ok (h.map (f := allowDo arg) (fun t b => by simp only [allowDo]; repeat' split
                                                         all_goals rfl) (by simp only [allowDo]; repeat' split
                                                                            all_goals rfl))

omit hF in
theorem subActions_twin {rs : RuleSet} (hd : ∀ a ∈ rs.defaultActions, a.Stock) (n : Nat) : ∀ {ss : List Rule}, (∀ s ∈ ss, s.Stock1) → ∀ {t u : Tx},
    Duo Q t u → (subActions rs n ss t).Both (Duo Q) (subActions rs n ss u)
  | [], _, _, _, h => .ok h
  | s :: _, hs, _, _, h => (actionsExecute_twin (fun a ha => action_twin hd n a ((hs s List.mem_cons_self).actions a ha)) h).bind
      fun _ _ hxy => subActions_twin hd n (fun s' hs' => hs s' (List.mem_cons_of_mem _ hs')) hxy

theorem rule_twin {rs : RuleSet} (hd : ∀ a ∈ rs.defaultActions, a.Stock) (n : Nat) {r : Rule} (hr : r.Stock) {t u : Tx} (h : Duo Q t u) :
    (r.run env rs n t).Both (Duo Q) (r.run env rs n u) := by
  simp only [Rule.run]
  refine (matches_twin hF hr.1 h).bind fun x y hxy => ?_
  simp only [← hxy.1]
  split
  · exact .ok hxy.2
  · refine (matchSubs_twin hF hr.2 hxy.2).bind fun x' y' hxy' => ?_
    simp only [← hxy'.1]
    split
    · exact .ok hxy'.2
    · exact (actionsExecute_twin (fun a ha => action_twin hd n a (hr.1.actions a ha)) hxy'.2).bind fun _ _ hz => subActions_twin hd n hr.2 hz

theorem processLoop_twin {rs : RuleSet} (hrs : rs.Stock) (p : Int) : ∀ (n : Nat) (i : Int) {t u : Tx}, Duo Q t u →
    (processLoop env rs p n i t).Both (fun x y => Duo Q x.1 y.1 ∧ x.2 = y.2) (processLoop env rs p n i u) := by
  intro n
  induction n with
  | zero => intro i t u h; exact .fuel
  | succ n ih =>
    intro i t u h
    have ep : u.phase = t.phase := h.get Tx.phase fun _ _ => rfl
    simp only [processLoop, ep]
    split
    · refine Res.Both.bind (R := Duo Q) ?_ fun x y hxy => ?_
      · simp only [RuleSet.process]
        split
        · split
          · exact .panic
          · split
            · exact .panic
            · rename_i r hr
              exact rule_twin hF hrs.default n (hrs.rules p r (List.mem_of_getElem? hr)) h
        · exact .ok h
      · have hxy := hxy.map (f := Tx.touch) (fun _ _ => rfl) rfl
        have ei : y.touch.intervention = x.touch.intervention := hxy.get Tx.intervention fun _ _ => rfl
        have ep : y.touch.phase = x.touch.phase := hxy.get Tx.phase fun _ _ => rfl
        simp only [ei, ep]
        split
        · exact .ok ⟨hxy, rfl⟩
        · have nx : ∀ k, Duo Q (x.touch.next k).1 (y.touch.next k).1 := fun k => hxy.map (f := fun t => (t.next k).1)
            (fun t b => by simp only [Tx.next]; repeat' split
                           all_goals rfl) (by simp only [Tx.next]; repeat' split
                                              all_goals rfl)
          have nn : ∀ k, (y.touch.next k).2 = (x.touch.next k).2 := fun k => hxy.get (fun t => (t.next k).2)
            (fun t b => by simp only [Tx.next]; repeat' split
                           all_goals rfl)
          simp only [nn]
          exact (ih _ (nx _)).bind fun a b hab => .ok ⟨hab.1, by simp only [hab.2]⟩
    · exact .ok ⟨h, rfl⟩

theorem processPhase_twin {rs : RuleSet} (hrs : rs.Stock) (n : Nat) (p : Int) {t u : Tx} (h : Duo Q t u) :
    (processPhase env rs n p t).Both (fun x y => Duo Q x.1 y.1 ∧ x.2 = y.2) (processPhase env rs n p u) := by
  have ep : u.phase = t.phase := h.get Tx.phase fun _ _ => rfl
  simp only [processPhase, ep]
  split
  · exact .ok ⟨h, rfl⟩
  · have h := h.map (f := fun t => t.jumpToPhase p) (fun _ _ => rfl) rfl
    have ea : (u.jumpToPhase p).abort = (t.jumpToPhase p).abort := h.get Tx.abort fun _ _ => rfl
    have ep : (u.jumpToPhase p).phase = (t.jumpToPhase p).phase := h.get Tx.phase fun _ _ => rfl
    simp only [processPhase', ea, ep]
    split
    · exact .ok ⟨h, rfl⟩
    · have nx : ∀ k, Duo Q ((t.jumpToPhase p).next k).1 ((u.jumpToPhase p).next k).1 := fun k => h.map (f := fun t => (t.next k).1)
        (fun t b => by simp only [Tx.next]; repeat' split
                       all_goals rfl) (by simp only [Tx.next]; repeat' split
                                          all_goals rfl)
      have nn : ∀ k, ((u.jumpToPhase p).next k).2 = ((t.jumpToPhase p).next k).2 := fun k => h.get (fun t => (t.next k).2)
        (fun t b => by simp only [Tx.next]; repeat' split
                       all_goals rfl)
      simp only [nn]
      exact processLoop_twin hF hrs p n _ (nx _)

/-- One call, the same on both, or a chunk for each body.  `hW` is about chunks, `hH`
about headers. -/
theorem step_twin {rs : RuleSet} (hrs : rs.Stock) (n : Nat) {op : Op}
    (hW : ∀ p io, op = .appendRequestBody p io → ∀ h b c, Q h b c → (b.write p io).Both (fun x y => Q h x.1 y.1 ∧ x.2 = y.2) (c.write p io))
    (hH : ∀ h', op = .processRequestHeader h' → ∀ h b c, Q h b c → Q (orEmpty h') b c) {t u : Tx} (h : Duo Q t u) :
    (t.step env rs n op).Both (fun x y => Duo Q x.1 y.1 ∧ x.2 = y.2) (u.step env rs n op) := by
  have phases : ∀ {x y : Res (Tx × Trace)}, x.Both (fun x y => Duo Q x.1 y.1 ∧ x.2 = y.2) y →
      (x.bind fun (t, tr) => (.ok (t, Out.unit, tr) : Res (Tx × Out × Trace))).Both (fun x y => Duo Q x.1 y.1 ∧ x.2 = y.2)
        (y.bind fun (t, tr) => .ok (t, Out.unit, tr)) := fun hx => hx.bind fun a b hab => .ok ⟨hab.1, by simp only [hab.2]⟩
  cases op with
  | processConnection a b c d =>
    exact phases (processPhase_twin hF hrs n _ (h.map (f := fun t => { t with srcIp := a, srcPort := b, dstIp := c, dstPort := d }) (fun _ _ => rfl) rfl))
  | processRequestURL a m p => exact .ok ⟨h.map (f := fun t => { t with url := a, method := m, reqProto := p }) (fun _ _ => rfl) rfl, rfl⟩
  | processRequestHeader h' =>
    refine phases (processPhase_twin hF hrs n _ ⟨?_, hH h' rfl _ _ _ h.body⟩)
    have := h.rest
    show _ = ({ t with reqHeader := orEmpty h', reqBody := u.reqBody } : Tx)
    conv => lhs; rw [this]
  | appendRequestBody p io =>
    simp only [Tx.step]
    refine (hW p io rfl _ _ _ h.body).bind fun x y hxy => .ok ⟨⟨?_, hxy.1⟩, by simp only [hxy.2]⟩
    have := h.rest
    show ({ u with reqBody := y.1 } : Tx) = { t with reqBody := y.1 }
    rw [this]
  | processRequestBody => exact phases (processPhase_twin hF hrs n _ h)
  | processResponseHeaders c p hd =>
    exact phases (processPhase_twin hF hrs n _ (h.map (f := fun t => { t with respCode := c, respProto := p, respHeader := orEmpty hd }) (fun _ _ => rfl) rfl))
  | appendResponseBody p io =>
    have eb : u.respBody = t.respBody := h.get Tx.respBody fun _ _ => rfl
    simp only [Tx.step, eb]
    cases t.respBody.write p io with
    | ok x => exact .ok ⟨h.map (f := fun t => { t with respBody := x.1 }) (fun _ _ => rfl) rfl, rfl⟩
    | panic => exact .panic
    | fuel => exact .fuel
  | processResponseBody => exact phases (processPhase_twin hF hrs n _ h)
  | processLogging => exact phases (processPhase_twin hF hrs n _ h)
  | processPhase p => exact phases (processPhase_twin hF hrs n _ h)
  | result =>
    have ha : u.touch.abort = t.touch.abort := h.get (fun t => t.touch.abort) fun _ _ => rfl
    have hi : u.intervention = t.intervention := h.get Tx.intervention fun _ _ => rfl
    simp only [Tx.step, Tx.result, ha, hi]
    refine .ok ⟨?_, rfl⟩
    split
    · exact h.map (f := fun t => t.touch.setIntervention Intervention.neutral) (fun _ _ => rfl) rfl
    · exact h.map (f := Tx.touch) (fun _ _ => rfl) rfl
  | intervention =>
    have : u.intervention = t.intervention := h.get Tx.intervention fun _ _ => rfl
    exact .ok ⟨h.map (f := Tx.touch) (fun _ _ => rfl) rfl, by simp only [this]⟩
  | resetIntervention => exact .ok ⟨h.map (f := Tx.resetIntervention) (fun _ _ => rfl) rfl, rfl⟩
  | abortWithStatus c => exact .ok ⟨h.map (f := fun t => t.abortWithStatus c) (fun _ _ => rfl) rfl, rfl⟩
  | abortWithError c e => exact .ok ⟨h.map (f := fun t => t.abortWithError c e) (fun _ _ => rfl) rfl, rfl⟩
  | logf m => exact .ok ⟨h.map (f := fun t => t.log m) (fun _ _ => rfl) rfl, rfl⟩
  | jumpToPhase i => exact .ok ⟨h.map (f := fun t => t.jumpToPhase i) (fun _ _ => rfl) rfl, rfl⟩
  | nextPhase =>
    have : u.nextPhase.phase = t.nextPhase.phase := h.get (fun t => t.nextPhase.phase) fun _ _ => rfl
    exact .ok ⟨h.map (f := Tx.nextPhase) (fun _ _ => rfl) rfl, by simp only [this]⟩
  | jumpTo i =>
    have ep : u.phase = t.phase := h.get Tx.phase fun _ _ => rfl
    simp only [Tx.step, ep]
    have hj := h.map (f := fun t' => t'.jumpTo (rs.phases t.phase).length i) (fun t b => by simp only [Tx.jumpTo]; split <;> rfl)
      (by simp only [Tx.jumpTo]; split <;> rfl)
    have : (u.jumpTo (rs.phases t.phase).length i).nextRule = _ := hj.get Tx.nextRule fun _ _ => rfl
    exact .ok ⟨hj, by simp only [this]⟩
  | next =>
    have ep : u.phase = t.phase := h.get Tx.phase fun _ _ => rfl
    simp only [Tx.step, ep]
    have nn : (u.next (rs.phases t.phase).length).2 = (t.next (rs.phases t.phase).length).2 := h.get (fun t' => (t'.next (rs.phases t.phase).length).2)
      (fun t b => by simp only [Tx.next]; repeat' split
                     all_goals rfl)
    refine .ok ⟨h.map (f := fun t' => (t'.next (rs.phases t.phase).length).1) (fun t b => ?_) ?_, by simp only [nn]⟩
    · simp only [Tx.next]; repeat' split
      all_goals rfl
    · simp only [Tx.next]; repeat' split
      all_goals rfl

/-- Any calls, the same on both. -/
theorem steps_twin {rs : RuleSet} (hrs : rs.Stock) (n : Nat)
    (hW : ∀ p io h b c, Q h b c → (b.write p io).Both (fun x y => Q h x.1 y.1 ∧ x.2 = y.2) (c.write p io)) : ∀ {ops : List Op},
    (∀ h', .processRequestHeader h' ∈ ops → ∀ h b c, Q h b c → Q (orEmpty h') b c) → ∀ {t u : Tx}, Duo Q t u →
    (t.steps env rs n ops).Both (fun x y => Duo Q x.1 y.1 ∧ x.2 = y.2) (u.steps env rs n ops)
  | [], _, _, _, h => .ok ⟨h, rfl⟩
  | op :: ops, hH, t, u, h => by
    simp only [Tx.steps]
    refine (step_twin hF hrs n (fun p io _ => hW p io) (fun h' e => hH h' (by rw [e]; exact List.mem_cons_self)) h).bind fun x y hxy => ?_
    refine (steps_twin hrs n hW (fun h' hm => hH h' (List.mem_cons_of_mem _ hm)) hxy.1).bind fun x' y' hxy' => ?_
    exact .ok ⟨hxy'.1, by simp only [hxy.2, hxy'.2]⟩

end
end Verif
