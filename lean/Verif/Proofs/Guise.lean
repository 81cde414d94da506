import Verif.Proofs.Flow
import Verif.Proofs.Order
import Verif.Props.Variables
import Verif.Props.Match
/-!
Two transactions that have been told different things, evaluated side by side.
-/
namespace Verif
open Spec

/-- The transaction, had it been told `k` (but for the client, who is in the log lines). -/
def Tx.dress (t : Tx) (k : Facts) : Tx :=
  { t with
    dstIp := k.dstIp, dstPort := k.dstPort, url := k.url, method := k.method, reqProto := k.proto, reqHeader := k.headers,
    respCode := k.status, respProto := k.respProto, respHeader := k.respHeaders }

/-- The same but for what they have been told, which is related as `S` says. -/
structure Guise (S : Facts → Facts → Prop) (t u : Tx) : Prop where
  rest : u = t.dress u.facts
  seen : S t.facts u.facts

theorem jumpTo_dress (n : Nat) (i : Int) (t : Tx) (k : Facts) : (t.dress k).jumpTo n i = (t.jumpTo n i).dress k := by
  unfold Tx.jumpTo; split <;> rfl

theorem jumpTo_facts (n : Nat) (i : Int) (t : Tx) : (t.jumpTo n i).facts = t.facts := by
  unfold Tx.jumpTo; split <;> rfl

theorem allowDo_dress (arg : Bytes) (t : Tx) (k : Facts) : allowDo arg (t.dress k) = (allowDo arg t).dress k := by
  unfold allowDo
  split
  · rfl
  · split
    · rfl
    · split <;> rfl

theorem allowDo_facts (arg : Bytes) (t : Tx) : (allowDo arg t).facts = t.facts := by
  unfold allowDo
  split
  · rfl
  · split
    · rfl
    · split <;> rfl

theorem next_dress (n : Nat) (t : Tx) (k : Facts) : (t.dress k).next n = ((t.next n).1.dress k, (t.next n).2) := by
  show (if t.nextRule = statusEndOfRules then _ else _) = _
  simp only [Tx.next]
  by_cases h : t.nextRule = statusEndOfRules
  · rw [if_pos h, if_pos h]; rfl
  · rw [if_neg h, if_neg h]
    by_cases h' : (n : Int) ≤ t.nextRule + 1
    · rw [if_pos h', if_pos (show (n : Int) ≤ (t.dress k).nextRule + 1 from h')]; rfl
    · rw [if_neg h', if_neg (show ¬ (n : Int) ≤ (t.dress k).nextRule + 1 from h')]; rfl

variable {S : Facts → Facts → Prop}

/-- What neither looks at what was told nor changes it. -/
theorem Guise.map {t u : Tx} (h : Guise S t u) {f : Tx → Tx} (hf : ∀ (t : Tx) (k : Facts), f (t.dress k) = (f t).dress k)
    (hh : ∀ t : Tx, (f t).facts = t.facts) : Guise S (f t) (f u) := by
  refine ⟨?_, by rw [hh, hh]; exact h.seen⟩
  rw [hh u, ← hf, ← h.rest]

/-- What two transactions show alike. -/
theorem Guise.get {α : Type} {t u : Tx} (h : Guise S t u) (f : Tx → α) (hf : ∀ (t : Tx) (k : Facts), f (t.dress k) = f t) : f u = f t := by
  rw [h.rest]; exact hf _ _

/-- The fetch of each of the variables gives values that look the same, up to their order, through the
transformations they are read with. -/
def FetchGuised (env : Env) (S : Facts → Facts → Prop) (A : List Trans → Var → Prop) : Prop :=
  ∀ (ts : List Trans) (v : Var), A ts v → ∀ {t u : Tx}, Guise S t u →
    (v.fetch env t).Both (fun x y => (x.1.map (pipe env.lib x.2 ts)).Perm (y.1.map (pipe env.lib y.2 ts)) ∧ Guise S x.2 y.2) (v.fetch env u)

/-- The rule and its chained rules have such variables only. -/
def Rule.Reads (A : List Trans → Var → Prop) (r : Rule) : Prop := (∀ v ∈ r.vars, A r.trans v) ∧ ∀ s ∈ r.subRules, ∀ v ∈ s.vars, A s.trans v

/-- Transformations that are not the host's do not look at the transaction. -/
theorem pipe_stock {lib : Lib} : ∀ {ts : List Trans}, (∀ x ∈ ts, x.Stock) → ∀ (t u : Tx) (s : Bytes), pipe lib t ts s = pipe lib u ts s
  | [], _, _, _, _ => rfl
  | x :: xs, hs, t, u, s => by
    have e : x.run lib t s = x.run lib u s := by
      have := hs x List.mem_cons_self
      cases x <;> first | rfl | exact this.elim
    simp only [pipe, e]
    exact pipe_stock (fun y hy => hs y (List.mem_cons_of_mem _ hy)) t u _

section
variable {env : Env} {A : List Trans → Var → Prop} (hF : FetchGuised env S A)
include hF

theorem fetchVars_guise {r : Rule} : ∀ {vs : List Var}, (∀ v ∈ vs, A r.trans v) → ∀ {t u : Tx}, Guise S t u →
    (fetchVars env r vs t).Both (fun x y => x.1.Perm y.1 ∧ Guise S x.2 y.2) (fetchVars env r vs u)
  | [], _, _, _, h => .ok ⟨.refl _, h⟩
  | v :: vs, hv, t, u, h => by
    simp only [fetchVars, Rule.transformVariable]
    refine Res.Both.bind (R := fun x y => x.1.Perm y.1 ∧ Guise S x.2 y.2) ((hF r.trans v (hv v List.mem_cons_self) h).bind fun x y hxy => ?_) fun x y hxy => ?_
    · refine .ok ⟨?_, hxy.2⟩
      have e : ∀ t, r.transformString env t = pipe env.lib t r.trans := fun t => funext (transformString_eq env r t)
      simp only [e]
      exact hxy.1
    · refine (fetchVars_guise (fun w hw => hv w (List.mem_cons_of_mem _ hw)) hxy.2).bind fun x' y' hxy' => ?_
      exact .ok ⟨hxy.1.append hxy'.1, hxy'.2⟩

theorem matches_guise {r : Rule} (hr : r.Stock1) (hv : ∀ v ∈ r.vars, A r.trans v) {t u : Tx} (h : Guise S t u) :
    (r.matches env t).Both (fun x y => x.1 = y.1 ∧ Guise S x.2 y.2) (r.matches env u) := by
  simp only [Rule.matches]
  refine (fetchVars_guise hF hv h).bind fun x y hxy => ?_
  obtain ⟨e, hxy⟩ := hxy
  have key : ∀ vs, matchLoop r y.2 vs = matchLoop r x.2 vs := by
    intro vs
    induction vs with
    | nil => rfl
    | cons v vs ih =>
      have ea : y.2.abort = x.2.abort := hxy.get Tx.abort fun _ _ => rfl
      simp only [matchLoop, ea, ih]
      cases ho : r.op with
      | none => rfl
      | some o =>
        have : o.run y.2 v = o.run x.2 v := by
          have := hr.op o ho
          cases o <;> first | rfl | exact this.elim
        simp only [this]
  rw [← matchLoop_perm e, key]
  cases matchLoop r x.2 x.1 with
  | ok b => exact .ok ⟨rfl, hxy⟩
  | panic => exact .panic
  | fuel => exact .fuel

theorem matchSubs_guise : ∀ {ss : List Rule}, (∀ s ∈ ss, s.Stock1) → (∀ s ∈ ss, ∀ v ∈ s.vars, A s.trans v) → ∀ {t u : Tx}, Guise S t u →
    (matchSubs env ss t).Both (fun x y => x.1 = y.1 ∧ Guise S x.2 y.2) (matchSubs env ss u)
  | [], _, _, _, _, h => .ok ⟨rfl, h⟩
  | s :: ss, hs, hv, t, u, h => by
    simp only [matchSubs]
    refine (matches_guise hF (hs s List.mem_cons_self) (hv s List.mem_cons_self) h).bind fun x y hxy => ?_
    simp only [← hxy.1]
    split
    · exact .ok ⟨rfl, hxy.2⟩
    · exact matchSubs_guise (fun s' hs' => hs s' (List.mem_cons_of_mem _ hs')) (fun s' hs' => hv s' (List.mem_cons_of_mem _ hs')) hxy.2

omit hF in
theorem doAll_guise {d : Action → Tx → Res Tx} : ∀ {as : List Action}, (∀ a ∈ as, ∀ {t u : Tx}, Guise S t u → (d a t).Both (Guise S) (d a u)) →
    ∀ {t u : Tx}, Guise S t u → (doAll d as t).Both (Guise S) (doAll d as u)
  | [], _, _, _, h => .ok h
  | a :: _, hd, _, _, h => (hd a List.mem_cons_self h).bind fun _ _ hxy => doAll_guise (fun b hb => hd b (List.mem_cons_of_mem _ hb)) hxy

omit hF in
theorem actionsExecute_guise {d : Action → Tx → Res Tx} {as : List Action} (hd : ∀ a ∈ as, ∀ {t u : Tx}, Guise S t u → (d a t).Both (Guise S) (d a u))
    {t u : Tx} (h : Guise S t u) : (actionsExecute d as t).Both (Guise S) (actionsExecute d as u) := by
  simp only [actionsExecute]
  split
  · exact .panic
  · rename_i m hm
    refine doAll_guise (fun a ha => hd a ?_) h
    exact (actionMap_mem hm a ha).elim id fun h => by simp [List.flatten_replicate_nil] at h

omit hF in
theorem action_guise {rs : RuleSet} (hd : ∀ a ∈ rs.defaultActions, a.Stock) : ∀ (n : Nat) (a : Action), a.Stock → ∀ {t u : Tx}, Guise S t u →
    (Action.run rs n a t).Both (Guise S) (Action.run rs n a u) := by
  intro n
  induction n with
  | zero =>
    intro a ha t u h
    cases a
    case custom => exact ha.elim
    case block => exact .fuel
    case deny => exact .ok (h.map (f := denyDo) (fun _ _ => rfl) (fun _ => rfl))
    case log => exact .ok (h.map (f := logDo) (fun _ _ => rfl) (fun _ => rfl))
    case pass => exact .ok (h.map (f := Tx.resetIntervention) (fun _ _ => rfl) (fun _ => rfl))
    case skip => exact .ok (h.map (f := skipDo rs) (fun t b => jumpTo_dress _ _ t b) (fun t => jumpTo_facts _ _ t))
    case status c => exact .ok (h.map (f := fun t => t.setData b!"status" (.int c)) (fun _ _ => rfl) (fun _ => rfl))
    case allow arg =>
      exact .ok (h.map (f := allowDo arg) (allowDo_dress arg) (allowDo_facts arg))
  | succ n ih =>
    intro a ha t u h
    cases a
    case custom => exact ha.elim
    case block => exact actionsExecute_guise (fun a hm => ih a (hd a hm)) h
    case deny => exact .ok (h.map (f := denyDo) (fun _ _ => rfl) (fun _ => rfl))
    case log => exact .ok (h.map (f := logDo) (fun _ _ => rfl) (fun _ => rfl))
    case pass => exact .ok (h.map (f := Tx.resetIntervention) (fun _ _ => rfl) (fun _ => rfl))
    case skip => exact .ok (h.map (f := skipDo rs) (fun t b => jumpTo_dress _ _ t b) (fun t => jumpTo_facts _ _ t))
    case status c => exact .ok (h.map (f := fun t => t.setData b!"status" (.int c)) (fun _ _ => rfl) (fun _ => rfl))
    case allow arg =>
      exact .ok (h.map (f := allowDo arg) (allowDo_dress arg) (allowDo_facts arg))

omit hF in
theorem subActions_guise {rs : RuleSet} (hd : ∀ a ∈ rs.defaultActions, a.Stock) (n : Nat) : ∀ {ss : List Rule}, (∀ s ∈ ss, s.Stock1) → ∀ {t u : Tx},
    Guise S t u → (subActions rs n ss t).Both (Guise S) (subActions rs n ss u)
  | [], _, _, _, h => .ok h
  | s :: _, hs, _, _, h => (actionsExecute_guise (fun a ha => action_guise hd n a ((hs s List.mem_cons_self).actions a ha)) h).bind
      fun _ _ hxy => subActions_guise hd n (fun s' hs' => hs s' (List.mem_cons_of_mem _ hs')) hxy

theorem rule_guise {rs : RuleSet} (hd : ∀ a ∈ rs.defaultActions, a.Stock) (n : Nat) {r : Rule} (hr : r.Stock) (hv : r.Reads A) {t u : Tx} (h : Guise S t u) :
    (r.run env rs n t).Both (Guise S) (r.run env rs n u) := by
  simp only [Rule.run]
  refine (matches_guise hF hr.1 hv.1 h).bind fun x y hxy => ?_
  simp only [← hxy.1]
  split
  · exact .ok hxy.2
  · refine (matchSubs_guise hF hr.2 hv.2 hxy.2).bind fun x' y' hxy' => ?_
    simp only [← hxy'.1]
    split
    · exact .ok hxy'.2
    · exact (actionsExecute_guise (fun a ha => action_guise hd n a (hr.1.actions a ha)) hxy'.2).bind fun _ _ hz => subActions_guise hd n hr.2 hz

theorem processLoop_guise {rs : RuleSet} (hrs : rs.Stock) (hA : ∀ p, ∀ r ∈ rs.phases p, r.Reads A) (p : Int) : ∀ (n : Nat) (i : Int) {t u : Tx}, Guise S t u →
    (processLoop env rs p n i t).Both (fun x y => Guise S x.1 y.1 ∧ x.2 = y.2) (processLoop env rs p n i u) := by
  intro n
  induction n with
  | zero => intro i t u h; exact .fuel
  | succ n ih =>
    intro i t u h
    have ep : u.phase = t.phase := h.get Tx.phase fun _ _ => rfl
    simp only [processLoop, ep]
    split
    · refine Res.Both.bind (R := Guise S) ?_ fun x y hxy => ?_
      · simp only [RuleSet.process]
        split
        · split
          · exact .panic
          · split
            · exact .panic
            · rename_i r hr
              exact rule_guise hF hrs.default n (hrs.rules p r (List.mem_of_getElem? hr)) (hA p r (List.mem_of_getElem? hr)) h
        · exact .ok h
      · have hxy := hxy.map (f := Tx.touch) (fun _ _ => rfl) (fun _ => rfl)
        have ei : y.touch.intervention = x.touch.intervention := hxy.get Tx.intervention fun _ _ => rfl
        have ep : y.touch.phase = x.touch.phase := hxy.get Tx.phase fun _ _ => rfl
        simp only [ei, ep]
        split
        · exact .ok ⟨hxy, rfl⟩
        · have nx : ∀ k, Guise S (x.touch.next k).1 (y.touch.next k).1 := fun k => hxy.map (f := fun t => (t.next k).1)
            (fun t b => by rw [next_dress]) (fun t => next_facts t k)
          have nn : ∀ k, (y.touch.next k).2 = (x.touch.next k).2 := fun k => hxy.get (fun t => (t.next k).2)
            (fun t b => by rw [next_dress])
          simp only [nn]
          exact (ih _ (nx _)).bind fun a b hab => .ok ⟨hab.1, by simp only [hab.2]⟩
    · exact .ok ⟨h, rfl⟩

theorem processPhase_guise {rs : RuleSet} (hrs : rs.Stock) (hA : ∀ p, ∀ r ∈ rs.phases p, r.Reads A) (n : Nat) (p : Int) {t u : Tx} (h : Guise S t u) :
    (processPhase env rs n p t).Both (fun x y => Guise S x.1 y.1 ∧ x.2 = y.2) (processPhase env rs n p u) := by
  have ep : u.phase = t.phase := h.get Tx.phase fun _ _ => rfl
  simp only [processPhase, ep]
  split
  · exact .ok ⟨h, rfl⟩
  · have h := h.map (f := fun t => t.jumpToPhase p) (fun _ _ => rfl) (fun _ => rfl)
    have ea : (u.jumpToPhase p).abort = (t.jumpToPhase p).abort := h.get Tx.abort fun _ _ => rfl
    have ep : (u.jumpToPhase p).phase = (t.jumpToPhase p).phase := h.get Tx.phase fun _ _ => rfl
    simp only [processPhase', ea, ep]
    split
    · exact .ok ⟨h, rfl⟩
    · have nx : ∀ k, Guise S ((t.jumpToPhase p).next k).1 ((u.jumpToPhase p).next k).1 := fun k => h.map (f := fun t => (t.next k).1)
        (fun t b => by rw [next_dress]) (fun t => next_facts t k)
      have nn : ∀ k, ((u.jumpToPhase p).next k).2 = ((t.jumpToPhase p).next k).2 := fun k => h.get (fun t => (t.next k).2)
        (fun t b => by rw [next_dress])
      simp only [nn]
      exact processLoop_guise hF hrs hA p n _ (nx _)


omit hF in
theorem Guise.client {t u : Tx} (h : Guise S t u) : u.srcIp = t.srcIp ∧ u.srcPort = t.srcPort :=
  ⟨h.get Tx.srcIp fun _ _ => rfl, h.get Tx.srcPort fun _ _ => rfl⟩

/-- Two calls that differ at most in what they tell of the request and the response. -/
inductive Spec.Kin : Op → Op → Prop
  | same (op : Op) : Kin op op
  | connection (a b c d c' d' : Bytes) : Kin (.processConnection a b c d) (.processConnection a b c' d')
  | url (u u' : Option URL) (m m' p p' : Bytes) : Kin (.processRequestURL u m p) (.processRequestURL u' m' p')
  | header (h h' : Option GoMap) : Kin (.processRequestHeader h) (.processRequestHeader h')
  | response (c c' : Int) (p p' : Bytes) (h h' : Option GoMap) : Kin (.processResponseHeaders c p h) (.processResponseHeaders c' p' h')

omit hF in
/-- What is told in one go. -/
theorem Guise.tell {t u t' u' : Tx} {op op' : Op} (h : Guise S t u) (hs : S (told t.facts op) (told u.facts op'))
    (h1 : t'.facts = told t.facts op) (h2 : u'.facts = told u.facts op') (h3 : ∀ k, t'.dress k = ({ t with srcIp := t'.srcIp, srcPort := t'.srcPort } : Tx).dress k)
    (h4 : ∀ k, u'.dress k = ({ u with srcIp := u'.srcIp, srcPort := u'.srcPort } : Tx).dress k) (h5 : u'.srcIp = t'.srcIp) (h6 : u'.srcPort = t'.srcPort) :
    Guise S t' u' := by
  refine ⟨?_, by rw [h1, h2]; exact hs⟩
  rw [h3, show u' = u'.dress u'.facts from rfl, h4]
  show _ = ({ t with srcIp := t'.srcIp, srcPort := t'.srcPort } : Tx).dress u'.facts
  rw [← h5, ← h6]
  have := h.rest
  conv => lhs; rw [this]
  rfl

/-- One call on each. -/
theorem step_guise {rs : RuleSet} (hrs : rs.Stock) (hA : ∀ p, ∀ r ∈ rs.phases p, r.Reads A) (n : Nat) {op op' : Op} (hk : Kin op op') {t u : Tx}
    (h : Guise S t u) (hs : S (told t.facts op) (told u.facts op')) :
    (t.step env rs n op).Both (fun x y => Guise S x.1 y.1 ∧ x.2 = y.2) (u.step env rs n op') := by
  have phases : ∀ {x y : Res (Tx × Trace)}, x.Both (fun x y => Guise S x.1 y.1 ∧ x.2 = y.2) y →
      (x.bind fun (t, tr) => (.ok (t, Out.unit, tr) : Res (Tx × Out × Trace))).Both (fun x y => Guise S x.1 y.1 ∧ x.2 = y.2)
        (y.bind fun (t, tr) => .ok (t, Out.unit, tr)) := fun hx => hx.bind fun a b hab => .ok ⟨hab.1, by simp only [hab.2]⟩
  have conn : ∀ a b c d c' d', S (told t.facts (.processConnection a b c d)) (told u.facts (.processConnection a b c' d')) →
      (t.step env rs n (.processConnection a b c d)).Both (fun x y => Guise S x.1 y.1 ∧ x.2 = y.2) (u.step env rs n (.processConnection a b c' d')) := by
    intro a b c d c' d' hs
    exact phases (processPhase_guise hF hrs hA n _ (h.tell hs rfl rfl (fun _ => rfl) (fun _ => rfl) rfl rfl))
  have url : ∀ a m p a' m' p', S (told t.facts (.processRequestURL a m p)) (told u.facts (.processRequestURL a' m' p')) →
      (t.step env rs n (.processRequestURL a m p)).Both (fun x y => Guise S x.1 y.1 ∧ x.2 = y.2) (u.step env rs n (.processRequestURL a' m' p')) := by
    intro a m p a' m' p' hs
    exact .ok ⟨h.tell hs rfl rfl (fun _ => rfl) (fun _ => rfl) h.client.1 h.client.2, rfl⟩
  have header : ∀ a a', S (told t.facts (.processRequestHeader a)) (told u.facts (.processRequestHeader a')) →
      (t.step env rs n (.processRequestHeader a)).Both (fun x y => Guise S x.1 y.1 ∧ x.2 = y.2) (u.step env rs n (.processRequestHeader a')) := by
    intro a a' hs
    exact phases (processPhase_guise hF hrs hA n _ (h.tell hs (by cases a <;> rfl) (by cases a' <;> rfl) (fun _ => rfl) (fun _ => rfl) h.client.1 h.client.2))
  have response : ∀ c p a c' p' a', S (told t.facts (.processResponseHeaders c p a)) (told u.facts (.processResponseHeaders c' p' a')) →
      (t.step env rs n (.processResponseHeaders c p a)).Both (fun x y => Guise S x.1 y.1 ∧ x.2 = y.2) (u.step env rs n (.processResponseHeaders c' p' a')) := by
    intro c p a c' p' a' hs
    exact phases (processPhase_guise hF hrs hA n _ (h.tell hs (by cases a <;> rfl) (by cases a' <;> rfl) (fun _ => rfl) (fun _ => rfl) h.client.1 h.client.2))
  cases hk with
  | connection a b c d c' d' => exact conn a b c d c' d' hs
  | url a a' m m' p p' => exact url a m p a' m' p' hs
  | header a a' => exact header a a' hs
  | response c c' p p' a a' => exact response c p a c' p' a' hs
  | same =>
    cases op with
    | processConnection a b c d => exact conn a b c d c d hs
    | processRequestURL a m p => exact url a m p a m p hs
    | processRequestHeader a => exact header a a hs
    | processResponseHeaders c p a => exact response c p a c p a hs
    | appendRequestBody p io =>
      have eb : u.reqBody = t.reqBody := h.get Tx.reqBody fun _ _ => rfl
      simp only [Tx.step, eb]
      cases t.reqBody.write p io with
      | ok x => exact .ok ⟨h.map (f := fun t => { t with reqBody := x.1 }) (fun _ _ => rfl) (fun _ => rfl), rfl⟩
      | panic => exact .panic
      | fuel => exact .fuel
    | appendResponseBody p io =>
      have eb : u.respBody = t.respBody := h.get Tx.respBody fun _ _ => rfl
      simp only [Tx.step, eb]
      cases t.respBody.write p io with
      | ok x => exact .ok ⟨h.map (f := fun t => { t with respBody := x.1 }) (fun _ _ => rfl) (fun _ => rfl), rfl⟩
      | panic => exact .panic
      | fuel => exact .fuel
    | processRequestBody => exact phases (processPhase_guise hF hrs hA n _ h)
    | processResponseBody => exact phases (processPhase_guise hF hrs hA n _ h)
    | processLogging => exact phases (processPhase_guise hF hrs hA n _ h)
    | processPhase p => exact phases (processPhase_guise hF hrs hA n _ h)
    | result =>
      have ha : u.touch.abort = t.touch.abort := h.get (fun t => t.touch.abort) fun _ _ => rfl
      have hi : u.intervention = t.intervention := h.get Tx.intervention fun _ _ => rfl
      simp only [Tx.step, Tx.result, ha, hi]
      refine .ok ⟨?_, rfl⟩
      split
      · exact h.map (f := fun t => t.touch.setIntervention Intervention.neutral) (fun _ _ => rfl) (fun _ => rfl)
      · exact h.map (f := Tx.touch) (fun _ _ => rfl) (fun _ => rfl)
    | intervention =>
      have : u.intervention = t.intervention := h.get Tx.intervention fun _ _ => rfl
      exact .ok ⟨h.map (f := Tx.touch) (fun _ _ => rfl) (fun _ => rfl), by simp only [this]⟩
    | resetIntervention => exact .ok ⟨h.map (f := Tx.resetIntervention) (fun _ _ => rfl) (fun _ => rfl), rfl⟩
    | abortWithStatus c => exact .ok ⟨h.map (f := fun t => t.abortWithStatus c) (fun _ _ => rfl) (fun _ => rfl), rfl⟩
    | abortWithError c e => exact .ok ⟨h.map (f := fun t => t.abortWithError c e) (fun _ _ => rfl) (fun _ => rfl), rfl⟩
    | logf m => exact .ok ⟨h.map (f := fun t => t.log m) (fun _ _ => rfl) (fun _ => rfl), rfl⟩
    | jumpToPhase i => exact .ok ⟨h.map (f := fun t => t.jumpToPhase i) (fun _ _ => rfl) (fun _ => rfl), rfl⟩
    | nextPhase =>
      have : u.nextPhase.phase = t.nextPhase.phase := h.get (fun t => t.nextPhase.phase) fun _ _ => rfl
      exact .ok ⟨h.map (f := Tx.nextPhase) (fun _ _ => rfl) (fun _ => rfl), by simp only [this]⟩
    | jumpTo i =>
      have ep : u.phase = t.phase := h.get Tx.phase fun _ _ => rfl
      simp only [Tx.step, ep]
      have hj := h.map (f := fun t' => t'.jumpTo (rs.phases t.phase).length i) (fun t b => jumpTo_dress _ _ t b) (fun t => jumpTo_facts _ _ t)
      have : (u.jumpTo (rs.phases t.phase).length i).nextRule = _ := hj.get Tx.nextRule fun _ _ => rfl
      exact .ok ⟨hj, by simp only [this]⟩
    | next =>
      have ep : u.phase = t.phase := h.get Tx.phase fun _ _ => rfl
      simp only [Tx.step, ep]
      have nn : (u.next (rs.phases t.phase).length).2 = (t.next (rs.phases t.phase).length).2 := h.get (fun t' => (t'.next (rs.phases t.phase).length).2)
        (fun t b => by rw [next_dress])
      refine .ok ⟨h.map (f := fun t' => (t'.next (rs.phases t.phase).length).1) (fun t b => by rw [next_dress]) (fun t => next_facts t _),
        by simp only [nn]⟩

end
end Verif
