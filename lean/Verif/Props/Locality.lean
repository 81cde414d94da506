import Verif.Proofs.Flow
import Verif.Props.Engine
import Verif.Props.Actions
/-! C74: rules of later phases cannot affect earlier ones. -/
namespace Verif
open Sample

/-- Equal transactions, up to the cursor into the rules of the phase when that phase
is later than `q`. -/
structure Tx.SameUpTo (q : Int) (t u : Tx) : Prop where
  same : { t with currentRule := 0, nextRule := 0 } = { u with currentRule := 0, nextRule := 0 }
  cursor : t.phase ≤ q → t = u

/-- The same, also agreeing on the current rule. -/
structure Tx.SameIn (q : Int) (t u : Tx) : Prop where
  same : { t with nextRule := 0 } = { u with nextRule := 0 }
  cursor : t.phase ≤ q → t = u

theorem Tx.SameUpTo.refl {q : Int} (t : Tx) : Tx.SameUpTo q t t := ⟨rfl, fun _ => rfl⟩
theorem Tx.SameIn.refl {q : Int} (t : Tx) : Tx.SameIn q t t := ⟨rfl, fun _ => rfl⟩

theorem Tx.SameUpTo.phase {q : Int} {t u : Tx} (h : Tx.SameUpTo q t u) : t.phase = u.phase := by
  have := congrArg (fun x : Tx => x.phase) h.same; exact this

/-- An update of fields other than the cursor keeps the relation. -/
theorem Tx.SameUpTo.update {q : Int} {t u : Tx} (f : Tx → Tx) (h : Tx.SameUpTo q t u)
    (hf : ∀ x : Tx, { f x with currentRule := 0, nextRule := 0 } = f { x with currentRule := 0, nextRule := 0 })
    (hp : ∀ x : Tx, (f x).phase = x.phase) : Tx.SameUpTo q (f t) (f u) :=
  ⟨by rw [hf, hf, h.same], fun hq => by rw [h.cursor (by rw [← hp]; exact hq)]⟩

theorem Tx.SameIn.update {q : Int} {t u : Tx} (f : Tx → Tx) (h : Tx.SameIn q t u)
    (hf : ∀ x : Tx, { f x with nextRule := 0 } = f { x with nextRule := 0 })
    (hp : ∀ x : Tx, (f x).phase = x.phase) : Tx.SameIn q (f t) (f u) :=
  ⟨by rw [hf, hf, h.same], fun hq => by rw [h.cursor (by rw [← hp]; exact hq)]⟩

theorem Tx.SameIn.jump {q : Int} {t u : Tx} (h : Tx.SameIn q t u) (i : Int) : t.jumpToPhase i = u.jumpToPhase i := by
  have : t.jumpToPhase i = ({ t with nextRule := 0 } : Tx).jumpToPhase i := rfl
  rw [this, h.same]; rfl

theorem Tx.SameUpTo.jump {q : Int} {t u : Tx} (h : Tx.SameUpTo q t u) (i : Int) : t.jumpToPhase i = u.jumpToPhase i := by
  have : t.jumpToPhase i = ({ t with currentRule := 0, nextRule := 0 } : Tx).jumpToPhase i := rfl
  rw [this, h.same]; rfl

/-- Host-written actions that leave the phase alone and ignore the cursor. -/
def Action.IgnoresNext : Action → Prop
  | .custom _ f => (∀ t : Tx, { f t with nextRule := 0 } = f { t with nextRule := 0 }) ∧ ∀ t : Tx, (f t).phase = t.phase
  | _ => True

/-- The two rule sets have the same rules up to phase `q`, and the same default actions. -/
structure RuleSet.AgreeUpTo (q : Int) (rs rs' : RuleSet) : Prop where
  phases : ∀ p ≤ q, rs.phases p = rs'.phases p
  default : rs.defaultActions = rs'.defaultActions
  ignores : ∀ p ≤ q, ∀ r ∈ rs.phases p, ∀ a ∈ r.allActions, a.IgnoresNext
  ignoresDefault : ∀ a ∈ rs.defaultActions, a.IgnoresNext

section
variable {q : Int} {rs rs' : RuleSet}

theorem doAll_same {d d' : Action → Tx → Res Tx} : ∀ {as : List Action},
    (∀ a ∈ as, ∀ t u, Tx.SameIn q t u → Res.Both (Tx.SameIn q) (d a t) (d' a u)) → ∀ {t u : Tx}, Tx.SameIn q t u →
    Res.Both (Tx.SameIn q) (doAll d as t) (doAll d' as u)
  | [], _, _, _, h => .ok h
  | a :: as, hd, _, _, h => (hd a List.mem_cons_self _ _ h).bind fun _ _ h' => doAll_same (fun b hb => hd b (List.mem_cons_of_mem _ hb)) h'

theorem actionsExecute_same {d d' : Action → Tx → Res Tx} {as : List Action}
    (hd : ∀ a ∈ as, ∀ t u, Tx.SameIn q t u → Res.Both (Tx.SameIn q) (d a t) (d' a u)) {t u : Tx} (h : Tx.SameIn q t u) :
    Res.Both (Tx.SameIn q) (actionsExecute d as t) (actionsExecute d' as u) := by
  simp only [actionsExecute]
  cases hm : actionMap as (List.replicate groupCount []) with
  | none => exact .panic
  | some m =>
    refine doAll_same (fun a ha => hd a ?_) h
    rcases actionMap_mem hm a ha with h1 | h1
    · exact h1
    · obtain ⟨l, hl, hal⟩ := List.mem_flatten.1 h1
      rw [(List.mem_replicate.1 hl).2] at hal
      cases hal

theorem prim_same (hag : rs.AgreeUpTo q rs') (n : Nat) {a : Action} (hb : a ≠ .block) (ha : a.IgnoresNext) {t u : Tx} (h : Tx.SameIn q t u) :
    Res.Both (Tx.SameIn q) (a.run rs n t) (a.run rs' n u) := by
  have hph : t.phase = u.phase := by have := congrArg (fun x : Tx => x.phase) h.same; exact this
  have hrun : ∀ (s : RuleSet) (x : Tx), a.run s n x = a.run s 0 x := by
    intro s x; cases a <;> first | exact absurd rfl hb | simp only [Action.run]
  rw [hrun, hrun]
  cases a with
  | block => exact absurd rfl hb
  | deny => exact .ok (h.update denyDo (fun x => by simp only [denyDo_eq]; rfl) (fun x => by simp only [denyDo_eq]; rfl))
  | log => exact .ok (h.update logDo (fun _ => rfl) (fun _ => rfl))
  | pass => exact .ok (h.update Tx.resetIntervention (fun _ => rfl) (fun _ => rfl))
  | skip =>
    refine .ok ?_
    by_cases hq : t.phase ≤ q
    · have e := h.cursor hq
      subst e
      have : skipDo rs t = skipDo rs' t := by simp only [skipDo, hag.phases _ hq]
      rw [this]; exact .refl _
    · refine ⟨?_, fun h => absurd (show t.phase ≤ q from by
        have : (skipDo rs t).phase = t.phase := by simp only [skipDo, Tx.jumpTo]; split <;> rfl
        omega) hq⟩
      have key : ∀ (s : RuleSet) (x : Tx), { skipDo s x with nextRule := 0 } = ({ x with nextRule := 0 } : Tx) := by
        intro s x; simp only [skipDo, Tx.jumpTo]; split <;> rfl
      rw [key, key, h.same]
  | status k => exact .ok (h.update (fun x => x.setData b!"status" (.int k)) (fun _ => rfl) (fun _ => rfl))
  | allow arg =>
    refine .ok ?_
    simp only [allowDo]
    split
    · rw [h.jump]; exact .refl _
    · split
      · simp only [Tx.nextPhase, hph, h.jump]; exact .refl _
      · split
        · rw [h.jump]; exact .refl _
        · exact h
  | custom g f => exact .ok (h.update f ha.1 ha.2)

theorem action_same (hag : rs.AgreeUpTo q rs') : ∀ (n : Nat) (a : Action), a.IgnoresNext → ∀ t u, Tx.SameIn q t u →
    Res.Both (Tx.SameIn q) (a.run rs n t) (a.run rs' n u) := by
  intro n
  induction n with
  | zero =>
    intro a ha t u h
    by_cases hb : a = .block
    · subst hb; exact .fuel
    · exact prim_same hag 0 hb ha h
  | succ n ih =>
    intro a ha t u h
    by_cases hb : a = .block
    · subst hb
      simp only [Action.run, ← hag.default]
      exact actionsExecute_same (fun b hb t u h => ih b (hag.ignoresDefault b hb) t u h) h
    · exact prim_same hag (n + 1) hb ha h

theorem subActions_same (hag : rs.AgreeUpTo q rs') (n : Nat) : ∀ {ss : List Rule}, (∀ s ∈ ss, ∀ a ∈ s.actions, a.IgnoresNext) →
    ∀ {t u : Tx}, Tx.SameIn q t u → Res.Both (Tx.SameIn q) (subActions rs n ss t) (subActions rs' n ss u)
  | [], _, _, _, h => .ok h
  | s :: ss, hs, _, _, h => by
    simp only [subActions]
    exact (actionsExecute_same (fun a ha => action_same hag n a (hs s List.mem_cons_self a ha)) h).bind fun _ _ h' =>
      subActions_same hag n (fun s' hs' => hs s' (List.mem_cons_of_mem _ hs')) h'

theorem rule_same (hag : rs.AgreeUpTo q rs') (env : Env) (n : Nat) {r : Rule} (hr : ∀ a ∈ r.allActions, a.IgnoresNext) (t : Tx) :
    Res.Both (Tx.SameIn q) (r.run env rs n t) (r.run env rs' n t) := by
  simp only [Rule.run]
  have hrefl : ∀ {α : Type} (x : Res α), Res.Both Eq x x := fun x => by cases x <;> constructor; rfl
  refine (hrefl _).bind ?_
  rintro ⟨b, t1⟩ _ rfl
  dsimp only
  split
  · exact .ok (.refl _)
  · refine (hrefl _).bind ?_
    rintro ⟨b, t2⟩ _ rfl
    dsimp only
    split
    · exact .ok (.refl _)
    · refine (actionsExecute_same (fun a ha => action_same hag n a (hr a ?_)) (.refl _)).bind fun _ _ h => ?_
      · simp only [Rule.allActions, List.mem_append]; exact .inl ha
      · refine subActions_same hag n (fun s hs a ha => hr a ?_) h
        simp only [Rule.allActions, List.mem_append, List.mem_flatMap]
        exact .inr ⟨s, hs, ha⟩

theorem process_same (hag : rs.AgreeUpTo q rs') (env : Env) (n : Nat) (t : Tx) {p : Int} (hp : p ≤ q) (i : Int) :
    Res.Both (Tx.SameIn q) (rs.process env n t p i) (rs'.process env n t p i) := by
  simp only [RuleSet.process, ← hag.phases p hp]
  split
  · split
    · exact .panic
    · split
      · exact .panic
      · next hr => exact rule_same hag env n (hag.ignores p hp _ (List.mem_of_getElem? hr)) t
  · exact .ok (.refl _)

/-- Results of a phase: same trace, transactions the same up to phase `q`. -/
def SameRun (q : Int) (x y : Tx × Trace) : Prop := Tx.SameUpTo q x.1 y.1 ∧ x.2 = y.2

theorem next_same (hag : rs.AgreeUpTo q rs') {t u : Tx} (h : Tx.SameIn q t u) :
    Tx.SameUpTo q (t.next (rs.phases t.phase).length).1 (u.next (rs'.phases u.phase).length).1 ∧
      (t.phase ≤ q → (t.next (rs.phases t.phase).length).2 = (u.next (rs'.phases u.phase).length).2) := by
  have key : ∀ (x : Tx) (k : Nat), { (x.next k).1 with currentRule := 0, nextRule := 0 } = ({ x with currentRule := 0, nextRule := 0 } : Tx) := by
    intro x k; simp only [Tx.next]; repeat' split
    all_goals rfl
  have hph : ∀ (x : Tx) (k : Nat), (x.next k).1.phase = x.phase := by
    intro x k; simp only [Tx.next]; repeat' split
    all_goals rfl
  by_cases hq : t.phase ≤ q
  · have e := h.cursor hq
    subst e
    rw [hag.phases _ hq]
    exact ⟨.refl _, fun _ => rfl⟩
  · refine ⟨⟨?_, fun hc => absurd (by rw [hph] at hc; exact hc) hq⟩, fun hc => absurd hc hq⟩
    rw [key, key]
    have := congrArg (fun x : Tx => ({ x with currentRule := 0 } : Tx)) h.same
    exact this

theorem processLoop_same (hag : rs.AgreeUpTo q rs') (env : Env) {p : Int} (hp : p ≤ q) : ∀ (n : Nat) (i : Int) (t : Tx),
    Res.Both (SameRun q) (processLoop env rs p n i t) (processLoop env rs' p n i t) := by
  intro n
  induction n with
  | zero => intro i t; exact .fuel
  | succ n ih =>
    intro i t
    simp only [processLoop]
    split
    · refine (process_same hag env n t hp i).bind fun t1 u1 h1 => ?_
      have ht : Tx.SameIn q t1.touch u1.touch := h1.update Tx.touch (fun _ => rfl) (fun _ => rfl)
      have hd : t1.touch.intervention = u1.touch.intervention := by
        have := congrArg (fun x : Tx => x.intervention) ht.same; exact this
      have hph : t1.touch.phase = u1.touch.phase := by
        have := congrArg (fun x : Tx => x.phase) ht.same; exact this
      simp only [hd, ← hag.phases p hp]
      split
      · exact .ok ⟨⟨by have := congrArg (fun x : Tx => ({ x with currentRule := 0 } : Tx)) ht.same; exact this, ht.cursor⟩, rfl⟩
      · obtain ⟨n1, n2⟩ := next_same hag ht
        by_cases hq : t1.touch.phase ≤ q
        · have e1 := ht.cursor hq
          have e2 := n2 hq
          have e3 := n1.cursor (by
            obtain ⟨_, g, _, _⟩ := Tx.next_spec t1.touch (rs.phases t1.touch.phase).length
            rw [g]; exact hq)
          rw [e2, e3]
          refine (ih _ _).bind fun a b h => .ok ⟨h.1, ?_⟩
          rw [h.2]
        · have hne : ∀ (s : RuleSet) (x : Tx) (j : Int), x.phase = t1.touch.phase → processLoop env s p n j x = if n = 0 then .fuel else .ok (x, []) := by
            intro s x j hx
            cases n with
            | zero => rfl
            | succ n =>
              rw [processLoop, if_neg (by rintro ⟨h, _⟩; omega)]
              rfl
          obtain ⟨_, g, _, _⟩ := Tx.next_spec t1.touch (rs.phases t1.touch.phase).length
          obtain ⟨_, g', _, _⟩ := Tx.next_spec u1.touch (rs'.phases u1.touch.phase).length
          rw [hne rs _ _ g, hne rs' _ _ (by rw [g', hph])]
          split
          · exact .fuel
          · exact .ok ⟨n1, rfl⟩
    · exact .ok ⟨.refl _, rfl⟩

theorem processPhase_same (hag : rs.AgreeUpTo q rs') (env : Env) (n : Nat) {p : Int} (hq : 0 ≤ q) (hp : p ≤ q) {t u : Tx}
    (h : Tx.SameUpTo q t u) : Res.Both (SameRun q) (processPhase env rs n p t) (processPhase env rs' n p u) := by
  simp only [processPhase, ← h.phase]
  split
  · exact .ok ⟨h, rfl⟩
  · rw [← h.jump]
    simp only [processPhase']
    split
    · exact .ok ⟨.refl _, rfl⟩
    · have hb : (t.jumpToPhase p).phase ≤ q := by
        simp only [Tx.jumpToPhase]
        have h0 : phaseBegin = 0 := rfl
        have h7 : phaseEnd = 7 := rfl
        split
        · omega
        · split <;> omega
      rw [hag.phases _ hb]
      exact processLoop_same hag env hp n _ _

end

/-- A call that evaluates rules of phases up to `q` only and does not move the cursor
by hand. -/
def Op.upTo (q : Int) : Op → Prop
  | .processConnection .. => 1 ≤ q
  | .processRequestHeader _ => 2 ≤ q
  | .processRequestBody => 3 ≤ q
  | .processResponseHeaders .. => 4 ≤ q
  | .processResponseBody => 5 ≤ q
  | .processLogging => 6 ≤ q
  | .processPhase p => p ≤ q
  | .next | .jumpTo _ => False
  | _ => True

theorem step_same {q : Int} {rs rs' : RuleSet} (hag : rs.AgreeUpTo q rs') (env : Env) (n : Nat) (hq : 0 ≤ q) {op : Op} (hop : op.upTo q)
    {t u : Tx} (h : Tx.SameUpTo q t u) :
    Res.Both (fun x y => Tx.SameUpTo q x.1 y.1 ∧ x.2 = y.2) (t.step env rs n op) (u.step env rs' n op) := by
  have run : ∀ {p : Int} (_ : p ≤ q) (f : Tx → Tx)
      (_ : ∀ x : Tx, { f x with currentRule := 0, nextRule := 0 } = f { x with currentRule := 0, nextRule := 0 })
      (_ : ∀ x : Tx, (f x).phase = x.phase),
      Res.Both (fun x y : Tx × Out × Trace => Tx.SameUpTo q x.1 y.1 ∧ x.2 = y.2)
        ((processPhase env rs n p (f t)).bind fun (t, tr) => .ok (t, .unit, tr))
        ((processPhase env rs' n p (f u)).bind fun (t, tr) => .ok (t, .unit, tr)) := by
    intro p hp f h1 h2
    refine (processPhase_same hag env n hq hp (h.update f h1 h2)).bind fun a b hab => .ok ⟨hab.1, ?_⟩
    show (Out.unit, a.2) = (Out.unit, b.2)
    rw [hab.2]
  have upd : ∀ (f : Tx → Tx) (o : Tx → Out)
      (_ : ∀ x : Tx, { f x with currentRule := 0, nextRule := 0 } = f { x with currentRule := 0, nextRule := 0 })
      (_ : ∀ x : Tx, (f x).phase = x.phase) (_ : ∀ x : Tx, o x = o { x with currentRule := 0, nextRule := 0 }),
      Res.Both (fun x y : Tx × Out × Trace => Tx.SameUpTo q x.1 y.1 ∧ x.2 = y.2) (.ok (f t, o t, [])) (.ok (f u, o u, [])) := by
    intro f o h1 h2 h3
    refine .ok ⟨h.update f h1 h2, ?_⟩
    show (o t, []) = (o u, [])
    rw [h3, h3 u, h.same]
  cases op with
  | processConnection a b c d => exact run hop (fun t => { t with srcIp := a, srcPort := b, dstIp := c, dstPort := d }) (fun _ => rfl) (fun _ => rfl)
  | processRequestURL a b c => exact upd (fun t => { t with url := a, method := b, reqProto := c }) (fun _ => .unit) (fun _ => rfl) (fun _ => rfl) (fun _ => rfl)
  | processRequestHeader a => exact run hop (fun t => { t with reqHeader := orEmpty a }) (fun _ => rfl) (fun _ => rfl)
  | appendRequestBody p io =>
    have e : t.reqBody = u.reqBody := by have := congrArg (fun x : Tx => x.reqBody) h.same; exact this
    simp only [Tx.step, e]
    cases hw : u.reqBody.write p io with
    | panic => exact .panic
    | fuel => exact .fuel
    | ok a => exact .ok ⟨h.update (fun t => { t with reqBody := a.1 }) (fun _ => rfl) (fun _ => rfl), rfl⟩
  | processRequestBody => exact run hop id (fun _ => rfl) (fun _ => rfl)
  | processResponseHeaders a b c =>
    exact run hop (fun t => { t with respCode := a, respProto := b, respHeader := orEmpty c }) (fun _ => rfl) (fun _ => rfl)
  | appendResponseBody p io =>
    have e : t.respBody = u.respBody := by have := congrArg (fun x : Tx => x.respBody) h.same; exact this
    simp only [Tx.step, e]
    cases hw : u.respBody.write p io with
    | panic => exact .panic
    | fuel => exact .fuel
    | ok a => exact .ok ⟨h.update (fun t => { t with respBody := a.1 }) (fun _ => rfl) (fun _ => rfl), rfl⟩
  | processResponseBody => exact run hop id (fun _ => rfl) (fun _ => rfl)
  | processLogging => exact run hop id (fun _ => rfl) (fun _ => rfl)
  | processPhase p => exact run hop id (fun _ => rfl) (fun _ => rfl)
  | result =>
    refine upd (fun t => t.result.1) (fun t => .intervention t.result.2) (fun x => ?_) (fun x => ?_) (fun _ => rfl)
    · simp only [Tx.result]
      have : ({ x with currentRule := 0, nextRule := 0 } : Tx).touch.abort = x.touch.abort := rfl
      rw [this]
      split <;> rfl
    · simp only [Tx.result]; split <;> rfl
  | intervention => exact upd Tx.touch (fun t => .intervention t.intervention) (fun _ => rfl) (fun _ => rfl) (fun _ => rfl)
  | resetIntervention => exact upd Tx.resetIntervention (fun _ => .unit) (fun _ => rfl) (fun _ => rfl) (fun _ => rfl)
  | abortWithStatus c => exact upd (fun t => t.abortWithStatus c) (fun _ => .unit) (fun _ => rfl) (fun _ => rfl) (fun _ => rfl)
  | abortWithError c e => exact upd (fun t => t.abortWithError c e) (fun _ => .unit) (fun _ => rfl) (fun _ => rfl) (fun _ => rfl)
  | logf m => exact upd (fun t => t.log m) (fun _ => .unit) (fun _ => rfl) (fun _ => rfl) (fun _ => rfl)
  | jumpToPhase i =>
    simp only [Tx.step, h.jump]
    exact .ok ⟨.refl _, rfl⟩
  | nextPhase =>
    simp only [Tx.step, Tx.nextPhase, h.phase, h.jump]
    exact .ok ⟨.refl _, rfl⟩
  | jumpTo i => exact hop.elim
  | next => exact hop.elim

/-- C74.  Two rule sets with the same rules up to phase `q` (and the same default
actions) treat alike every sequence of calls that evaluates no later phase: same
outcome, same returned values, same rules evaluated, and the same transaction, up to
the cursor when a rule has jumped beyond `q`. -/
theorem C74_locality {q : Int} {rs rs' : RuleSet} (hag : rs.AgreeUpTo q rs') (env : Env) (n : Nat) (hq : 0 ≤ q) :
    ∀ {ops : List Op}, (∀ op ∈ ops, op.upTo q) → ∀ {t u : Tx}, Tx.SameUpTo q t u →
    Res.Both (fun x y => Tx.SameUpTo q x.1 y.1 ∧ x.2 = y.2) (t.steps env rs n ops) (u.steps env rs' n ops) := by
  intro ops
  induction ops with
  | nil => intro _ t u h; exact .ok ⟨h, rfl⟩
  | cons op ops ih =>
    intro hops t u h
    simp only [Tx.steps]
    refine (step_same hag env n hq (hops op List.mem_cons_self) h).bind ?_
    rintro ⟨t1, o1⟩ ⟨u1, o2⟩ ⟨h1, h2⟩
    refine (ih (fun op' h' => hops op' (List.mem_cons_of_mem _ h')) h1).bind ?_
    rintro ⟨t2, o3⟩ ⟨u2, o4⟩ ⟨h3, h4⟩
    simp only at h2 h4
    subst h2 h4
    exact .ok ⟨h3, rfl⟩

/-- C74 for registration: rules added for phases after `q` change nothing that happens
up to phase `q`. -/
theorem C74_added_rules {q : Int} {rs : RuleSet} {extra : List Rule} (hq : 0 ≤ q) (hx : ∀ r ∈ extra, q < r.phase)
    (hi : ∀ p ≤ q, ∀ r ∈ rs.phases p, ∀ a ∈ r.allActions, a.IgnoresNext) (hd : ∀ a ∈ rs.defaultActions, a.IgnoresNext)
    (env : Env) (n : Nat) {ops : List Op} (hops : ∀ op ∈ ops, op.upTo q) (t : Tx) :
    Res.Both (fun x y => Tx.SameUpTo q x.1 y.1 ∧ x.2 = y.2) (t.steps env rs n ops) (t.steps env (rs.addRules extra) n ops) := by
  refine C74_locality ⟨?_, ?_, hi, hd⟩ env n hq hops (.refl _)
  · intro p hp
    obtain ⟨h1, h2, _⟩ := C35_registration rs extra
    by_cases hr : 1 ≤ p ∧ p ≤ 6
    · rw [h1 p hr.1 hr.2]
      have : extra.filter (fun r => decide (r.phase = p)) = [] := by
        rw [List.filter_eq_nil_iff]
        intro r hr
        have := hx r hr
        simp only [decide_eq_true_eq]; omega
      rw [this, List.append_nil]
    · rw [h2 p (by omega)]
  · exact (C35_registration rs extra).2.2.symm

/-- A later rule is evaluated by later calls only. -/
example :
    traceOf (run (rules [(2, always [.log])]) [.processRequestHeader none, .processRequestBody]) =
      traceOf (run ((rules [(2, always [.log])]).addRules [always [.deny] |> fun r => { r with phase := 5 }])
        [.processRequestHeader none, .processRequestBody]) ∧
    traceOf (run (rules [(2, always [.log])]) [.processRequestHeader none, .processResponseBody]) ≠
      traceOf (run ((rules [(2, always [.log])]).addRules [always [.deny] |> fun r => { r with phase := 5 }])
        [.processRequestHeader none, .processResponseBody]) := by
  decide +kernel

/-- A rule that jumps beyond the phase considered. -/
example : Tx.SameUpTo 2 { newTransaction limits with phase := 6, nextRule := 1 } { newTransaction limits with phase := 6, nextRule := -2 } :=
  ⟨rfl, fun h => absurd h (by decide)⟩

end Verif
