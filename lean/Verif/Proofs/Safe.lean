import Verif.Proofs.Fuel
/-! Evaluation without panics: every step, if it returns, returns a good state, and
does not panic. -/
namespace Verif

/-- The computation does not panic, and its result (if it returns) satisfies `P`. -/
def Res.Post {α : Type u} (P : α → Prop) : Res α → Prop
  | .ok a => P a
  | .panic => False
  | .fuel => True

theorem Res.Post.bind {α : Type u} {β : Type v} {P : α → Prop} {Q : β → Prop} {r : Res α} {f : α → Res β}
    (h : r.Post P) (hf : ∀ a, P a → (f a).Post Q) : (r.bind f).Post Q := by
  cases r with
  | ok a => exact hf a h
  | panic => exact h.elim
  | fuel => trivial

theorem Res.Post.ne_panic {α : Type u} {P : α → Prop} {r : Res α} (h : r.Post P) : r ≠ .panic := by
  rintro rfl; exact h

theorem Res.Post.of_ok {α : Type u} {P : α → Prop} {r : Res α} {a : α} (h : r.Post P) (e : r = .ok a) : P a := by
  subst e; exact h

theorem Res.Post.mono {α : Type u} {P Q : α → Prop} {r : Res α} (h : r.Post P) (hpq : ∀ a, P a → Q a) : r.Post Q := by
  cases r with
  | ok a => exact hpq a h
  | panic => exact h
  | fuel => trivial

theorem Res.Post.of_ne {α : Type u} {P : α → Prop} {r : Res α} (h : r ≠ .panic) (hp : ∀ a, r = .ok a → P a) : r.Post P := by
  cases r with
  | ok a => exact hp a rfl
  | panic => exact absurd rfl h
  | fuel => trivial

/-- The rule cursor is in range. -/
def CurOK (t : Tx) : Prop := -2 ≤ t.currentRule ∧ (0 ≤ t.nextRule ∨ t.nextRule = -2)

theorem Buf.Lim.same {m f : Int} {b b' : Buf} (h : Buf.Lim m f b) (hs : b.SameBody b') : Buf.Lim m f b' := by
  refine ⟨hs.readed.trans h.readed, hs.memLimit.trans h.memLimit, hs.fileLimit.trans h.fileLimit, ?_, ?_⟩
  · rw [hs.length]; exact h.length
  · intro hn; rw [hs.length]; exact h.mem (hs.none.1 hn)

/-- The part of a good state that does not concern the cursor: `K` of the parsed
bodies kept, and both buffers within their limits. -/
structure Good (l : Limits) (K : List (BodyType × Parsed) → Prop) (t : Tx) : Prop where
  cache : K t.cache
  req : Buf.Lim l.requestBodyInMem l.requestBody t.reqBody
  resp : Buf.Lim l.responseBody l.responseBody t.respBody

theorem Good.congr {l : Limits} {K : List (BodyType × Parsed) → Prop} {t u : Tx} (h : Good l K t)
    (h1 : u.cache = t.cache) (h2 : u.reqBody = t.reqBody) (h3 : u.respBody = t.respBody) : Good l K u :=
  ⟨by rw [h1]; exact h.cache, by rw [h2]; exact h.req, by rw [h3]; exact h.resp⟩

/-- A host-written action that leaves the rule cursor, the bodies and the parsed
bodies alone. -/
def Harmless (f : Tx → Tx) : Prop :=
  CursorNeutral f ∧ ∀ t, (f t).cache = t.cache ∧ (f t).reqBody = t.reqBody ∧ (f t).respBody = t.respBody

/-- An action in one of the five groups; host-written ones are harmless. -/
def Action.Sane : Action → Prop
  | .custom g f => 0 ≤ g ∧ g < 5 ∧ Harmless f
  | _ => True

/-- A rule with an operator, `okV` variables and sane actions. -/
def Rule.Sane1 (okV : Var → Prop) (r : Rule) : Prop :=
  r.op ≠ none ∧ (∀ v ∈ r.vars, okV v) ∧ ∀ a ∈ r.actions, a.Sane

/-- A rule that is sane together with its chained rules. -/
def Rule.Sane (okV : Var → Prop) (r : Rule) : Prop := r.Sane1 okV ∧ ∀ s ∈ r.subRules, s.Sane1 okV

/-- A rule set that uses only `okV` variables, has an operator in every rule, and
whose host-written actions are harmless. -/
def RuleSet.Sane (okV : Var → Prop) (rs : RuleSet) : Prop :=
  (∀ p, ∀ r ∈ rs.phases p, r.Sane okV) ∧ ∀ a ∈ rs.defaultActions, a.Sane

/-- Fetching the variables `okV` is safe as long as `K` holds of the parsed bodies. -/
def FetchSafe (env : Env) (okV : Var → Prop) (K : List (BodyType × Parsed) → Prop) : Prop :=
  ∀ v, okV v → ∀ t, K t.cache → (v.fetch env t).Post (fun p => K p.2.cache)

theorem Action.Sane.group {a : Action} (h : a.Sane) : 0 ≤ a.group ∧ a.group < 5 := by
  cases a
  case custom g f => exact ⟨h.1, h.2.1⟩
  all_goals simp [Action.group, groupDisruptive, groupNonDisruptive, groupFlow, groupData]

section
variable {env : Env} {okV : Var → Prop} {K : List (BodyType × Parsed) → Prop} {l : Limits} {rs : RuleSet}

/-- Good state with the cursor in range. -/
def GoodCur (l : Limits) (K : List (BodyType × Parsed) → Prop) (t : Tx) : Prop := Good l K t ∧ CurOK t

theorem fetch_good (hf : FetchSafe env okV K) {v : Var} (hv : okV v) {t : Tx} (h : GoodCur l K t) :
    (v.fetch env t).Post (fun p => GoodCur l K p.2) := by
  have hp := hf v hv t h.1.cache
  refine .of_ne hp.ne_panic ?_
  rintro ⟨vs, t'⟩ e
  have hF := Var.fetch_fetched e
  refine ⟨⟨hp.of_ok e, h.1.req.same hF.req, h.1.resp.same hF.resp⟩, ?_⟩
  have := h.2
  simp only [CurOK, hF.currentRule, hF.nextRule] at this ⊢
  exact this

theorem fetchVars_good (hf : FetchSafe env okV K) (r : Rule) : ∀ {vs : List Var}, (∀ v ∈ vs, okV v) → ∀ {t : Tx},
    GoodCur l K t → (fetchVars env r vs t).Post (fun p => GoodCur l K p.2) := by
  intro vs
  induction vs with
  | nil => intro _ t h; exact h
  | cons v vs ih =>
    intro hvs t h
    simp only [fetchVars, Rule.transformVariable]
    refine Res.Post.bind (P := fun p : List Bytes × Tx => GoodCur l K p.2)
      ((fetch_good hf (hvs v (by simp)) h).bind fun (p : List Bytes × Tx) hp => hp) ?_
    rintro ⟨x, t1⟩ h1
    exact (ih (fun v hv => hvs v (by simp [hv])) h1).bind fun p hp => hp

theorem matchLoop_safe {r : Rule} (hop : r.op ≠ none) (t : Tx) (vals : List Bytes) :
    (matchLoop r t vals).Post (fun _ => True) := by
  obtain ⟨op, ho⟩ := Option.ne_none_iff_exists'.1 hop
  rw [matchLoop_iff ho]; trivial

theorem matches_good (hf : FetchSafe env okV K) {r : Rule} (hr : r.Sane1 okV) {t : Tx} (h : GoodCur l K t) :
    (r.matches env t).Post (fun p => GoodCur l K p.2) := by
  refine (fetchVars_good hf r hr.2.1 h).bind ?_
  rintro ⟨vals, t1⟩ h1
  exact (matchLoop_safe hr.1 t1 vals).bind fun _ _ => h1

theorem matchSubs_good (hf : FetchSafe env okV K) : ∀ {ss : List Rule}, (∀ s ∈ ss, s.Sane1 okV) → ∀ {t : Tx},
    GoodCur l K t → (matchSubs env ss t).Post (fun p => GoodCur l K p.2) := by
  intro ss
  induction ss with
  | nil => intro _ t h; exact h
  | cons s ss ih =>
    intro hss t h
    simp only [matchSubs]
    refine (matches_good hf (hss s (by simp)) h).bind ?_
    rintro ⟨b, t1⟩ h1
    dsimp only
    split
    · exact h1
    · exact ih (fun s hs => hss s (by simp [hs])) h1

theorem doAll_good {I : Tx → Prop} {d : Action → Tx → Res Tx} : ∀ {as : List Action},
    (∀ a ∈ as, ∀ t, I t → (d a t).Post I) → ∀ {t : Tx}, I t → (doAll d as t).Post I := by
  intro as
  induction as with
  | nil => intro _ t h; exact h
  | cons a as ih =>
    intro hs t h
    exact (hs a (by simp) t h).bind fun t1 h1 => ih (fun b hb => hs b (by simp [hb])) h1

theorem actionsExecute_good {I : Tx → Prop} {d : Action → Tx → Res Tx} {as : List Action}
    (hg : ∀ a ∈ as, a.Sane) (hs : ∀ a ∈ as, ∀ t, I t → (d a t).Post I) {t : Tx} (h : I t) :
    (actionsExecute d as t).Post I := by
  simp only [actionsExecute]
  split
  · rename_i hn
    obtain ⟨a, ha, hr⟩ := actionMap_none.1 hn
    have := (hg a ha).group
    simp only [groupCount, List.length_replicate] at hr
    omega
  · rename_i m hm
    rw [actionMap_grouped hm]
    exact doAll_good (fun a ha => hs a (mem_grouped ha)) h

theorem CurOK.jump (t : Tx) (p : Int) : CurOK (t.jumpToPhase p) := by
  simp [CurOK, Tx.jumpToPhase, statusNotStarted]

theorem Action.run_good (hd : ∀ a ∈ rs.defaultActions, a.Sane) : ∀ (n : Nat) (a : Action), a.Sane → ∀ t,
    GoodCur l K t → (Action.run rs n a t).Post (GoodCur l K) := by
  have prim : ∀ (a : Action), a ≠ .block → a.Sane → ∀ n t, GoodCur l K t → (Action.run rs n a t).Post (GoodCur l K) := by
    intro a hb hs n t h
    cases a
    case block => exact absurd rfl hb
    case deny => simp only [Action.run]; exact ⟨h.1.congr rfl rfl rfl, h.2⟩
    case log => simp only [Action.run]; exact ⟨h.1.congr rfl rfl rfl, h.2⟩
    case pass => simp only [Action.run]; exact ⟨h.1.congr rfl rfl rfl, h.2⟩
    case status k => simp only [Action.run]; exact ⟨h.1.congr rfl rfl rfl, h.2⟩
    case skip =>
      simp only [Action.run, skipDo, Tx.jumpTo, Res.Post]
      have := h.2.1
      split
      · exact ⟨h.1.congr rfl rfl rfl, this, .inr rfl⟩
      · exact ⟨h.1.congr rfl rfl rfl, this, .inl (by dsimp only; omega)⟩
    case allow arg =>
      simp only [Action.run, allowDo, Tx.nextPhase, Res.Post]
      split
      · exact ⟨h.1.congr rfl rfl rfl, .jump _ _⟩
      split
      · exact ⟨h.1.congr rfl rfl rfl, .jump _ _⟩
      split
      · exact ⟨h.1.congr rfl rfl rfl, .jump _ _⟩
      · exact h
    case custom g f =>
      simp only [Action.run]
      obtain ⟨h1, h2, h3⟩ := hs.2.2.2 t
      obtain ⟨_, c1, c2⟩ := hs.2.2.1 t
      refine ⟨h.1.congr h1 h2 h3, ?_⟩
      have := h.2
      simp only [CurOK, c1, c2] at this ⊢
      exact this
  intro n
  induction n with
  | zero =>
    intro a hs t h
    by_cases hb : a = .block
    · subst hb; simp [Action.run, Res.Post]
    · exact prim a hb hs 0 t h
  | succ n ih =>
    intro a hs t h
    by_cases hb : a = .block
    · subst hb
      simp only [Action.run]
      exact actionsExecute_good hd (fun b hb t ht => ih b (hd b hb) t ht) h
    · exact prim a hb hs _ t h

theorem subActions_good (hd : ∀ a ∈ rs.defaultActions, a.Sane) (n : Nat) : ∀ {ss : List Rule},
    (∀ s ∈ ss, ∀ a ∈ s.actions, a.Sane) → ∀ {t : Tx}, GoodCur l K t → (subActions rs n ss t).Post (GoodCur l K) := by
  intro ss
  induction ss with
  | nil => intro _ t h; exact h
  | cons s ss ih =>
    intro hss t h
    simp only [subActions]
    refine (actionsExecute_good (hss s (by simp)) (fun a ha t ht => Action.run_good hd n a (hss s (by simp) a ha) t ht) h).bind ?_
    intro t1 h1
    exact ih (fun s hs => hss s (by simp [hs])) h1

theorem Rule.run_good (hf : FetchSafe env okV K) (hd : ∀ a ∈ rs.defaultActions, a.Sane) (n : Nat) {r : Rule}
    (hr : r.Sane okV) {t : Tx} (h : GoodCur l K t) : (r.run env rs n t).Post (GoodCur l K) := by
  refine (matches_good hf hr.1 h).bind ?_
  rintro ⟨b, t1⟩ h1
  dsimp only
  split
  · exact h1
  refine (matchSubs_good hf hr.2 h1).bind ?_
  rintro ⟨b, t2⟩ h2
  dsimp only
  split
  · exact h2
  refine (actionsExecute_good hr.1.2.2 (fun a ha t ht => Action.run_good hd n a (hr.1.2.2 a ha) t ht) h2).bind ?_
  intro t3 h3
  exact subActions_good hd n (fun s hs => (hr.2 s hs).2.2) h3

theorem RuleSet.process_good (hf : FetchSafe env okV K) (hrs : rs.Sane okV) (n : Nat) {t : Tx} (h : GoodCur l K t)
    (p : Int) {i : Int} (hi : 0 ≤ i) : (rs.process env n t p i).Post (GoodCur l K) := by
  simp only [RuleSet.process]
  split
  · rename_i hl
    rw [if_neg (by omega)]
    split
    · rename_i hn
      rw [List.getElem?_eq_none_iff] at hn
      omega
    · rename_i r hr
      exact Rule.run_good hf hrs.2 n (hrs.1 p r (List.mem_of_getElem? hr)) h
  · exact h

theorem Tx.next_good (t : Tx) (k : Nat) (h : GoodCur l K t) :
    GoodCur l K (t.next k).1 ∧ (0 ≤ (t.next k).2 ∨ (t.next k).2 = -2) := by
  have hc := h.2
  simp only [CurOK] at hc
  by_cases he : t.nextRule = -2
  · have e : t.next k = ({ t with currentRule := t.nextRule }, -2) := by simp [Tx.next, statusEndOfRules, he]
    rw [e]
    exact ⟨⟨h.1.congr rfl rfl rfl, by simp only [CurOK]; omega⟩, .inr rfl⟩
  · by_cases hk : (k : Int) ≤ t.nextRule + 1
    · have e : t.next k = ({ t with currentRule := t.nextRule, nextRule := -2 }, t.nextRule) := by
        simp [Tx.next, statusEndOfRules, he, hk]
      rw [e]
      exact ⟨⟨h.1.congr rfl rfl rfl, by dsimp only; omega, .inr rfl⟩, by dsimp only; omega⟩
    · have e : t.next k = ({ t with currentRule := t.nextRule, nextRule := t.nextRule + 1 }, t.nextRule) := by
        simp [Tx.next, statusEndOfRules, he, hk]
      rw [e]
      exact ⟨⟨h.1.congr rfl rfl rfl, by simp only [CurOK]; omega⟩, by dsimp only; omega⟩

theorem processLoop_good (hf : FetchSafe env okV K) (hrs : rs.Sane okV) (p : Int) : ∀ (n : Nat) {i : Int} {t : Tx},
    GoodCur l K t → (0 ≤ i ∨ i = -2) → (processLoop env rs p n i t).Post (fun r => GoodCur l K r.1) := by
  intro n
  induction n with
  | zero => intro i t _ _; trivial
  | succ n ih =>
    intro i t h hi
    simp only [processLoop]
    split
    · rename_i hc
      have hi0 : 0 ≤ i := hi.resolve_right (fun e => hc.2 e)
      refine (RuleSet.process_good hf hrs n h p hi0).bind ?_
      intro t1 h1
      have h1' : GoodCur l K t1.touch := ⟨h1.1.congr rfl rfl rfl, h1.2⟩
      split
      · exact h1'
      · obtain ⟨g1, g2⟩ := Tx.next_good t1.touch (rs.phases t1.touch.phase).length h1'
        exact (ih g1 g2).bind fun x hx => hx
    · exact h

theorem processPhase_good (hf : FetchSafe env okV K) (hrs : rs.Sane okV) (n : Nat) (p : Int) {t : Tx} (h : Good l K t) :
    (processPhase env rs n p t).Post (fun r => Good l K r.1) := by
  simp only [processPhase]
  split
  · exact h
  · simp only [processPhase']
    split
    · exact h.congr rfl rfl rfl
    · obtain ⟨g1, g2⟩ := Tx.next_good (l := l) (K := K) (t.jumpToPhase p) (rs.phases (t.jumpToPhase p).phase).length
        ⟨h.congr rfl rfl rfl, .jump _ _⟩
      exact (processLoop_good hf hrs p n g1 g2).mono fun x hx => hx.1

theorem Buf.Lim.write {m f : Int} {b : Buf} (h : Buf.Lim m f b) (hm : 0 ≤ m) (p : Bytes) (io : IOFault) :
    (b.write p io).Post (fun r => Buf.Lim m f r.1) := by
  refine .of_ne ?_ ?_
  · have e1 := h.memLimit; have e3 := h.mem
    refine Buf.write_cases b p io h.readed ?_ ?_ ?_ ?_ ?_ ?_ ?_
    · intro _ hw; rw [hw]; simp
    · intro _ hn h1 _ _; have := e3 hn; omega
    · intro _ _ _ _ _ hw; rw [hw]; simp
    · intro _ _ _ _ _ _ _ _ hw; rw [hw]; simp
    · intro _ _ _ _ _ _ _ _ _ _ hw; rw [hw]; simp
    · intro _ _ _ hw; rw [hw]; simp
    · intro _ _ _ _ _ _ _ hw; rw [hw]; simp
  · rintro ⟨b', n, e⟩ hw
    exact h.step (Buf.step_of_write hw)

theorem Tx.step_good (hf : FetchSafe env okV K) (hrs : rs.Sane okV) (h0 : 0 ≤ l.requestBodyInMem)
    (h1 : 0 ≤ l.responseBody) (n : Nat) (op : Op) {t : Tx} (h : Good l K t) :
    (t.step env rs n op).Post (fun r => Good l K r.1) := by
  have ph : ∀ (p : Int) (u : Tx), Good l K u → ((processPhase env rs n p u).bind fun x =>
      (.ok (x.1, Out.unit, x.2) : Res (Tx × Out × Trace))).Post (fun r => Good l K r.1) :=
    fun p u hu => (processPhase_good hf hrs n p hu).bind fun x hx => hx
  cases op
  case appendRequestBody p io =>
    exact (h.req.write h0 p io).bind fun x hx => ⟨h.cache, hx, h.resp⟩
  case appendResponseBody p io =>
    exact (h.resp.write h1 p io).bind fun x hx => ⟨h.cache, h.req, hx⟩
  case result =>
    simp only [Tx.step, Tx.result, Res.Post]
    split <;> exact h.congr rfl rfl rfl
  case jumpTo i =>
    simp only [Tx.step, Tx.jumpTo, Res.Post]
    split <;> exact h.congr rfl rfl rfl
  case next =>
    simp only [Tx.step, Tx.next, Res.Post]
    split
    · exact h.congr rfl rfl rfl
    · split <;> exact h.congr rfl rfl rfl
  all_goals first
    | exact ph _ _ (h.congr rfl rfl rfl)
    | exact h.congr rfl rfl rfl

theorem Tx.steps_good (hf : FetchSafe env okV K) (hrs : rs.Sane okV) (h0 : 0 ≤ l.requestBodyInMem)
    (h1 : 0 ≤ l.responseBody) (n : Nat) : ∀ (ops : List Op) {t : Tx}, Good l K t →
    (t.steps env rs n ops).Post (fun r => Good l K r.1) := by
  intro ops
  induction ops with
  | nil => intro t h; exact h
  | cons op ops ih =>
    intro t h
    simp only [Tx.steps]
    refine (Tx.step_good hf hrs h0 h1 n op h).bind ?_
    rintro ⟨t1, o, tr⟩ g
    exact (ih g).bind fun x hx => hx

theorem Good.new (l : Limits) {K : List (BodyType × Parsed) → Prop} (hK : K []) : Good l K (newTransaction l) :=
  ⟨hK, .new _ _, .new _ _⟩

end

end Verif
