import Verif.Props.Logs
import Verif.Props.BodyTx
import Verif.Props.Machine
/-! C141: the status of a refusal. -/
namespace Verif
open Sample Spec

/-! ### Invariants that hold between lists of actions -/

/-- What has to be checked for an invariant that lists of actions keep as a whole. -/
structure ListInv (env : Env) (rs : RuleSet) (I : Tx → Prop) (okOp : Op → Prop) : Prop where
  touch : ∀ t, I t → I t.touch
  cur : ∀ t (ph c nx : Int), I t → I { t with phase := ph, currentRule := c, nextRule := nx }
  fetch : ∀ t t', I t → Fetched t t' → I t'
  list : ∀ p, ∀ r ∈ rs.phases p, ∀ x ∈ r :: r.subRules, ∀ n t t', I t → actionsExecute (Action.run rs n) x.actions t = .ok t' → I t'
  input : ∀ t a b c d u m pr h code rp rh, I t → I (t.withInput a b c d u m pr h code rp rh)
  req : ∀ (t : Tx) p io b k e, I t → t.reqBody.write p io = .ok (b, k, e) → I { t with reqBody := b }
  resp : ∀ (t : Tx) p io b k e, I t → t.respBody.write p io = .ok (b, k, e) → I { t with respBody := b }
  verdict : ∀ op, op.verdictOp = true → okOp op → ∀ n t t' o tr, I t → t.step env rs n op = .ok (t', o, tr) → I t'

variable {env : Env} {rs : RuleSet} {I : Tx → Prop} {okOp : Op → Prop}

theorem ListInv.subs {n : Nat} : ∀ {ss : List Rule} {t t' : Tx},
    (∀ s ∈ ss, ∀ t t', I t → actionsExecute (Action.run rs n) s.actions t = .ok t' → I t') → I t → subActions rs n ss t = .ok t' → I t'
  | [], t, t', _, hI, h => by simp only [subActions] at h; cases h; exact hI
  | s :: ss, t, t', hs, hI, h => by
    simp only [subActions] at h
    obtain ⟨t1, h1, h2⟩ := Res.bind_eq_ok.1 h
    exact ListInv.subs (fun s' hs' => hs s' (List.mem_cons_of_mem _ hs')) (hs s List.mem_cons_self _ _ hI h1) h2

theorem ListInv.phase (hi : ListInv env rs I okOp) {n : Nat} {p : Int} {t t' : Tx} {tr : Trace} (hI : I t)
    (h : processPhase env rs n p t = .ok (t', tr)) : I t' := by
  have hjump : ∀ t i, I t → I (Tx.jumpToPhase t i) := fun t i hI => hi.cur t _ _ _ hI
  have hnext : ∀ t k, I t → I (Tx.next t k).1 := by
    intro t k hI
    simp only [Tx.next]
    split
    · exact hi.cur t t.phase t.nextRule t.nextRule hI
    · split
      · exact hi.cur t t.phase t.nextRule statusEndOfRules hI
      · exact hi.cur t t.phase t.nextRule (t.nextRule + 1) hI
  refine processPhase_cases h ?_ ?_ ?_
  · rintro _ rfl _; exact hI
  · rintro _ _ rfl _; exact hjump _ _ hI
  · intro _ _ he
    refine he.inv hi.touch hnext ?_ (hnext _ _ (hjump _ _ hI))
    intro n i t t' hI h
    refine RuleSet.process_cases h ?_ ?_
    · rintro _ rfl; exact hI
    · intro r k _ _ hr hrun
      refine Rule.run_cases hrun (hi.fetch t t' hI) ?_
      intro t1 t2 hf _ h1 h2
      exact ListInv.subs (fun s hs => hi.list p r hr s (List.mem_cons_of_mem _ hs) n) (hi.list p r hr r List.mem_cons_self n _ _ (hi.fetch t t1 hI hf) h1) h2

theorem ListInv.step (hi : ListInv env rs I okOp) {n : Nat} {op : Op} {t t' : Tx} {o : Out} {tr : Trace} (hop : okOp op) (hI : I t)
    (h : t.step env rs n op = .ok (t', o, tr)) : I t' := by
  cases hv : op.verdictOp with
  | true => exact hi.verdict op hv hop n t t' o tr hI h
  | false =>
    cases op
    case processConnection =>
      obtain ⟨⟨t1, tr1⟩, g1, g2⟩ := Res.bind_eq_ok.1 h
      cases g2; exact hi.phase (hi.input t _ _ _ _ t.url t.method t.reqProto t.reqHeader t.respCode t.respProto t.respHeader hI) g1
    case processRequestHeader =>
      obtain ⟨⟨t1, tr1⟩, g1, g2⟩ := Res.bind_eq_ok.1 h
      cases g2
      exact hi.phase (hi.input t t.srcIp t.srcPort t.dstIp t.dstPort t.url t.method t.reqProto _ t.respCode t.respProto t.respHeader hI) g1
    case processRequestURL =>
      simp only [Tx.step, Res.ok.injEq, Prod.mk.injEq] at h
      obtain ⟨rfl, _⟩ := h
      exact hi.input t t.srcIp t.srcPort t.dstIp t.dstPort _ _ _ t.reqHeader t.respCode t.respProto t.respHeader hI
    case processResponseHeaders =>
      obtain ⟨⟨t1, tr1⟩, g1, g2⟩ := Res.bind_eq_ok.1 h
      cases g2
      exact hi.phase (hi.input t t.srcIp t.srcPort t.dstIp t.dstPort t.url t.method t.reqProto t.reqHeader _ _ _ hI) g1
    case appendRequestBody =>
      obtain ⟨⟨b, k, e⟩, g1, g2⟩ := Res.bind_eq_ok.1 h
      cases g2; exact hi.req t _ _ b k e hI g1
    case appendResponseBody =>
      obtain ⟨⟨b, k, e⟩, g1, g2⟩ := Res.bind_eq_ok.1 h
      cases g2; exact hi.resp t _ _ b k e hI g1
    case jumpToPhase =>
      simp only [Tx.step, Res.ok.injEq, Prod.mk.injEq] at h
      obtain ⟨rfl, _⟩ := h
      exact hi.cur t _ _ _ hI
    case nextPhase =>
      simp only [Tx.step, Res.ok.injEq, Prod.mk.injEq] at h
      obtain ⟨rfl, _⟩ := h
      exact hi.cur t _ _ _ hI
    case jumpTo =>
      simp only [Tx.step, Res.ok.injEq, Prod.mk.injEq] at h
      obtain ⟨rfl, _⟩ := h
      simp only [Tx.jumpTo]
      split
      · exact hi.cur t t.phase t.currentRule _ hI
      · exact hi.cur t t.phase t.currentRule _ hI
    case next =>
      simp only [Tx.step, Res.ok.injEq, Prod.mk.injEq] at h
      obtain ⟨rfl, _⟩ := h
      simp only [Tx.next]
      split
      · exact hi.cur t t.phase t.nextRule t.nextRule hI
      · split
        · exact hi.cur t t.phase t.nextRule statusEndOfRules hI
        · exact hi.cur t t.phase t.nextRule (t.nextRule + 1) hI
    all_goals first
      | (obtain ⟨⟨t1, tr1⟩, g1, g2⟩ := Res.bind_eq_ok.1 h
         cases g2; exact hi.phase hI g1)
      | (cases hv; done)

/-- A verdict that a call returns is the one that was pending. -/
theorem step_returns {n : Nat} {op : Op} {t t' : Tx} {i : Intervention} {tr : Trace} (h : t.step env rs n op = .ok (t', .intervention i, tr)) :
    i = t.intervention := by
  cases op <;> simp only [Tx.step, Tx.result] at h
  all_goals first
    | (cases h; done)
    | (cases h; rfl)
    | (obtain ⟨x, g1, g2⟩ := Res.bind_eq_ok.1 h; cases g2)

theorem ListInv.steps (hi : ListInv env rs I okOp) {n : Nat} : ∀ {ops : List Op} {t t' : Tx} {os : List Out} {tr : Trace},
    (∀ op ∈ ops, okOp op) → I t → t.steps env rs n ops = .ok (t', os, tr) → ∀ i ∈ t'.intervention :: verdicts os, ∃ u, I u ∧ i = u.intervention
  | [], t, t', os, tr, _, hI, h => by
    simp only [Tx.steps] at h
    cases h
    intro i hm
    exact ⟨t, hI, by simpa [verdicts] using hm⟩
  | op :: ops, t, t', os, tr, hops, hI, h => by
    obtain ⟨t1, o, tr1, os2, tr2, h1, h2, rfl, rfl⟩ := steps_cons h
    have ih := ListInv.steps hi (fun op ho => hops op (List.mem_cons_of_mem _ ho)) (hi.step (hops op List.mem_cons_self) hI h1) h2
    intro i hm
    rcases List.mem_cons.1 hm with rfl | hm
    · exact ih _ List.mem_cons_self
    · cases o with
      | intervention j =>
        simp only [verdicts, List.filterMap_cons] at hm ih
        rcases List.mem_cons.1 hm with rfl | hm
        · exact ⟨t, hI, step_returns h1⟩
        · exact ih i (List.mem_cons_of_mem _ hm)
      | _ => exact ih i (List.mem_cons_of_mem _ (by simpa [verdicts] using hm))

/-! ### What is written -/

/-- The rule denies. -/
def Spec.SaysDeny (p : PRule) : Prop := ∃ a ∈ p.acts.action, a.tk = .deny

/-- The number that a `status` names. -/
def Spec.NamesStatus (a : PAct) (s : Int) : Prop := a.tk = .status ∧ ∃ u, Unquoted a.arg u ∧ Int64 u s

/-- The last status that the rule names. -/
def Spec.OwnStatus (p : PRule) (s : Int) : Prop :=
  ∃ before a after, p.acts.action = before ++ a :: after ∧ NamesStatus a s ∧ ∀ b ∈ after, b.tk ≠ .status

/-- The status with which a rule refuses: the last that it names if that is one, otherwise 403. -/
def Spec.RefusesWith (p : PRule) (s : Int) : Prop :=
  (OwnStatus p s ∧ 100 ≤ s ∧ s ≤ 599) ∨ ((∀ m, OwnStatus p m → ¬ (100 ≤ m ∧ m ≤ 599)) ∧ s = 403)

/-- The statuses with which the host itself aborts. -/
def Spec.hostCodes (ops : List Op) : List Int :=
  ops.filterMap fun | .abortWithStatus c => some c | .abortWithError c _ => some c | _ => none

/-- C141 as wanted: whatever the calls, what is let through has the status 200, and what is refused
has the status of a rule that denies, or 413 for a body that could not be looked at, or is one with
which the host aborted. -/
def C141_statement : Prop :=
  ∀ (lib : Lib) (vo : VarOrd) (ord : IterOrd) (text : Bytes) (dirs : List PDir) (set : DireSet), Program text dirs →
    DireSet.addSecLangString lib vo [] text = .ok (set, none) → ∀ (n : Nat) (ops : List Op) (t : Tx) (os : List Out) (tr : Trace),
    (set.execute newEngine).newTransaction.steps ((set.execute newEngine).env lib ord) (set.execute newEngine).ruleSet n ops = .ok (t, os, tr) →
    ∀ i ∈ t.intervention :: verdicts os,
      (i.disruptive = false → i.status = 200) ∧
      (i.disruptive = true → i.status = 413 ∨ i.status ∈ hostCodes ops ∨ ∃ p, .rule p ∈ dirs ∧ SaysDeny p ∧ RefusesWith p i.status)

/-! ### The invariant -/

/-- A verdict that lets through has the status 200, one that refuses a status that may be given. -/
def Fitting (G : Int → Prop) (i : Intervention) : Prop := (i.disruptive = false ∧ i.status = 200) ∨ (i.disruptive = true ∧ G i.status)

/-- The invariant: the verdict is fitting, what was stored as status is as it may be, and the
response body is in memory. -/
structure KeepsStatus (G : Int → Prop) (D : Option DataVal → Prop) (m : Int) (t : Tx) : Prop where
  fitting : Fitting G t.intervention
  stored : D (t.getData b!"status")
  response : ∃ acc, t.respBody.Holds m acc

theorem KeepsStatus.congr {G : Int → Prop} {D : Option DataVal → Prop} {m : Int} {t t' : Tx} (h : KeepsStatus G D m t) (h1 : t'.intervention = t.intervention)
    (h2 : t'.data = t.data) (h3 : t'.respBody = t.respBody) : KeepsStatus G D m t' :=
  ⟨by rw [h1]; exact h.fitting, by rw [Tx.getData, h2]; exact h.stored, by rw [h3]; exact h.response⟩

/-- The invariant is kept by everything but lists of actions. -/
theorem KeepsStatus.inv {G : Int → Prop} {D : Option DataVal → Prop} {m : Int} (h413 : G 413)
    (hl : ∀ p, ∀ r ∈ rs.phases p, ∀ x ∈ r :: r.subRules, ∀ n t t', KeepsStatus G D m t → actionsExecute (Action.run rs n) x.actions t = .ok t' → KeepsStatus G D m t') :
    ListInv env rs (KeepsStatus G D m) (fun op => ∀ c ∈ hostCodes [op], G c) where
  touch t h := h.congr rfl rfl rfl
  cur t _ _ _ h := h.congr rfl rfl rfl
  fetch t t' h hf := by
    obtain ⟨acc, hb⟩ := h.response
    refine ⟨?_, by rw [Tx.getData, hf.data]; exact h.stored, acc, hb.same hf.resp⟩
    rcases hf.verdict with ⟨_, e⟩ | ⟨_, e1, e2 | ⟨_, e2⟩⟩
    · have : t'.intervention = t.intervention := by simp only [Tx.intervention, e]
      rw [this]; exact h.fitting
    · exact .inr ⟨e1, by rw [e2]; exact h413⟩
    · rw [hb.fileBuf] at e2; cases e2
  list := hl
  input t _ _ _ _ _ _ _ _ _ _ _ h := h.congr rfl rfl rfl
  req t _ _ _ _ _ h _ := h.congr rfl rfl rfl
  resp t p io b k e h hw := by
    obtain ⟨acc, hb⟩ := h.response
    exact ⟨h.fitting, h.stored, _, hb.write hw⟩
  verdict op hv hop n t t' o tr h hs := by
    cases op <;> cases hv
    case abortWithStatus c =>
      simp only [Tx.step, Res.ok.injEq, Prod.mk.injEq] at hs
      obtain ⟨rfl, _⟩ := hs
      exact ⟨.inr ⟨rfl, hop c (by simp [hostCodes])⟩, h.stored, h.response⟩
    case abortWithError c e =>
      simp only [Tx.step, Res.ok.injEq, Prod.mk.injEq] at hs
      obtain ⟨rfl, _⟩ := hs
      exact ⟨.inr ⟨rfl, hop c (by simp [hostCodes])⟩, h.stored, h.response⟩
    case result =>
      simp only [Tx.step, Tx.result, Res.ok.injEq, Prod.mk.injEq] at hs
      obtain ⟨rfl, _⟩ := hs
      split
      · exact ⟨.inl ⟨rfl, rfl⟩, h.stored, h.response⟩
      · exact h.congr rfl rfl rfl
    case resetIntervention =>
      simp only [Tx.step, Res.ok.injEq, Prod.mk.injEq] at hs
      obtain ⟨rfl, _⟩ := hs
      exact ⟨.inl ⟨rfl, rfl⟩, h.stored, h.response⟩
    case intervention =>
      simp only [Tx.step, Res.ok.injEq, Prod.mk.injEq] at hs
      obtain ⟨rfl, _⟩ := hs
      exact h.congr rfl rfl rfl
    case logf =>
      simp only [Tx.step, Res.ok.injEq, Prod.mk.injEq] at hs
      obtain ⟨rfl, _⟩ := hs
      exact ⟨h.fitting, h.stored, h.response⟩

/-- Actions that texts can name. -/
def Action.named : Action → Bool
  | .custom _ _ | .pass => false
  | _ => true

/-- Actions other than `deny` and `status` keep the invariant. -/
theorem KeepsStatus.act {G : Int → Prop} {D : Option DataVal → Prop} {m : Int} (hdef : rs.defaultActions = []) {a : Action} (ha : a.named = true)
    (hdeny : a = .deny → ∀ d, D d → G (denyStatus d)) (hstat : ∀ s, a = .status s → D (some (.int s))) {n : Nat} {t t' : Tx}
    (h : KeepsStatus G D m t) (hr : Action.run rs n a t = .ok t') : KeepsStatus G D m t' := by
  cases a
  case deny =>
    simp only [Action.run, Res.ok.injEq] at hr
    subst hr
    rw [denyDo_eq]
    refine ⟨.inr ⟨rfl, ?_⟩, h.stored, h.response⟩
    show G (if _ then _ else _)
    split
    · exact hdeny rfl _ h.stored
    · rename_i hne
      rcases h.fitting with ⟨_, e⟩ | ⟨_, e⟩
      · exact absurd e hne
      · exact e
  case status s =>
    simp only [Action.run, Res.ok.injEq] at hr
    subst hr
    exact ⟨h.fitting, by rw [getData_setData]; exact hstat s rfl, h.response⟩
  case log =>
    simp only [Action.run, Res.ok.injEq] at hr
    subst hr
    exact ⟨h.fitting, h.stored, h.response⟩
  case block =>
    cases n with
    | zero => simp [Action.run] at hr
    | succ n =>
      simp only [Action.run, hdef] at hr
      cases hr
      exact h
  case skip =>
    simp only [Action.run, Res.ok.injEq] at hr
    subst hr
    simp only [skipDo, Tx.jumpTo]
    split <;> exact h.congr rfl rfl rfl
  case allow arg =>
    simp only [Action.run, Res.ok.injEq] at hr
    subst hr
    simp only [allowDo]
    split
    · exact h.congr rfl rfl rfl
    · split
      · exact h.congr rfl rfl rfl
      · split
        · exact h.congr rfl rfl rfl
        · exact h
  all_goals cases ha

theorem actMeans_named {a : PAct} {x : Action} (h : ActMeans a x) : x.named = true := by cases h <;> rfl

/-- Where the actions of a rule come from. -/
theorem loaded_lists {lib : Lib} {dirs : List PDir} {ds : List Dire} (hd : Pairs (DirMeans lib) dirs ds) {q : Int} {r x : Rule}
    (hr : r ∈ (DireSet.execute (group ds) newEngine).ruleSet.phases q) (hx : x ∈ r :: r.subRules) :
    ∃ p, .rule p ∈ dirs ∧ Pairs ActMeans (p.acts.action.filter fun a => (metaName a.tk).isNone) x.actions := by
  obtain ⟨_, _, h3, _⟩ := engine_rule hd hr
  obtain ⟨⟨p1, o1, o2⟩, o3⟩ := grouped_rule_origin hd h3
  rcases List.mem_cons.1 hx with rfl | hx
  · exact ⟨p1, o1, o2.actions⟩
  · obtain ⟨p2, k1, k2⟩ := o3 x hx
    exact ⟨p2, k1, k2.actions⟩

theorem program_unique {text : Bytes} {dirs dirs' : List PDir} (h : Program text dirs) (h' : Program text dirs') : dirs' = dirs := by
  have h1 := (C53_exact id _ _).2 h
  have h2 := (C53_exact id _ _).2 h'
  rw [h1] at h2
  simpa using h2.symm

theorem KeepsStatus.fresh {G : Int → Prop} {D : Option DataVal → Prop} (hD : D none) (e : Engine) : KeepsStatus G D e.limits.responseBody e.newTransaction :=
  ⟨.inl ⟨rfl, rfl⟩, hD, [], ⟨rfl, rfl, rfl, rfl, rfl, rfl⟩⟩

/-- C141, what is true of all texts: what is let through has the status 200; what is refused has
the status 413, or one with which the host aborted, or some rule of the text denies, and it is 403
or a number between 100 and 599 after `status` somewhere in the text. -/
theorem C141_written {lib : Lib} {vo : VarOrd} {ord : IterOrd} {text : Bytes} {dirs : List PDir} {set : DireSet} (hp : Program text dirs)
    (hl : DireSet.addSecLangString lib vo [] text = .ok (set, none)) {n : Nat} {ops : List Op} {t : Tx} {os : List Out} {tr : Trace}
    (h : (set.execute newEngine).newTransaction.steps ((set.execute newEngine).env lib ord) (set.execute newEngine).ruleSet n ops = .ok (t, os, tr)) :
    ∀ i ∈ t.intervention :: verdicts os,
      (i.disruptive = false → i.status = 200) ∧
      (i.disruptive = true → i.status = 413 ∨ i.status ∈ hostCodes ops ∨ (∃ p, .rule p ∈ dirs ∧ SaysDeny p) ∧
        (i.status = 403 ∨ (100 ≤ i.status ∧ i.status ≤ 599 ∧ ∃ p, .rule p ∈ dirs ∧ ∃ a ∈ p.acts.action, NamesStatus a i.status))) := by
  obtain ⟨dirs', ds, hp', hd, rfl⟩ := loaded_set hl
  have := program_unique hp hp'
  subst this
  let D : Option DataVal → Prop := fun d => d = none ∨ ∃ s, d = some (.int s) ∧ ∃ p, .rule p ∈ dirs' ∧ ∃ a ∈ p.acts.action, NamesStatus a s
  let G : Int → Prop := fun s => s = 413 ∨ s ∈ hostCodes ops ∨ (∃ p, .rule p ∈ dirs' ∧ SaysDeny p) ∧
        (s = 403 ∨ (100 ≤ s ∧ s ≤ 599 ∧ ∃ p, .rule p ∈ dirs' ∧ ∃ a ∈ p.acts.action, NamesStatus a s))
  have hdef : (DireSet.execute (group ds) newEngine).ruleSet.defaultActions = [] := (C58_switches (group ds) newEngine).2.2
  have hi : ListInv ((DireSet.execute (group ds) newEngine).env lib ord) (DireSet.execute (group ds) newEngine).ruleSet
      (KeepsStatus G D (DireSet.execute (group ds) newEngine).limits.responseBody) (fun op => ∀ c ∈ hostCodes [op], G c) := by
    refine KeepsStatus.inv (.inl rfl) ?_
    intro q r hr x hx n t t' hk hrun
    obtain ⟨p, hpm, hpairs⟩ := loaded_lists hd hr hx
    refine actionsExecute_inv (fun a ha u u' hu hu' => ?_) hk hrun
    obtain ⟨b, hb, hba⟩ := pairs_mem_right hpairs ha
    have hb := (List.mem_filter.1 hb).1
    refine hu.act hdef (actMeans_named hba) ?_ ?_ hu'
    · rintro rfl d hd
      refine .inr (.inr ⟨⟨p, hpm, b, hb, by cases hba; rfl⟩, ?_⟩)
      rcases hd with rfl | ⟨s, rfl, hs⟩
      · exact .inl rfl
      · simp only [denyStatus]
        split
        · rename_i hr; exact .inr ⟨hr.1, hr.2, hs⟩
        · exact .inl rfl
    · rintro s rfl
      exact .inr ⟨s, rfl, p, hpm, b, hb, by cases hba; exact ⟨rfl, _, ‹_›, ‹_›⟩⟩
  intro i hm
  obtain ⟨u, hu, rfl⟩ := hi.steps (fun op ho c hc => .inr (.inl (by
    simp only [hostCodes, List.mem_filterMap] at hc ⊢
    obtain ⟨a, ha, e⟩ := hc
    rw [List.mem_singleton] at ha
    subst ha
    exact ⟨a, ho, e⟩))) (KeepsStatus.fresh (.inl rfl) _) h i hm
  rcases hu.fitting with ⟨e1, e2⟩ | ⟨e1, e2⟩
  · exact ⟨fun _ => e2, fun e => by rw [e1] at e; cases e⟩
  · exact ⟨fun e => (by rw [e1] at e; cases e), fun _ => e2⟩

/-- The last status of the actions that a rule was given. -/
theorem ownStatus_last {as : List PAct} {xs : List Action} (h : Pairs ActMeans (as.filter fun a => (metaName a.tk).isNone) xs) {s : Int}
    {before after : List PAct} {a : PAct} (e : as = before ++ a :: after) (ha : NamesStatus a s) (hl : ∀ b ∈ after, b.tk ≠ .status) : lastStatus xs = some s := by
  subst e
  have none : ∀ {bs : List PAct} {xs : List Action}, Pairs ActMeans bs xs → (∀ b ∈ bs, b.tk ≠ .status) → lastStatus xs = none := by
    intro bs xs h hb
    refine lastStatus_none fun x hx m e => ?_
    obtain ⟨b, hb', hba⟩ := pairs_mem_right h hx
    subst e
    cases hba
    exact hb _ hb' rfl
  have key : ∀ {bs : List PAct} {xs : List Action} {cs : List PAct}, Pairs ActMeans (bs ++ a :: cs) xs → (∀ b ∈ cs, b.tk ≠ .status) → lastStatus xs = some s := by
    intro bs
    induction bs with
    | nil =>
      intro xs cs h hc
      obtain ⟨e1, u, e2, e3⟩ := ha
      cases h with
      | cons hr ht =>
        have hn := none ht hc
        cases hr <;> first | (cases e1; done) | skip
        rename_i u' m hu hm
        have := numberIn_eq hu hm
        rw [numberIn_eq e2 e3] at this
        cases this
        simp only [lastStatus, hn, Option.getD_none]
    | cons b bs ih =>
      intro xs cs h hc
      cases h with
      | @cons _ x _ xs hr ht =>
        have := ih ht hc
        cases x <;> simp only [lastStatus, this, Option.getD_some]
  have hf : (before ++ a :: after).filter (fun a => (metaName a.tk).isNone) =
      before.filter (fun a => (metaName a.tk).isNone) ++ a :: after.filter (fun a => (metaName a.tk).isNone) := by
    rw [List.filter_append, List.filter_cons, if_pos (by rw [ha.1]; rfl)]
  rw [hf] at h
  exact key h fun b hb => hl b (List.mem_filter.1 hb).1

theorem doAll_split {d : Action → Tx → Res Tx} : ∀ {as bs : List Action} {t t' : Tx}, doAll d (as ++ bs) t = .ok t' →
    ∃ u, doAll d as t = .ok u ∧ doAll d bs u = .ok t'
  | [], bs, t, t', h => ⟨t, rfl, h⟩
  | a :: as, bs, t, t', h => by
    simp only [List.cons_append, doAll] at h
    obtain ⟨t1, h1, h2⟩ := Res.bind_eq_ok.1 h
    obtain ⟨u, h3, h4⟩ := doAll_split h2
    exact ⟨u, by simp only [doAll, h1, Res.bind_ok', h3], h4⟩

/-- A list of actions that denies and names a status denies with that status. -/
theorem KeepsStatus.own {G : Int → Prop} {m : Int} (hdef : rs.defaultActions = []) {as : List Action} (hn : ∀ a ∈ as, a.named = true) {s : Int} (hs : lastStatus as = some s)
    (hG : G (denyStatus (some (.int s)))) {n : Nat} {t t' : Tx} (h : KeepsStatus G (fun _ => True) m t) (hr : actionsExecute (Action.run rs n) as t = .ok t') :
    KeepsStatus G (fun _ => True) m t' := by
  have hg := actionsExecute_ok hr
  have mem : ∀ {g : Int} {a : Action}, a ∈ inGroup g as → a ∈ as ∧ a.group = g := by
    intro g a ha
    obtain ⟨h1, h2⟩ := List.mem_filter.1 ha
    exact ⟨h1, by simpa using h2⟩
  simp only [grouped, List.append_assoc] at hg
  rw [← List.append_assoc] at hg
  obtain ⟨u, h1, h2⟩ := doAll_split hg
  have hu : KeepsStatus G (fun _ => True) m u := by
    refine doAll_inv (fun a ha v v' hv hv' => ?_) h h1
    obtain ⟨hm, hgr⟩ : a ∈ as ∧ (a.group = 0 ∨ a.group = 1) := by
      rcases List.mem_append.1 ha with ha | ha
      · exact ⟨(mem ha).1, .inl (mem ha).2⟩
      · exact ⟨(mem ha).1, .inr (mem ha).2⟩
    refine hv.act hdef (hn a hm) ?_ (fun _ _ => trivial) hv'
    rintro rfl
    rcases hgr with e | e <;> cases e
  have hst : u.getData b!"status" = some (.int s) := by
    have := doAll_stored_status (rs := rs) (n := n) (fun a ha => ?_) h1
    · have e : lastStatus (inGroup 0 as ++ inGroup 1 as) = some s := by
        rw [lastStatus_append, lastStatus_none (as := inGroup 0 as), inGroup, lastStatus_filter, hs]
        · rfl
        · intro m; rfl
        · rintro a ha m rfl
          have := (mem ha).2
          cases this
      rw [e] at this
      exact this
    · obtain ⟨hm, hgr⟩ : a ∈ as ∧ (a.group = 0 ∨ a.group = 1) := by
        rcases List.mem_append.1 ha with ha | ha
        · exact ⟨(mem ha).1, .inl (mem ha).2⟩
        · exact ⟨(mem ha).1, .inr (mem ha).2⟩
      have := hn a hm
      cases a <;> first | rfl | (cases this; done) | skip
      rcases hgr with e | e <;> cases e
  have hk : KeepsStatus G (· = some (.int s)) m u := ⟨hu.fitting, hst, hu.response⟩
  have := doAll_inv (I := KeepsStatus G (· = some (.int s)) m) (fun a ha v v' hv hv' => ?_) hk h2
  · exact ⟨this.fitting, trivial, this.response⟩
  · obtain ⟨hm, hgr⟩ : a ∈ as ∧ a.group ≠ 1 := by
      simp only [List.mem_append] at ha
      rcases ha with ha | ha | ha
      all_goals refine ⟨(mem ha).1, ?_⟩
      all_goals rw [(mem ha).2]; decide
    refine hv.act hdef (hn a hm) ?_ ?_ hv'
    · rintro _ d rfl; exact hG
    · rintro s rfl; exact absurd rfl hgr

/-- C141 if every rule that denies names a status of its own, between 100 and 599. -/
theorem C141_own_partial {lib : Lib} {vo : VarOrd} {ord : IterOrd} {text : Bytes} {dirs : List PDir} {set : DireSet} (hp : Program text dirs)
    (hl : DireSet.addSecLangString lib vo [] text = .ok (set, none))
    (hown : ∀ p, .rule p ∈ dirs → SaysDeny p → ∃ s, OwnStatus p s ∧ 100 ≤ s ∧ s ≤ 599) {n : Nat} {ops : List Op} {t : Tx} {os : List Out} {tr : Trace}
    (h : (set.execute newEngine).newTransaction.steps ((set.execute newEngine).env lib ord) (set.execute newEngine).ruleSet n ops = .ok (t, os, tr)) :
    ∀ i ∈ t.intervention :: verdicts os,
      (i.disruptive = false → i.status = 200) ∧
      (i.disruptive = true → i.status = 413 ∨ i.status ∈ hostCodes ops ∨ ∃ p, .rule p ∈ dirs ∧ SaysDeny p ∧ RefusesWith p i.status) := by
  obtain ⟨dirs', ds, hp', hd, rfl⟩ := loaded_set hl
  have := program_unique hp hp'
  subst this
  let G : Int → Prop := fun s => s = 413 ∨ s ∈ hostCodes ops ∨ ∃ p, .rule p ∈ dirs' ∧ SaysDeny p ∧ RefusesWith p s
  have hdef : (DireSet.execute (group ds) newEngine).ruleSet.defaultActions = [] := (C58_switches (group ds) newEngine).2.2
  have hi : ListInv ((DireSet.execute (group ds) newEngine).env lib ord) (DireSet.execute (group ds) newEngine).ruleSet
      (KeepsStatus G (fun _ => True) (DireSet.execute (group ds) newEngine).limits.responseBody) (fun op => ∀ c ∈ hostCodes [op], G c) := by
    refine KeepsStatus.inv (.inl rfl) ?_
    intro q r hr x hx n t t' hk hrun
    obtain ⟨p, hpm, hpairs⟩ := loaded_lists hd hr hx
    have hnamed : ∀ a ∈ x.actions, a.named = true := by
      intro a ha
      obtain ⟨b, _, hba⟩ := pairs_mem_right hpairs ha
      exact actMeans_named hba
    by_cases hdeny : SaysDeny p
    · obtain ⟨s, hs, h1, h2⟩ := hown p hpm hdeny
      obtain ⟨before, a, after, e1, e2, e3⟩ := id hs
      refine hk.own hdef hnamed (ownStatus_last hpairs e1 e2 e3) ?_ hrun
      rw [denyStatus, if_pos ⟨h1, h2⟩]
      exact .inr (.inr ⟨p, hpm, hdeny, .inl ⟨hs, h1, h2⟩⟩)
    · refine actionsExecute_inv (fun a ha u u' hu hu' => ?_) hk hrun
      obtain ⟨b, hb, hba⟩ := pairs_mem_right hpairs ha
      have hb := (List.mem_filter.1 hb).1
      refine hu.act hdef (actMeans_named hba) ?_ (fun _ _ => trivial) hu'
      rintro rfl
      exact absurd ⟨b, hb, by cases hba; rfl⟩ hdeny
  intro i hm
  obtain ⟨u, hu, rfl⟩ := hi.steps (fun op ho c hc => .inr (.inl (by
    simp only [hostCodes, List.mem_filterMap] at hc ⊢
    obtain ⟨a, ha, e⟩ := hc
    rw [List.mem_singleton] at ha
    subst ha
    exact ⟨a, ho, e⟩))) (KeepsStatus.fresh trivial _) h i hm
  rcases hu.fitting with ⟨e1, e2⟩ | ⟨e1, e2⟩
  · exact ⟨fun _ => e2, fun e => by rw [e1] at e; cases e⟩
  · exact ⟨fun e => (by rw [e1] at e; cases e), fun _ => e2⟩

/-- C141 if no status is named in the text: every refusal has the status 403. -/
theorem C141_unnamed_partial {lib : Lib} {vo : VarOrd} {ord : IterOrd} {text : Bytes} {dirs : List PDir} {set : DireSet} (hp : Program text dirs)
    (hl : DireSet.addSecLangString lib vo [] text = .ok (set, none)) (hno : ∀ p, .rule p ∈ dirs → ∀ a ∈ p.acts.action, a.tk ≠ .status)
    {n : Nat} {ops : List Op} {t : Tx} {os : List Out} {tr : Trace}
    (h : (set.execute newEngine).newTransaction.steps ((set.execute newEngine).env lib ord) (set.execute newEngine).ruleSet n ops = .ok (t, os, tr)) :
    ∀ i ∈ t.intervention :: verdicts os,
      (i.disruptive = false → i.status = 200) ∧
      (i.disruptive = true → i.status = 413 ∨ i.status ∈ hostCodes ops ∨ i.status = 403 ∧ ∃ p, .rule p ∈ dirs ∧ SaysDeny p ∧ RefusesWith p i.status) := by
  intro i hi
  obtain ⟨h1, h2⟩ := C141_written hp hl h i hi
  refine ⟨h1, fun e => ?_⟩
  rcases h2 e with g | g | ⟨⟨p, hp1, hp2⟩, g | ⟨_, _, q, hq, a, ha, hs⟩⟩
  · exact .inl g
  · exact .inr (.inl g)
  · refine .inr (.inr ⟨g, p, hp1, hp2, .inr ⟨?_, g⟩⟩)
    rintro m ⟨b, a, c, e1, e2, _⟩
    exact absurd e2.1 (hno p hp1 a (by rw [e1]; simp))
  · exact absurd hs.1 (hno q hq a ha)

/-! ### Cases -/

/-- A rule that only names a status, and one that denies: POST is refused with the status of the other rule. -/
def Sample.strayText : Bytes := b!"SecRule REQUEST_METHOD \"@rx POST\" \"id:1,phase:2,log,status:404\"\nSecRule REQUEST_METHOD \"!@rx GET\" \"id:2,phase:2,deny\"\n"

def Sample.strayRules : List PRule := [methodIs 1 false b!"POST" [⟨.log, []⟩, ⟨.status, b!"404"⟩], methodIs 2 true b!"GET" [⟨.deny, []⟩]]

theorem Sample.stray_program : Program strayText (strayRules.map .rule) := (C53_exact id _ _).1 (by decide +kernel)

/-- The status and whether they refuse of the verdicts shown, for a text. -/
def Sample.statuses (text : Bytes) (ops : List Op) : Option (List (Int × Bool)) :=
  match DireSet.addSecLangString lib varOrd [] text with
  | .ok (set, none) =>
    match (set.execute newEngine).newTransaction.steps ((set.execute newEngine).env lib ord) (set.execute newEngine).ruleSet 20 ops with
    | .ok (t, os, _) => some ((t.intervention :: verdicts os).map fun i => (i.status, i.disruptive))
    | _ => none
  | _ => none

def Sample.strayOps : List Op := [.processConnection b!"1.2.3.4" b!"5" [] [], .processRequestURL none b!"POST" [], .processRequestHeader none]

theorem Sample.statuses_some {text : Bytes} {ops : List Op} {l : List (Int × Bool)} (h : statuses text ops = some l) :
    ∃ set t os tr, DireSet.addSecLangString lib varOrd [] text = .ok (set, none) ∧
      (set.execute newEngine).newTransaction.steps ((set.execute newEngine).env lib ord) (set.execute newEngine).ruleSet 20 ops = .ok (t, os, tr) ∧
      (t.intervention :: verdicts os).map (fun i => (i.status, i.disruptive)) = l := by
  simp only [statuses] at h
  split at h
  · rename_i set hs
    split at h
    · rename_i t os tr ht
      exact ⟨set, t, os, tr, hs, ht, by simpa using h⟩
    · cases h
  · cases h

/-- C141 is false: POST is refused with 404, which the rule that denies does not name. -/
theorem C141_refuted : ¬ C141_statement := by
  intro hst
  obtain ⟨set, t, os, tr, h1, h2, h3⟩ := statuses_some (text := strayText) (ops := strayOps) (l := [(404, true)]) (by decide +kernel)
  have hm : t.intervention.status = 404 ∧ t.intervention.disruptive = true := by
    simp only [List.map_cons, List.cons.injEq, Prod.mk.injEq] at h3
    exact h3.1
  have := (hst lib varOrd ord strayText _ set stray_program h1 20 strayOps t os tr h2 _ List.mem_cons_self).2 hm.2
  rw [hm.1] at this
  rcases this with h | h | ⟨p, hp, ⟨a, ha, hd⟩, hr⟩
  · cases h
  · simp [hostCodes, strayOps] at h
  · simp only [strayRules, List.map_cons, List.map_nil, List.mem_cons, List.not_mem_nil, or_false, PDir.rule.injEq] at hp
    rcases hp with rfl | rfl
    · simp only [methodIs, List.mem_cons, List.not_mem_nil, or_false] at ha
      rcases ha with rfl | rfl <;> cases hd
    · rcases hr with ⟨⟨b, x, c, e, hx, _⟩, _⟩ | ⟨_, h⟩
      · have : x ∈ [(⟨.deny, []⟩ : PAct)] := by
          show x ∈ (methodIs 2 true b!"GET" [⟨.deny, []⟩]).acts.action
          rw [e]; simp
        rw [List.mem_singleton] at this
        subst this
        cases hx.1
      · cases h

/-- The status that a rule leaves is used by another even after its own verdict was taken away. -/
theorem C141_left_behind : statuses b!"SecRule REQUEST_METHOD \"@rx POST\" \"id:1,phase:2,deny,status:404\"\nSecRule REQUEST_METHOD \"@rx POST\" \"id:2,phase:3,deny\"\n"
      (strayOps ++ [.result, .processRequestBody, .result]) = some [(200, false), (404, true), (404, true)] ∧
    statuses b!"SecRule REQUEST_METHOD \"@rx POST\" \"id:2,phase:3,deny\"\n"
      (strayOps ++ [.result, .processRequestBody, .result]) = some [(200, false), (200, false), (403, true)] := by
  decide +kernel

/-- A text that meets the condition of `C141_own_partial`: a refusal, and one with the status 200. -/
def Sample.ownText : Bytes := b!"SecRule REQUEST_METHOD \"@rx POST\" \"id:1,phase:2,status:100,deny,status:200\"\nSecRule REQUEST_METHOD \"@rx PUT\" \"id:2,phase:2,status:503,deny\"\n"

def Sample.ownRules : List PRule := [methodIs 1 false b!"POST" [⟨.status, b!"100"⟩, ⟨.deny, []⟩, ⟨.status, b!"200"⟩], methodIs 2 false b!"PUT" [⟨.status, b!"503"⟩, ⟨.deny, []⟩]]

theorem Sample.own_program : Program ownText (ownRules.map .rule) := (C53_exact id _ _).1 (by decide +kernel)

theorem Sample.own_own : ∀ p, .rule p ∈ ownRules.map PDir.rule → SaysDeny p → ∃ s, OwnStatus p s ∧ 100 ≤ s ∧ s ≤ 599 := by
  intro p hp _
  simp only [ownRules, List.map_cons, List.map_nil, List.mem_cons, List.not_mem_nil, or_false, PDir.rule.injEq] at hp
  rcases hp with rfl | rfl
  · exact ⟨200, ⟨[⟨.status, b!"100"⟩, ⟨.deny, []⟩], _, [], rfl, ⟨rfl, b!"200", (trimQuote_iff _ _).1 (by decide), (parseInt_iff _ _).1 (by decide)⟩, by simp⟩, by decide, by decide⟩
  · exact ⟨503, ⟨[], _, [⟨.deny, []⟩], rfl, ⟨rfl, b!"503", (trimQuote_iff _ _).1 (by decide), (parseInt_iff _ _).1 (by decide)⟩, by simp⟩, by decide, by decide⟩

example : statuses ownText (strayOps ++ [.result]) = some [(200, false), (200, true)] ∧
    ∃ set t os tr, DireSet.addSecLangString lib varOrd [] ownText = .ok (set, none) ∧
      (set.execute newEngine).newTransaction.steps ((set.execute newEngine).env lib ord) (set.execute newEngine).ruleSet 20 (strayOps ++ [.result]) = .ok (t, os, tr) ∧
      ∀ i ∈ t.intervention :: verdicts os, i.disruptive = true → i.status = 413 ∨ i.status ∈ hostCodes (strayOps ++ [.result]) ∨ ∃ p, .rule p ∈ ownRules.map PDir.rule ∧ SaysDeny p ∧ RefusesWith p i.status := by
  have h : statuses ownText (strayOps ++ [.result]) = some [(200, false), (200, true)] := by decide +kernel
  refine ⟨h, ?_⟩
  obtain ⟨set, t, os, tr, h1, h2, _⟩ := statuses_some h
  exact ⟨set, t, os, tr, h1, h2, fun i hi => (C141_own_partial own_program h1 own_own h2 i hi).2⟩

/-- The host's own refusals keep the status it gave. -/
example : statuses ownText (strayOps ++ [.abortWithStatus 451, .result]) = some [(451, true), (451, true)] := by decide +kernel

end Verif
