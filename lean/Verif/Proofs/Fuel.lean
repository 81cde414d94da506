import Verif.Proofs.PhaseRun
import Verif.Spec.Body
/-! Fuel: results do not depend on it once there is enough; and enough exists
for forward-only rule sets. -/
namespace Verif

/-- `a` is unfinished, or equal to `b`. -/
def Res.Le {α : Type u} (a b : Res α) : Prop := a = .fuel ∨ a = b

theorem Res.Le.refl {α : Type u} (a : Res α) : a.Le a := .inr rfl

theorem Res.Le.bind {α : Type u} {β : Type v} {a b : Res α} {f g : α → Res β} (h : a.Le b) (hf : ∀ x, (f x).Le (g x)) :
    (a.bind f).Le (b.bind g) := by
  rcases h with rfl | rfl
  · exact .inl rfl
  · cases a with
    | ok x => exact hf x
    | panic => exact .inr rfl
    | fuel => exact .inl rfl

theorem doAll_le {d d' : Action → Tx → Res Tx} (h : ∀ a t, (d a t).Le (d' a t)) : ∀ (as : List Action) (t : Tx),
    (doAll d as t).Le (doAll d' as t) := by
  intro as
  induction as with
  | nil => intro t; exact .refl _
  | cons a as ih => intro t; exact (h a t).bind fun x => ih x

theorem actionsExecute_le {d d' : Action → Tx → Res Tx} (h : ∀ a t, (d a t).Le (d' a t)) (as : List Action) (t : Tx) :
    (actionsExecute d as t).Le (actionsExecute d' as t) := by
  simp only [actionsExecute]
  split
  · exact .refl _
  · exact doAll_le h _ t

theorem Action.run_le (rs : RuleSet) : ∀ {n m : Nat}, n ≤ m → ∀ (a : Action) (t : Tx),
    (Action.run rs n a t).Le (Action.run rs m a t) := by
  intro n
  induction n with
  | zero =>
    intro m _ a t
    cases a
    case block => exact .inl (by simp [Action.run])
    all_goals exact .inr (by simp [Action.run])
  | succ n ih =>
    intro m hm a t
    obtain ⟨m, rfl⟩ : ∃ k, m = k + 1 := ⟨m - 1, by omega⟩
    cases a
    case block => simp only [Action.run]; exact actionsExecute_le (ih (by omega)) _ t
    all_goals exact .inr (by simp [Action.run])

theorem subActions_le (rs : RuleSet) {n m : Nat} (h : n ≤ m) : ∀ (ss : List Rule) (t : Tx),
    (subActions rs n ss t).Le (subActions rs m ss t) := by
  intro ss
  induction ss with
  | nil => intro t; exact .refl _
  | cons s ss ih => intro t; exact (actionsExecute_le (Action.run_le rs h) _ t).bind fun x => ih x

theorem Rule.run_le (env : Env) (rs : RuleSet) {n m : Nat} (h : n ≤ m) (r : Rule) (t : Tx) :
    (r.run env rs n t).Le (r.run env rs m t) := by
  refine (Res.Le.refl _).bind ?_
  rintro ⟨b, t1⟩
  dsimp only
  split
  · exact .refl _
  · refine (Res.Le.refl _).bind ?_
    rintro ⟨b, t2⟩
    dsimp only
    split
    · exact .refl _
    · exact (actionsExecute_le (Action.run_le rs h) _ _).bind fun x => subActions_le rs h _ x

theorem RuleSet.process_le (env : Env) (rs : RuleSet) {n m : Nat} (h : n ≤ m) (t : Tx) (p i : Int) :
    (rs.process env n t p i).Le (rs.process env m t p i) := by
  simp only [RuleSet.process]
  split
  · split
    · exact .refl _
    · split
      · exact .refl _
      · exact Rule.run_le env rs h _ t
  · exact .refl _

theorem processLoop_le (env : Env) (rs : RuleSet) (p : Int) : ∀ {n m : Nat}, n ≤ m → ∀ (i : Int) (t : Tx),
    (processLoop env rs p n i t).Le (processLoop env rs p m i t) := by
  intro n
  induction n with
  | zero => intro m _ i t; exact .inl rfl
  | succ n ih =>
    intro m hm i t
    obtain ⟨m, rfl⟩ : ∃ k, m = k + 1 := ⟨m - 1, by omega⟩
    simp only [processLoop]
    split
    · refine (RuleSet.process_le env rs (by omega) t p i).bind fun t1 => ?_
      split
      · exact .refl _
      · exact (ih (by omega) _ _).bind fun x => .refl _
    · exact .refl _

theorem processPhase_le (env : Env) (rs : RuleSet) (p : Int) {n m : Nat} (h : n ≤ m) (t : Tx) :
    (processPhase env rs n p t).Le (processPhase env rs m p t) := by
  simp only [processPhase]
  split
  · exact .refl _
  · simp only [processPhase']
    split
    · exact .refl _
    · exact processLoop_le env rs p h _ _

theorem Tx.step_le (env : Env) (rs : RuleSet) {n m : Nat} (h : n ≤ m) (t : Tx) (op : Op) :
    (t.step env rs n op).Le (t.step env rs m op) := by
  cases op
  all_goals first
    | exact .refl _
    | exact (processPhase_le env rs _ h _).bind fun x => .refl _

theorem Tx.steps_le (env : Env) (rs : RuleSet) {n m : Nat} (h : n ≤ m) : ∀ (ops : List Op) (t : Tx),
    (t.steps env rs n ops).Le (t.steps env rs m ops) := by
  intro ops
  induction ops with
  | nil => intro t; exact .refl _
  | cons op ops ih =>
    intro t
    refine (Tx.step_le env rs h t op).bind fun x => ?_
    exact (ih _).bind fun y => .refl _

/-! ### termination -/

/-- The library's form reader returns on every input. -/
def Lib.FormReturns (lib : Lib) : Prop := ∀ b bd m, (lib.readForm b bd m).1 ≠ .hang

theorem Res.bind_ne_fuel {α : Type u} {β : Type v} {r : Res α} {f : α → Res β}
    (h : r ≠ .fuel) (hf : ∀ a, r = .ok a → f a ≠ .fuel) : r.bind f ≠ .fuel := by
  cases r with
  | ok a => exact hf a rfl
  | panic => simp
  | fuel => exact absurd rfl h

theorem parseBody_returns {env : Env} (hl : env.lib.FormReturns) (tp : BodyType) (bd : Bytes) (t : Tx) :
    parseBody env tp bd t ≠ .fuel := by
  cases tp with
  | urlencoded => simp only [parseBody]; split <;> simp
  | multipart =>
    simp only [parseBody]
    have := hl t.reqBody.content bd env.limits.requestBodyInMem
    split <;> first | (rename_i h; exact absurd h this) | simp

theorem requestBodyLoop_returns {env : Env} (hl : env.lib.FormReturns) (ct bd : Bytes) : ∀ (tps : List BodyType) (t : Tx),
    requestBodyLoop env ct bd tps t ≠ .fuel := by
  intro tps
  induction tps with
  | nil => intro t; simp [requestBodyLoop]
  | cons tp tps ih =>
    intro t
    simp only [requestBodyLoop]
    split
    · exact ih t
    · split
      · split
        · exact ih t
        · simp
      · refine Res.bind_ne_fuel (parseBody_returns hl tp bd t) ?_
        rintro ⟨t1, res, err⟩ _
        dsimp only
        split
        · simp
        · split
          · exact ih _
          · simp

theorem requestBodyParse_returns {env : Env} (hl : env.lib.FormReturns) (t : Tx) : requestBodyParse env t ≠ .fuel := by
  simp only [requestBodyParse]
  split
  · simp
  · split
    · simp
    · exact requestBodyLoop_returns hl _ _ _ t

/-- Variables return if the body is parsed. -/
theorem Var.fetch_parsed {env : Env} {t : Tx} (h : requestBodyParse env t ≠ .fuel) (v : Var) : v.fetch env t ≠ .fuel := by
  have hp : ∀ f, fetchArgsPost env f t ≠ .fuel := fun f => by
    refine Res.bind_ne_fuel h ?_
    rintro ⟨t1, tp, r⟩ _
    dsimp only
    split <;> simp
  have hn : ∀ f, fetchArgsPostNames env f t ≠ .fuel := fun f => by
    refine Res.bind_ne_fuel h ?_
    rintro ⟨t1, tp, r⟩ _
    dsimp only
    split <;> simp
  induction v with
  | args g p => exact Res.bind_ne_fuel (hp p) fun _ _ => by simp
  | argsNames g p => exact Res.bind_ne_fuel (hn p) fun _ _ => by simp
  | argsPost f => exact hp f
  | argsPostNames f => exact hn f
  | count v ih => exact Res.bind_ne_fuel ih fun _ _ => by simp
  | _ => simp [Var.fetch]

theorem Var.fetch_returns {env : Env} (hl : env.lib.FormReturns) (v : Var) (t : Tx) : v.fetch env t ≠ .fuel :=
  Var.fetch_parsed (requestBodyParse_returns hl t) v

theorem Var.fetch_plain {env : Env} {v : Var} (hv : ¬ Spec.LooksAtFields v) (t : Tx) : v.fetch env t ≠ .fuel := by
  induction v with
  | args g p => exact absurd (.args g p) hv
  | argsNames g p => exact absurd (.argsNames g p) hv
  | argsPost f => exact absurd (.post f) hv
  | argsPostNames f => exact absurd (.postNames f) hv
  | count v ih => exact Res.bind_ne_fuel (ih fun h => hv (.count h)) fun _ _ => by simp
  | _ => simp [Var.fetch]

/-- Transactions with `I` can be asked for everything the rules ask for, and keep `I`. -/
structure Placid (env : Env) (rs : RuleSet) (I : Tx → Prop) : Prop where
  fetch : ∀ p, ∀ r ∈ rs.phases p, ∀ s ∈ r :: r.subRules, ∀ v ∈ s.vars, ∀ t, I t → v.fetch env t ≠ .fuel
  fetched : ∀ t t', I t → Fetched t t' → I t'
  acts : ∀ a, a ≠ .block → (a ∈ rs.defaultActions ∨ ∃ p, ∃ r ∈ rs.phases p, a ∈ r.allActions) → ∀ n t t', I t → Action.run rs n a t = .ok t' → I t'
  touch : ∀ t, I t → I t.touch
  cur : ∀ t (ph c nx : Int), I t → I { t with phase := ph, currentRule := c, nextRule := nx }

theorem Placid.next {env : Env} {rs : RuleSet} {I : Tx → Prop} (hc : Placid env rs I) (t : Tx) (k : Nat) (hI : I t) : I (t.next k).1 := by
  simp only [Tx.next]
  split
  · exact hc.cur t t.phase t.nextRule t.nextRule hI
  · split
    · exact hc.cur t t.phase t.nextRule statusEndOfRules hI
    · exact hc.cur t t.phase t.nextRule (t.nextRule + 1) hI

theorem Placid.process {env : Env} {rs : RuleSet} {I : Tx → Prop} (hc : Placid env rs I) {n : Nat} {p i : Int} {t t' : Tx} (hI : I t)
    (h : rs.process env n t p i = .ok t') : I t' :=
  RuleSet.process_inv (ok := fun a => a ∈ rs.defaultActions ∨ ∃ p, ∃ r ∈ rs.phases p, a ∈ r.allActions) hc.fetched hc.acts (fun _ h => .inl h)
    (fun r hr a ha => .inr ⟨p, r, hr, ha⟩) n i t t' hI h

/-- If the library returns, or nothing is asked of it. -/
theorem placid_always {env : Env} {rs : RuleSet} (h : env.lib.FormReturns ∨ Spec.NoFields rs) : Placid env rs fun _ => True where
  fetch := fun p r hr s hs v hv t _ => h.elim (fun h => Var.fetch_returns h v t) fun h => Var.fetch_plain (h p r hr s hs v hv) t
  fetched := fun _ _ _ _ => trivial
  acts := fun _ _ _ _ _ _ _ _ => trivial
  touch := fun _ _ => trivial
  cur := fun _ _ _ _ _ => trivial

theorem fetchVars_returns {env : Env} {I : Tx → Prop} (hI : ∀ t t', I t → Fetched t t' → I t') (r : Rule) : ∀ (vs : List Var),
    (∀ v ∈ vs, ∀ t, I t → v.fetch env t ≠ .fuel) → ∀ t, I t → fetchVars env r vs t ≠ .fuel := by
  intro vs
  induction vs with
  | nil => intro _ t _; simp [fetchVars]
  | cons v vs ih =>
    intro h t ht
    refine Res.bind_ne_fuel (Res.bind_ne_fuel (h v List.mem_cons_self t ht) fun _ _ => by simp) ?_
    rintro ⟨x, t1⟩ h1
    obtain ⟨⟨y, t2⟩, h2, h3⟩ := Res.bind_eq_ok.1 h1
    cases h3
    exact Res.bind_ne_fuel (ih (fun v hv => h v (List.mem_cons_of_mem _ hv)) _ (hI _ _ ht (Var.fetch_fetched h2))) fun _ _ => by simp

theorem matchLoop_returns (r : Rule) (t : Tx) : ∀ (vals : List Bytes), matchLoop r t vals ≠ .fuel := by
  intro vals
  induction vals with
  | nil => simp [matchLoop]
  | cons v vs ih =>
    simp only [matchLoop]
    split
    · simp
    · split
      · simp
      · split
        · simp
        · exact ih

theorem Rule.matches_returns {env : Env} {I : Tx → Prop} (hI : ∀ t t', I t → Fetched t t' → I t') {r : Rule} (hr : ∀ v ∈ r.vars, ∀ t, I t → v.fetch env t ≠ .fuel)
    {t : Tx} (ht : I t) : r.matches env t ≠ .fuel := by
  refine Res.bind_ne_fuel (fetchVars_returns hI r r.vars hr t ht) ?_
  rintro ⟨vals, t1⟩ _
  exact Res.bind_ne_fuel (matchLoop_returns r t1 vals) fun _ _ => by simp

theorem matchSubs_returns {env : Env} {I : Tx → Prop} (hI : ∀ t t', I t → Fetched t t' → I t') : ∀ (ss : List Rule),
    (∀ s ∈ ss, ∀ v ∈ s.vars, ∀ t, I t → v.fetch env t ≠ .fuel) → ∀ t, I t → matchSubs env ss t ≠ .fuel := by
  intro ss
  induction ss with
  | nil => intro _ t _; simp [matchSubs]
  | cons s ss ih =>
    intro hs t ht
    refine Res.bind_ne_fuel (Rule.matches_returns hI (hs s List.mem_cons_self) ht) ?_
    rintro ⟨b, t1⟩ h1
    dsimp only
    split
    · simp
    · exact ih (fun s' hs' => hs s' (List.mem_cons_of_mem _ hs')) t1 (hI _ _ ht (Rule.matches_fetched h1))

/-- No default action is `block`. -/
def RuleSet.NoBlockDefault (rs : RuleSet) : Prop := ∀ a ∈ rs.defaultActions, a.isBlock = false

theorem doAll_returns {d : Action → Tx → Res Tx} : ∀ {as : List Action} {t : Tx},
    (∀ a ∈ as, ∀ t, d a t ≠ .fuel) → doAll d as t ≠ .fuel := by
  intro as
  induction as with
  | nil => intro t _; simp [doAll]
  | cons a as ih =>
    intro t h
    exact Res.bind_ne_fuel (h a (by simp) t) fun t1 _ => ih (fun b hb => h b (by simp [hb]))

theorem actionsExecute_returns {d : Action → Tx → Res Tx} {as : List Action} {t : Tx}
    (h : ∀ a ∈ as, ∀ t, d a t ≠ .fuel) : actionsExecute d as t ≠ .fuel := by
  simp only [actionsExecute]
  split
  · simp
  · rename_i m hm
    refine doAll_returns fun a ha => h a ?_
    rw [actionMap_grouped hm] at ha
    exact mem_grouped ha

theorem Action.run_returns {rs : RuleSet} (hb : rs.NoBlockDefault) {n : Nat} (hn : 1 ≤ n) (a : Action) (t : Tx) :
    Action.run rs n a t ≠ .fuel := by
  obtain ⟨n, rfl⟩ : ∃ k, n = k + 1 := ⟨n - 1, by omega⟩
  have hprim : ∀ (a : Action), a.isBlock = false → ∀ n t, Action.run rs n a t ≠ .fuel := by
    intro a ha n t
    cases a
    case block => cases ha
    all_goals simp [Action.run]
  cases a
  case block => simp only [Action.run]; exact actionsExecute_returns fun a ha => hprim a (hb a ha) n
  all_goals exact hprim _ rfl _ t

theorem subActions_returns {rs : RuleSet} (hb : rs.NoBlockDefault) {n : Nat} (hn : 1 ≤ n) : ∀ (ss : List Rule) (t : Tx),
    subActions rs n ss t ≠ .fuel := by
  intro ss
  induction ss with
  | nil => intro t; simp [subActions]
  | cons s ss ih =>
    intro t
    exact Res.bind_ne_fuel (actionsExecute_returns fun a _ => Action.run_returns hb hn a) fun t1 _ => ih t1

theorem Rule.run_returns {env : Env} {rs : RuleSet} {I : Tx → Prop} (hl : Placid env rs I) (hb : rs.NoBlockDefault) {n : Nat}
    (hn : 1 ≤ n) {p : Int} {r : Rule} (hr : r ∈ rs.phases p) {t : Tx} (ht : I t) : r.run env rs n t ≠ .fuel := by
  refine Res.bind_ne_fuel (Rule.matches_returns hl.fetched (hl.fetch p r hr r List.mem_cons_self) ht) ?_
  rintro ⟨b, t1⟩ h1
  dsimp only
  split
  · simp
  · refine Res.bind_ne_fuel (matchSubs_returns hl.fetched _ (fun s hs => hl.fetch p r hr s (List.mem_cons_of_mem _ hs)) t1 (hl.fetched _ _ ht (Rule.matches_fetched h1))) ?_
    rintro ⟨b, t2⟩ _
    dsimp only
    split
    · simp
    · exact Res.bind_ne_fuel (actionsExecute_returns fun a _ => Action.run_returns hb hn a)
        fun t3 _ => subActions_returns hb hn _ t3

theorem RuleSet.process_returns {env : Env} {rs : RuleSet} {I : Tx → Prop} (hl : Placid env rs I) (hb : rs.NoBlockDefault) {n : Nat}
    (hn : 1 ≤ n) {t : Tx} (ht : I t) (p i : Int) : rs.process env n t p i ≠ .fuel := by
  simp only [RuleSet.process]
  split
  · split
    · simp
    · split
      · simp
      · next r hr => exact Rule.run_returns hl hb hn (List.mem_of_getElem? hr) ht
  · simp

theorem processLoop_returns {env : Env} {rs : RuleSet} {I : Tx → Prop} (hl : Placid env rs I) (hb : rs.NoBlockDefault)
    (hrs : rs.Forward) {p : Int} (h0 : 0 ≤ p) (h7 : p ≤ 7) : ∀ {n : Nat} {i : Int} {t : Tx},
    PosInv p (rs.phases p).length i t → (t.phase = p ∧ i ≠ statusEndOfRules → (rs.phases p).length + 3 ≤ n + i ∧ 2 ≤ n) →
    1 ≤ n → I t → processLoop env rs p n i t ≠ .fuel := by
  intro n
  induction n with
  | zero => intro i t _ _ h; omega
  | succ n ih =>
    intro i t hI hn _ ht
    simp only [processLoop]
    split
    · rename_i hc
      have hn' := hn hc
      have h1n : 1 ≤ n := by omega
      refine Res.bind_ne_fuel (RuleSet.process_returns hl hb h1n ht p i) ?_
      intro t1 hproc
      split
      · simp
      · have key : PosInv p (rs.phases p).length (t1.touch.next (rs.phases t1.phase).length).2
            (t1.touch.next (rs.phases t1.phase).length).1 ∧
            (t1.phase = p → t1.nextRule ≠ statusEndOfRules → i + 1 ≤ t1.nextRule ∧ t1.nextRule < (rs.phases p).length) := by
          refine process_at h0 h7 hrs hc.1 hc.2 hI hproc ?_ ?_
          · intro hge hl _ hend hcur
            exact ⟨PosInv.step hge (by intro h; rw [h]) hcur, fun _ h => absurd hend h⟩
          · intro k r hk hr _ _ hrun hcur
            refine ⟨PosInv.step (by omega) (by intro h; rw [h]) hcur, ?_⟩
            intro hp hne
            rcases hcur with hcur | ⟨_, _, hcur⟩
            · omega
            · rcases hcur with ⟨_, hcur⟩ | ⟨_, hcur⟩
              · rcases nextOf_cases (rs.phases p).length i with c | c
                · exact absurd (hcur.trans c.1) hne
                · omega
              · rcases nextOf_cases (rs.phases p).length (i + 1) with c | c
                · exact absurd (hcur.trans c.1) hne
                · omega
        obtain ⟨n1, n2, _, _⟩ := Tx.next_spec t1.touch (rs.phases t1.phase).length
        refine Res.bind_ne_fuel (ih key.1 ?_ h1n (hl.next _ _ (hl.touch _ (hl.process ht hproc)))) fun _ _ => by simp
        rintro ⟨g1, g2⟩
        rw [Tx.touch_phase] at g1 g2 ⊢
        rw [n2] at g1
        rw [n1] at g2 ⊢
        have hk := key.2 g1 g2
        have hnr : t1.touch.nextRule = t1.nextRule := rfl
        rw [hnr]
        omega
    · simp

theorem processPhase_returns {env : Env} {rs : RuleSet} {I : Tx → Prop} (hl : Placid env rs I) (hb : rs.NoBlockDefault)
    (hrs : rs.Forward) (p : Int) {n : Nat} (hn : (rs.phases p).length + 3 ≤ n) {t : Tx} (ht : I t) :
    processPhase env rs n p t ≠ .fuel := by
  simp only [processPhase]
  split
  · simp
  · simp only [processPhase']
    split
    · simp
    · by_cases hr : 0 ≤ p ∧ p ≤ 7
      · obtain ⟨i1, i2, i3⟩ := PosInv.init hr.1 hr.2 rs t
        refine processLoop_returns hl hb hrs hr.1 hr.2 (by rw [i1]; exact i3) ?_ (by omega) (hl.next _ _ (hl.cur t _ _ _ ht))
        intro _
        rw [i1]
        omega
      · obtain ⟨n, rfl⟩ : ∃ k, n = k + 1 := ⟨n - 1, by omega⟩
        obtain ⟨_, n2, _, _⟩ := Tx.next_spec (t.jumpToPhase p) (rs.phases (t.jumpToPhase p).phase).length
        have hb := jumpToPhase_bounds p t
        simp only [processLoop]
        rw [if_neg (by rw [n2]; rintro ⟨h, _⟩; omega)]
        simp

end Verif
