import Verif.Proofs.Rule
import Verif.Spec.Rules
/-! The loop over the rules of a phase. -/
namespace Verif

/-- The ghost event of evaluating position `i`. -/
def event (rs : RuleSet) (p i : Int) : Trace := if i < (rs.phases p).length then [(p, i)] else []

/-- Finished runs of the loop, without fuel. -/
inductive Exec (env : Env) (rs : RuleSet) (p : Int) : Int → Tx → Trace → Tx → Prop where
  | out {i t} : (t.phase ≠ p ∨ i = statusEndOfRules) → Exec env rs p i t [] t
  | stop {i t n t1} : t.phase = p → i ≠ statusEndOfRules → rs.process env n t p i = .ok t1 →
      t1.intervention.disruptive = true → Exec env rs p i t (event rs p i) t1.touch
  | go {i t n t1 tr t'} : t.phase = p → i ≠ statusEndOfRules → rs.process env n t p i = .ok t1 →
      t1.intervention.disruptive = false →
      Exec env rs p (t1.touch.next (rs.phases t1.phase).length).2 (t1.touch.next (rs.phases t1.phase).length).1 tr t' →
      Exec env rs p i t (event rs p i ++ tr) t'

@[simp] theorem Tx.touch_intervention (t : Tx) : t.touch.intervention = t.intervention := rfl
@[simp] theorem Tx.touch_phase (t : Tx) : t.touch.phase = t.phase := rfl
@[simp] theorem Tx.touch_abort (t : Tx) : t.touch.abort = t.abort := rfl

theorem processLoop_exec {env : Env} {rs : RuleSet} {p : Int} : ∀ {n : Nat} {i : Int} {t t' : Tx} {tr : Trace},
    processLoop env rs p n i t = .ok (t', tr) → Exec env rs p i t tr t' := by
  intro n
  induction n with
  | zero => intro i t t' tr h; simp [processLoop] at h
  | succ n ih =>
    intro i t t' tr h
    simp only [processLoop] at h
    split at h
    · rename_i hc
      obtain ⟨t1, h1, h2⟩ := Res.bind_eq_ok.1 h
      split at h2
      · rename_i hd
        simp only [Res.ok.injEq, Prod.mk.injEq] at h2
        obtain ⟨rfl, rfl⟩ := h2
        exact .stop hc.1 hc.2 h1 hd
      · rename_i hd
        obtain ⟨⟨t2, tr2⟩, h3, h4⟩ := Res.bind_eq_ok.1 h2
        simp only [Res.ok.injEq, Prod.mk.injEq] at h4
        obtain ⟨rfl, rfl⟩ := h4
        exact .go hc.1 hc.2 h1 (by simpa using hd) (ih h3)
    · rename_i hc
      simp only [Res.ok.injEq, Prod.mk.injEq] at h
      obtain ⟨rfl, rfl⟩ := h
      refine .out ?_
      by_cases hp : t.phase = p
      · right
        by_cases hi : i = statusEndOfRules
        · exact hi
        · exact absurd ⟨hp, hi⟩ hc
      · exact .inl hp

/-- Cases of `ProcessPhase`. -/
theorem processPhase_cases {env : Env} {rs : RuleSet} {n : Nat} {p : Int} {t t' : Tx} {tr : Trace} {P : Prop}
    (h : processPhase env rs n p t = .ok (t', tr))
    (h1 : p ≤ t.phase → t' = t → tr = [] → P)
    (h2 : t.phase < p → t.abort = true → t' = t.jumpToPhase p → tr = [] → P)
    (h3 : t.phase < p → t.abort = false →
      Exec env rs p ((t.jumpToPhase p).next (rs.phases (t.jumpToPhase p).phase).length).2
        ((t.jumpToPhase p).next (rs.phases (t.jumpToPhase p).phase).length).1 tr t' → P) : P := by
  simp only [processPhase] at h
  split at h
  · cases h; exact h1 (by omega) rfl rfl
  · rename_i hp
    simp only [processPhase'] at h
    split at h
    · rename_i ha
      cases h; exact h2 (by omega) ha rfl rfl
    · rename_i ha
      refine h3 (by omega) ?_ (processLoop_exec h)
      simpa [Tx.jumpToPhase] using ha

/-- Invariants of the loop. -/
theorem Exec.inv {env : Env} {rs : RuleSet} {p : Int} {I : Tx → Prop}
    (htouch : ∀ t, I t → I t.touch) (hnext : ∀ t k, I t → I (t.next k).1)
    (hproc : ∀ n i t t', I t → rs.process env n t p i = .ok t' → I t')
    {i : Int} {t t' : Tx} {tr : Trace} (h : Exec env rs p i t tr t') : I t → I t' := by
  induction h with
  | out _ => exact id
  | stop _ _ h _ => exact fun hI => htouch _ (hproc _ _ _ _ hI h)
  | go _ _ h _ _ ih => exact fun hI => ih (hnext _ _ (htouch _ (hproc _ _ _ _ hI h)))

/-- Invariants of a rule-set position. -/
theorem RuleSet.process_inv {I : Tx → Prop} {env : Env} {rs : RuleSet} {ok : Action → Prop} {p : Int}
    (hfetch : ∀ t t', I t → Fetched t t' → I t')
    (hprim : ∀ a, a ≠ .block → ok a → ∀ n t t', I t → Action.run rs n a t = .ok t' → I t')
    (hdef : ∀ a ∈ rs.defaultActions, ok a) (hact : ∀ r ∈ rs.phases p, ∀ a ∈ r.allActions, ok a) :
    ∀ n i t t', I t → rs.process env n t p i = .ok t' → I t' := by
  intro n i t t' hI h
  refine RuleSet.process_cases h ?_ ?_
  · rintro _ rfl; exact hI
  · intro r k _ _ hr hrun
    exact Rule.run_inv hfetch hprim hdef (hact r hr) hI hrun

/-- Invariants of `ProcessPhase`. -/
theorem processPhase_inv {I : Tx → Prop} {env : Env} {rs : RuleSet} {ok : Action → Prop} {p : Int} {n : Nat}
    {t t' : Tx} {tr : Trace}
    (htouch : ∀ t, I t → I t.touch)
    (hcur : ∀ t (ph c nx : Int), I t → I { t with phase := ph, currentRule := c, nextRule := nx })
    (hfetch : ∀ t t', I t → Fetched t t' → I t')
    (hprim : ∀ a, a ≠ .block → ok a → ∀ n t t', I t → Action.run rs n a t = .ok t' → I t')
    (hdef : ∀ a ∈ rs.defaultActions, ok a) (hact : ∀ p, ∀ r ∈ rs.phases p, ∀ a ∈ r.allActions, ok a)
    (hI : I t) (h : processPhase env rs n p t = .ok (t', tr)) : I t' := by
  have hjump : ∀ t i, I t → I (Tx.jumpToPhase t i) := fun t i hI => hcur t _ _ _ hI
  have hnext : ∀ t k, I t → I (Tx.next t k).1 := by
    intro t k hI
    simp only [Tx.next]
    split
    · exact hcur t t.phase t.nextRule t.nextRule hI
    · split
      · exact hcur t t.phase t.nextRule statusEndOfRules hI
      · exact hcur t t.phase t.nextRule (t.nextRule + 1) hI
  refine processPhase_cases h ?_ ?_ ?_
  · rintro _ rfl _; exact hI
  · rintro _ _ rfl _; exact hjump _ _ hI
  · intro _ _ he
    exact he.inv htouch hnext (RuleSet.process_inv hfetch hprim hdef (hact p)) (hnext _ _ (hjump _ _ hI))

theorem jumpToPhase_phase (p : Int) (t : Tx) : (p < 0 → (t.jumpToPhase p).phase = 0) ∧
    (7 ≤ p → (t.jumpToPhase p).phase = 7) ∧ (0 ≤ p → p < 7 → (t.jumpToPhase p).phase = p) := by
  have e0 : phaseBegin = 0 := rfl
  have e7 : phaseEnd = 7 := rfl
  simp only [Tx.jumpToPhase]
  refine ⟨fun h => ?_, fun h => ?_, fun h h' => ?_⟩
  · rw [if_pos (show p < phaseBegin by omega), e0]
  · rw [if_neg (show ¬ p < phaseBegin by omega), if_pos (show p ≥ phaseEnd by omega), e7]
  · rw [if_neg (show ¬ p < phaseBegin by omega), if_neg (show ¬ p ≥ phaseEnd by omega)]

theorem jumpToPhase_self {p : Int} (h0 : 0 ≤ p) (h7 : p ≤ 7) (t : Tx) : (t.jumpToPhase p).phase = p := by
  have := jumpToPhase_phase p t
  omega

theorem jumpToPhase_bounds (p : Int) (t : Tx) : 0 ≤ (t.jumpToPhase p).phase ∧ (t.jumpToPhase p).phase ≤ 7 := by
  have := jumpToPhase_phase p t
  omega

/-- The position after `i` in a phase of `len` rules. -/
def nextOf (len : Nat) (i : Int) : Int := if (len : Int) ≤ i + 1 then statusEndOfRules else i + 1

theorem Tx.next_spec (t : Tx) (k : Nat) :
    (t.next k).2 = t.nextRule ∧ (t.next k).1.phase = t.phase ∧ (t.next k).1.currentRule = t.nextRule ∧
    (t.nextRule ≠ statusEndOfRules → (t.next k).1.nextRule = nextOf k t.nextRule) := by
  simp only [Tx.next]
  split
  · rename_i h; exact ⟨h.symm, rfl, rfl, fun h' => absurd h h'⟩
  · refine ⟨?_, ?_, ?_, ?_⟩
    · split <;> rfl
    · split <;> rfl
    · split <;> rfl
    · intro _
      simp only [nextOf]
      split <;> rfl

/-! ### rules that only move forward -/

/-- Cursor while rule `i` of phase `p` is being run: either the phase was left
forwards, or the cursor stands on `i` and the next position is the following
one (possible if `A`) or the one after it (possible if `B`). -/
def CurInv (p : Int) (len : Nat) (i : Int) (A B : Prop) (t : Tx) : Prop :=
  (p < t.phase ∧ t.phase ≤ 7) ∨
  (t.phase = p ∧ t.currentRule = i ∧ ((A ∧ t.nextRule = nextOf len i) ∨ (B ∧ t.nextRule = nextOf len (i + 1))))

theorem CurInv.cursor {p : Int} {len : Nat} {i : Int} {A B : Prop} {t t' : Tx} (h : CurInv p len i A B t)
    (h1 : t'.phase = t.phase) (h2 : t'.currentRule = t.currentRule) (h3 : t'.nextRule = t.nextRule) :
    CurInv p len i A B t' := by
  unfold CurInv at *
  rw [h1, h2, h3]; exact h

theorem CurInv.mono {p : Int} {len : Nat} {i : Int} {A B A' B' : Prop} {t : Tx} (h : CurInv p len i A B t)
    (ha : A → A') (hb : B → B') : CurInv p len i A' B' t := by
  rcases h with h | ⟨h1, h2, h3⟩
  · exact .inl h
  · exact .inr ⟨h1, h2, h3.imp (fun h => ⟨ha h.1, h.2⟩) (fun h => ⟨hb h.1, h.2⟩)⟩

theorem CurInv.skip {p : Int} {rs : RuleSet} {i : Int} {A B A' B' : Prop} (hB : B') {t : Tx}
    (hI : CurInv p (rs.phases p).length i A B t) : CurInv p (rs.phases p).length i A' B' (skipDo rs t) := by
  rcases hI with hI | ⟨g1, g2, g3⟩
  · left
    simp only [skipDo, Tx.jumpTo]
    split <;> exact hI
  · right
    simp only [skipDo, Tx.jumpTo, g1, g2]
    have : (nextOf (rs.phases p).length (i + 1)) =
      if ((rs.phases p).length : Int) ≤ i + 2 then statusEndOfRules else i + 2 := by
      simp only [nextOf, Int.add_assoc, Int.reduceAdd]
    rw [this]
    split
    · exact ⟨rfl, rfl, .inr ⟨hB, rfl⟩⟩
    · exact ⟨rfl, rfl, .inr ⟨hB, rfl⟩⟩

theorem CurInv.prim {p : Int} (h0 : 0 ≤ p) (h7 : p ≤ 7) {rs : RuleSet} {i : Int} {A B : Prop} {a : Action}
    (hb : a ≠ .block)
    (ha : a.ForwardAt p ∧ (a.isSkip = true → B)) {n : Nat} {t t' : Tx}
    (hI : CurInv p (rs.phases p).length i A B t) (h : Action.run rs n a t = .ok t') :
    CurInv p (rs.phases p).length i A B t' := by
  cases a with
  | block => exact absurd rfl hb
  | deny => simp only [Action.run, Res.ok.injEq] at h; subst h; exact hI.cursor rfl rfl rfl
  | log => simp only [Action.run, Res.ok.injEq] at h; subst h; exact hI.cursor rfl rfl rfl
  | pass => simp only [Action.run, Res.ok.injEq] at h; subst h; exact hI.cursor rfl rfl rfl
  | status _ => simp only [Action.run, Res.ok.injEq] at h; subst h; exact hI.cursor rfl rfl rfl
  | custom g f =>
    simp only [Action.run, Res.ok.injEq] at h; subst h
    obtain ⟨g1, g2, g3⟩ := ha.1 t
    exact hI.cursor g1 g2 g3
  | skip =>
    simp only [Action.run, Res.ok.injEq] at h; subst h
    exact hI.skip (ha.2 rfl)
  | allow arg =>
    simp only [Action.run, Res.ok.injEq] at h; subst h
    obtain ⟨⟨k1, k2, k3⟩, _⟩ := ha
    have hp : p ≤ t.phase ∧ t.phase ≤ 7 := by
      rcases hI with h | ⟨h, _⟩
      · omega
      · omega
    simp only [allowDo]
    split
    · rename_i he
      left
      rw [jumpToPhase_self (by simp [phaseLogging]) (by simp [phaseLogging])]
      have := k1 he
      simp only [phaseLogging]; omega
    · split
      · rename_i he
        left
        have := k2 he
        have := jumpToPhase_phase (t.phase + 1) t
        simp only [Tx.nextPhase]
        omega
      · split
        · rename_i he
          left
          have := k3 he
          rw [jumpToPhase_self (by simp [phaseResponseHeaders]) (by simp [phaseResponseHeaders])]
          simp only [phaseResponseHeaders]; omega
        · exact hI

/-- Running any action. -/
theorem CurInv.action {p : Int} (h0 : 0 ≤ p) (h7 : p ≤ 7) {rs : RuleSet} {i : Int} {A B : Prop}
    (hdef : ∀ a ∈ rs.defaultActions, a.ForwardAt p ∧ (a.isSkip = true → B)) (n : Nat) (a : Action)
    (ha : a.ForwardAt p ∧ (a.isSkip = true → B)) (t t' : Tx)
    (hI : CurInv p (rs.phases p).length i A B t) (h : Action.run rs n a t = .ok t') :
    CurInv p (rs.phases p).length i A B t' :=
  Action.run_inv (I := CurInv p (rs.phases p).length i A B)
    (ok := fun a => a.ForwardAt p ∧ (a.isSkip = true → B))
    (fun _ hb ha _ _ _ hI h => CurInv.prim h0 h7 hb ha hI h) hdef n a ha t t' hI h

theorem doAll_append {d : Action → Tx → Res Tx} : ∀ (as bs : List Action) (t : Tx),
    doAll d (as ++ bs) t = (doAll d as t).bind (doAll d bs) := by
  intro as
  induction as with
  | nil => intro bs t; rfl
  | cons a as ih =>
    intro bs t
    simp only [List.cons_append, doAll]
    cases d a t with
    | ok t1 => simp only [Res.bind_ok']; exact ih bs t1
    | panic => rfl
    | fuel => rfl

theorem mem_grouped_of {as : List Action} {a : Action} (h : a ∈ as) (h0 : 0 ≤ a.group) (h4 : a.group ≤ 4) :
    a ∈ grouped as := by
  simp only [grouped, List.mem_append, inGroup, List.mem_filter, decide_eq_true_eq]
  have : a.group = 0 ∨ a.group = 1 ∨ a.group = 2 ∨ a.group = 3 ∨ a.group = 4 := by omega
  grind

/-- A list with an element that establishes `J`, all of whose elements keep `I` and `J`. -/
theorem actionsExecute_reach {I J : Tx → Prop} {d : Action → Tx → Res Tx} {as : List Action} {t t' : Tx} {a : Action}
    (hI : ∀ a ∈ as, ∀ t t', I t → d a t = .ok t' → I t') (hJ : ∀ a ∈ as, ∀ t t', J t → d a t = .ok t' → J t')
    (ham : a ∈ as) (h0 : 0 ≤ a.group) (h4 : a.group ≤ 4) (ha : ∀ t t', I t → d a t = .ok t' → J t')
    (ht : I t) (h : actionsExecute d as t = .ok t') : J t' := by
  have hg := actionsExecute_ok h
  obtain ⟨l1, l2, hl⟩ := List.append_of_mem (mem_grouped_of ham h0 h4)
  have hmem : ∀ b ∈ l1 ++ a :: l2, b ∈ as := by rw [← hl]; exact fun b => mem_grouped
  rw [hl, doAll_append] at hg
  obtain ⟨t1, g1, g2⟩ := Res.bind_eq_ok.1 hg
  have i1 : I t1 := doAll_inv (fun b hb => hI b (hmem b (by simp [hb]))) ht g1
  simp only [doAll] at g2
  obtain ⟨t2, g3, g4⟩ := Res.bind_eq_ok.1 g2
  exact doAll_inv (fun b hb => hJ b (hmem b (by simp [hb]))) (ha t1 t2 i1 g3) g4

theorem isSkip_eq {a : Action} (h : a.isSkip = true) : a = .skip := by cases a <;> simp [Action.isSkip] at h ⊢
theorem isBlock_eq {a : Action} (h : a.isBlock = true) : a = .block := by cases a <;> simp [Action.isBlock] at h ⊢

/-- Executing a skipping action (`skip`, or `block` with `skip` among the defaults). -/
theorem CurInv.executed {p : Int} (h0 : 0 ≤ p) (h7 : p ≤ 7) {rs : RuleSet}
    (hdef : ∀ a ∈ rs.defaultActions, a.ForwardAt p) {i : Int} {n : Nat} {a : Action}
    (hs : a.isSkip = true ∨ (a.isBlock = true ∧ rs.defaultActions.any Action.isSkip = true)) {t t' : Tx}
    (hI : CurInv p (rs.phases p).length i True True t) (h : Action.run rs n a t = .ok t') :
    CurInv p (rs.phases p).length i False True t' := by
  rcases hs with hs | ⟨hb, hd⟩
  · rw [isSkip_eq hs] at h
    simp only [Action.run, Res.ok.injEq] at h; subst h
    exact hI.skip trivial
  · rw [isBlock_eq hb] at h
    cases n with
    | zero => simp [Action.run] at h
    | succ n =>
      simp only [Action.run] at h
      obtain ⟨b, hbm, hbs⟩ := List.any_eq_true.1 hd
      have hd' : ∀ {B : Prop}, B → ∀ a ∈ rs.defaultActions, a.ForwardAt p ∧ (a.isSkip = true → B) :=
        fun hB a ha => ⟨hdef a ha, fun _ => hB⟩
      rw [isSkip_eq hbs] at hbm
      refine actionsExecute_reach (I := CurInv p (rs.phases p).length i True True)
        (J := CurInv p (rs.phases p).length i False True) (a := .skip) ?_ ?_ hbm (by decide) (by decide) ?_ hI h
      · intro a ha; exact CurInv.action h0 h7 (hd' trivial) n a (hd' trivial a ha)
      · intro a ha; exact CurInv.action h0 h7 (hd' trivial) n a (hd' trivial a ha)
      · intro t t' hI h
        simp only [Action.run, Res.ok.injEq] at h; subst h
        exact hI.skip trivial

theorem subActions_reach {I J : Tx → Prop} {rs : RuleSet} {n : Nat} {a : Action} :
    ∀ {ss : List Rule} {t t' : Tx},
    (∀ s ∈ ss, ∀ a ∈ s.actions, ∀ t t', I t → Action.run rs n a t = .ok t' → I t') →
    (∀ s ∈ ss, ∀ a ∈ s.actions, ∀ t t', J t → Action.run rs n a t = .ok t' → J t') →
    (∃ s ∈ ss, a ∈ s.actions) → 0 ≤ a.group → a.group ≤ 4 →
    (∀ t t', I t → Action.run rs n a t = .ok t' → J t') → I t → subActions rs n ss t = .ok t' → J t' := by
  intro ss
  induction ss with
  | nil => rintro t t' _ _ ⟨s, hs, _⟩; cases hs
  | cons s ss ih =>
    intro t t' hI hJ hm h0 h4 ha ht h
    simp only [subActions] at h
    obtain ⟨t1, h1, h2⟩ := Res.bind_eq_ok.1 h
    obtain ⟨s', hs', has⟩ := hm
    rcases List.mem_cons.1 hs' with rfl | hs'
    · have j1 : J t1 := actionsExecute_reach (hI s' (by simp)) (hJ s' (by simp)) has h0 h4 ha ht h1
      exact subActions_inv (fun s hs => hJ s (by simp [hs])) j1 h2
    · have i1 : I t1 := actionsExecute_inv (hI s (by simp)) ht h1
      exact ih (fun s hs => hI s (by simp [hs])) (fun s hs => hJ s (by simp [hs])) ⟨s', hs', has⟩ h0 h4 ha i1 h2

theorem Rule.run_of_fires {env : Env} {rs : RuleSet} {n : Nat} {r : Rule} {t t' : Tx}
    (hf : r.Fires env t) (h : r.run env rs n t = .ok t') :
    ∃ t1 t2, Fetched t t1 ∧ actionsExecute (Action.run rs n) r.actions t1 = .ok t2 ∧
      subActions rs n r.subRules t2 = .ok t' := by
  obtain ⟨t1, t2, h1, h2⟩ := hf
  simp only [Rule.run, h1, h2, Res.bind_ok', Bool.not_true, Bool.false_eq_true, if_false] at h
  obtain ⟨t3, h3, h4⟩ := Res.bind_eq_ok.1 h
  exact ⟨t2, t3, (Rule.matches_fetched h1).trans (matchSubs_fetched h2), h3, h4⟩

theorem Rule.run_of_not_fires {env : Env} {rs : RuleSet} {n : Nat} {r : Rule} {t t' : Tx}
    (hf : ¬ r.Fires env t) (h : r.run env rs n t = .ok t') : Fetched t t' := by
  obtain ⟨⟨b, t1⟩, g1, g2⟩ := Res.bind_eq_ok.1 h
  have hf1 := Rule.matches_fetched g1
  cases b with
  | false => simp at g2; subst g2; exact hf1
  | true =>
    simp at g2
    obtain ⟨⟨b, t2⟩, g3, g4⟩ := Res.bind_eq_ok.1 g2
    have hf2 := hf1.trans (matchSubs_fetched g3)
    cases b with
    | false => simp at g4; subst g4; exact hf2
    | true => exact absurd ⟨t1, t2, g1, g3⟩ hf

/-- Running the rule at position `i`. -/
theorem CurInv.run {p : Int} (h0 : 0 ≤ p) (h7 : p ≤ 7) {env : Env} {rs : RuleSet} (hrs : rs.Forward) {i : Int}
    {r : Rule} (hr : r ∈ rs.phases p) {n : Nat} {t t' : Tx} (ht : t.phase = p) (hc : t.currentRule = i)
    (hn : t.nextRule = nextOf (rs.phases p).length i) (h : r.run env rs n t = .ok t') :
    CurInv p (rs.phases p).length i (¬ r.SkipsAt env rs t) (r.SkipsAt env rs t) t' := by
  have hfw : ∀ a ∈ r.allActions ++ rs.defaultActions, a.ForwardAt p := hrs p r hr
  have hdefF : ∀ a ∈ rs.defaultActions, a.ForwardAt p := fun a ha => hfw a (by simp [ha])
  have start : ∀ {A B : Prop}, A → CurInv p (rs.phases p).length i A B t := fun hA => .inr ⟨ht, hc, .inl ⟨hA, hn⟩⟩
  by_cases hfire : r.Fires env t
  · by_cases hs : r.skips rs = true
    · -- executes skip
      have hdef : ∀ {B : Prop}, B → ∀ a ∈ rs.defaultActions, a.ForwardAt p ∧ (a.isSkip = true → B) :=
        fun hB a ha => ⟨hdefF a ha, fun _ => hB⟩
      have hact : ∀ {B : Prop}, B → ∀ a ∈ r.allActions, a.ForwardAt p ∧ (a.isSkip = true → B) :=
        fun hB a ha => ⟨hfw a (by simp [ha]), fun _ => hB⟩
      obtain ⟨t1, t2, hf, h1, h2⟩ := Rule.run_of_fires hfire h
      have hI1 : CurInv p (rs.phases p).length i True True t1 :=
        (start trivial).cursor hf.phase hf.currentRule hf.nextRule
      have hall : ∃ a ∈ r.allActions, (0 ≤ a.group ∧ a.group ≤ 4) ∧
          (a.isSkip = true ∨ (a.isBlock = true ∧ rs.defaultActions.any Action.isSkip = true)) := by
        simp only [Rule.skips, Bool.or_eq_true, Bool.and_eq_true] at hs
        rcases hs with hs | ⟨hs, hd⟩
        · obtain ⟨a, ha, hk⟩ := List.any_eq_true.1 hs
          exact ⟨a, ha, by rw [isSkip_eq hk]; decide, .inl hk⟩
        · obtain ⟨a, ha, hk⟩ := List.any_eq_true.1 hs
          exact ⟨a, ha, by rw [isBlock_eq hk]; decide, .inr ⟨hk, hd⟩⟩
      obtain ⟨a, ha, ⟨g0, g4⟩, hk⟩ := hall
      have mact : ∀ a ∈ r.actions, a ∈ r.allActions := fun a ha => by simp [Rule.allActions, ha]
      have msub : ∀ s ∈ r.subRules, ∀ a ∈ s.actions, a ∈ r.allActions := fun s hs a ha => by
        simp only [Rule.allActions, List.mem_append, List.mem_flatMap]; exact .inr ⟨s, hs, ha⟩
      have key : CurInv p (rs.phases p).length i False True t' := by
        simp only [Rule.allActions, List.mem_append, List.mem_flatMap] at ha
        rcases ha with ha | ⟨s, hs, ha⟩
        · have : CurInv p (rs.phases p).length i False True t2 := by
            refine actionsExecute_reach (I := CurInv p (rs.phases p).length i True True) (a := a) ?_ ?_ ha g0 g4 ?_ hI1 h1
            · intro a ha; exact CurInv.action h0 h7 (hdef trivial) n a (hact trivial a (mact a ha))
            · intro a ha; exact CurInv.action h0 h7 (hdef trivial) n a (hact trivial a (mact a ha))
            · intro t t' hI h; exact CurInv.executed h0 h7 hdefF hk hI h
          exact subActions_inv (fun s hs a ha => CurInv.action h0 h7 (hdef trivial) n a (hact trivial a (msub s hs a ha))) this h2
        · have i2 : CurInv p (rs.phases p).length i True True t2 :=
            actionsExecute_inv (fun a ha => CurInv.action h0 h7 (hdef trivial) n a (hact trivial a (mact a ha))) hI1 h1
          refine subActions_reach (I := CurInv p (rs.phases p).length i True True) (a := a) ?_ ?_ ⟨s, hs, ha⟩ g0 g4 ?_ i2 h2
          · intro s hs a ha; exact CurInv.action h0 h7 (hdef trivial) n a (hact trivial a (msub s hs a ha))
          · intro s hs a ha; exact CurInv.action h0 h7 (hdef trivial) n a (hact trivial a (msub s hs a ha))
          · intro t t' hI h; exact CurInv.executed h0 h7 hdefF hk hI h
      exact key.mono False.elim (fun _ => ⟨hfire, hs⟩)
    · -- fires without skip
      have hns : ¬ r.SkipsAt env rs t := fun h => hs h.2
      -- no skip among the rule's actions; `block` is either absent or harmless
      have hcase : r.allActions.any Action.isSkip = false ∧
          (r.allActions.any Action.isBlock = false ∨ rs.defaultActions.any Action.isSkip = false) := by
        simp only [Rule.skips, Bool.or_eq_true, Bool.and_eq_true, not_or, not_and, Bool.not_eq_true] at hs
        refine ⟨hs.1, ?_⟩
        cases hb : r.allActions.any Action.isBlock with
        | false => exact .inl rfl
        | true => exact .inr (hs.2 hb)
      have hmem : ∀ {q : Action → Bool} {l : List Action}, l.any q = false → ∀ a ∈ l, q a = true → False := by
        intro q l hl a ha hq
        have : l.any q = true := List.any_eq_true.2 ⟨a, ha, hq⟩
        rw [hl] at this; cases this
      obtain ⟨t1, t2, hf, h1, h2⟩ := Rule.run_of_fires hfire h
      have hI1 : CurInv p (rs.phases p).length i (¬ r.SkipsAt env rs t) (r.SkipsAt env rs t) t1 :=
        (start hns).cursor hf.phase hf.currentRule hf.nextRule
      have hstep : ∀ a ∈ r.allActions, ∀ u u', CurInv p (rs.phases p).length i (¬ r.SkipsAt env rs t) (r.SkipsAt env rs t) u →
          Action.run rs n a u = .ok u' → CurInv p (rs.phases p).length i (¬ r.SkipsAt env rs t) (r.SkipsAt env rs t) u' := by
        intro a ha u u' hI hrun
        have hfa : a.ForwardAt p ∧ (a.isSkip = true → r.SkipsAt env rs t) :=
          ⟨hfw a (by simp [ha]), fun hk => (hmem hcase.1 a ha hk).elim⟩
        rcases hcase.2 with hb | hd
        · have hnb : a ≠ .block := by
            rintro rfl; exact hmem hb _ ha rfl
          exact CurInv.prim h0 h7 hnb hfa hI hrun
        · exact CurInv.action h0 h7 (fun a ha => ⟨hdefF a ha, fun hk => (hmem hd a ha hk).elim⟩) n a hfa u u' hI hrun
      have hI2 := actionsExecute_inv (fun a ha => hstep a (by simp [Rule.allActions, ha])) hI1 h1
      refine subActions_inv (fun s hs a ha => hstep a ?_) hI2 h2
      simp only [Rule.allActions, List.mem_append, List.mem_flatMap]
      exact .inr ⟨s, hs, ha⟩
  · have hf := Rule.run_of_not_fires hfire h
    have hns : ¬ r.SkipsAt env rs t := fun h => hfire h.1
    exact (start hns).cursor hf.phase hf.currentRule hf.nextRule

/-- Loop invariant: at position `i` the cursor is in step with the loop, or the
phase was left forwards, or the rules are used up. -/
def PosInv (p : Int) (len : Nat) (i : Int) (t : Tx) : Prop :=
  (p < t.phase ∧ t.phase ≤ 7) ∨
  (t.phase = p ∧ (i = statusEndOfRules ∨ (0 ≤ i ∧ t.currentRule = i ∧ t.nextRule = nextOf len i)))

theorem nextOf_cases (len : Nat) (i : Int) :
    (nextOf len i = statusEndOfRules ∧ len ≤ i + 1) ∨ (nextOf len i = i + 1 ∧ i + 1 < len) := by
  simp only [nextOf]
  split
  · left; exact ⟨rfl, by omega⟩
  · right; exact ⟨rfl, by omega⟩

theorem PosInv.step {p : Int} {len : Nat} {i : Int} {A B : Prop} (hi : 0 ≤ i) {t1 : Tx} {k : Nat}
    (hk : t1.phase = p → k = len)
    (h : CurInv p len i A B t1) : PosInv p len (t1.touch.next k).2 (t1.touch.next k).1 := by
  obtain ⟨n1, n2, n3, n4⟩ := Tx.next_spec t1.touch k
  rcases h with h | ⟨g1, g2, g3⟩
  · left; rw [n2]; exact h
  · right
    rw [n1, n2, n3]
    refine ⟨g1, ?_⟩
    by_cases he : t1.touch.nextRule = statusEndOfRules
    · exact .inl he
    · right
      rw [n4 he, hk g1]
      refine ⟨?_, rfl, rfl⟩
      have hn : t1.touch.nextRule = t1.nextRule := rfl
      rw [hn] at he ⊢
      rcases g3 with ⟨_, g⟩ | ⟨_, g⟩
      · rcases nextOf_cases len i with c | c
        · exact absurd (g.trans c.1) he
        · omega
      · rcases nextOf_cases len (i + 1) with c | c
        · exact absurd (g.trans c.1) he
        · omega

theorem PosInv.init {p : Int} (h0 : 0 ≤ p) (h7 : p ≤ 7) (rs : RuleSet) (t : Tx) :
    ((t.jumpToPhase p).next (rs.phases (t.jumpToPhase p).phase).length).2 = 0 ∧
    ((t.jumpToPhase p).next (rs.phases (t.jumpToPhase p).phase).length).1.phase = p ∧
    PosInv p (rs.phases p).length 0 ((t.jumpToPhase p).next (rs.phases (t.jumpToPhase p).phase).length).1 := by
  rw [jumpToPhase_self h0 h7]
  obtain ⟨n1, n2, n3, n4⟩ := Tx.next_spec (t.jumpToPhase p) (rs.phases p).length
  have hz : (t.jumpToPhase p).nextRule = 0 := rfl
  rw [hz] at n1 n3 n4
  have hp : ((t.jumpToPhase p).next (rs.phases p).length).1.phase = p := by rw [n2, jumpToPhase_self h0 h7]
  refine ⟨n1, hp, .inr ⟨hp, .inr ⟨by omega, n3, ?_⟩⟩⟩
  exact n4 (by simp [statusEndOfRules])

/-- One evaluation: no rule at this position, or a rule is run with the cursor on it. -/
theorem process_at {p : Int} (h0 : 0 ≤ p) (h7 : p ≤ 7) {env : Env} {rs : RuleSet} (hrs : rs.Forward) {i : Int}
    {n : Nat} {t t1 : Tx} (ht : t.phase = p) (hi : i ≠ statusEndOfRules)
    (hI : PosInv p (rs.phases p).length i t) (h : rs.process env n t p i = .ok t1) {P : Prop}
    (hnone : 0 ≤ i → (rs.phases p).length ≤ i → t1 = t → t1.nextRule = statusEndOfRules →
      CurInv p (rs.phases p).length i True False t1 → P)
    (hsome : ∀ (k : Nat) r, i = k → (rs.phases p)[k]? = some r → r ∈ rs.phases p → t.currentRule = i →
      r.run env rs n t = .ok t1 →
      CurInv p (rs.phases p).length i (¬ r.SkipsAt env rs t) (r.SkipsAt env rs t) t1 → P) : P := by
  rcases hI with hI | ⟨_, hI⟩
  · omega
  · rcases hI with hI | ⟨g1, g2, g3⟩
    · exact absurd hI hi
    · refine RuleSet.process_cases h ?_ ?_
      · rintro hl rfl
        refine hnone g1 hl rfl ?_ (.inr ⟨ht, g2, .inl ⟨trivial, g3⟩⟩)
        rcases nextOf_cases (rs.phases p).length i with c | c
        · rw [g3, c.1]
        · omega
      · intro r k hk hr hm hrun
        exact hsome k r hk hr hm g2 hrun (CurInv.run h0 h7 hrs hm ht g2 g3 hrun)

end Verif
