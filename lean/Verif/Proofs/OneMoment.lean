import Verif.Proofs.During
/-!
A phase evaluated while rules are being added is the phase evaluated at one moment.
-/
namespace Verif

/-- Where the next rule is after a `Next` that returned `next`. -/
def curAt (len : Nat) (next : Int) : Int :=
  if next = statusEndOfRules then statusEndOfRules else if (len : Int) ≤ next + 1 then statusEndOfRules else next + 1

theorem next_eq (t : Tx) (len : Nat) : t.next len = ({ t with currentRule := t.nextRule, nextRule := curAt len t.nextRule }, t.nextRule) := by
  simp only [Tx.next, curAt]
  by_cases h : t.nextRule = statusEndOfRules
  · simp only [h, if_true]
  · simp only [h, if_false]
    by_cases h' : (len : Int) ≤ t.nextRule + 1
    · simp only [h', if_true]
    · simp only [h', if_false]

/-- Changes that only add rules, one at a time, or that no rule can see. -/
structure Grows (lc : Prop) (C : RuleSet → Prop) (M : Nat → Scene) : Prop where
  pre : ∀ m m', m ≤ m' → ∀ p, (M m).rules.phases p <+: (M m').rules.phases p
  single : ∀ m p, ((M (m + 1)).rules.phases p).length ≤ ((M m).rules.phases p).length + 1
  env : ∀ m, (M m).env.Alike (M 0).env (¬ lc)
  cls : ∀ m, C (M m).rules
  clear : ∀ m p, ∀ r ∈ (M m).rules.phases p, r.Clear lc C

section
variable {lc : Prop} {C : RuleSet → Prop} {M : Nat → Scene} (hM : Grows lc C M)
include hM

theorem Grows.len_le {m m' : Nat} (h : m ≤ m') (p : Int) : ((M m).rules.phases p).length ≤ ((M m').rules.phases p).length :=
  (hM.pre m m' h p).length_le

theorem Grows.rule {m m' : Nat} {p : Int} {i : Nat} {r : Rule} (h : ((M m).rules.phases p)[i]? = some r) (hi : i < ((M m').rules.phases p).length) :
    ((M m').rules.phases p)[i]? = some r := by
  obtain ⟨hl, h⟩ := List.getElem?_eq_some_iff.1 h
  rcases Nat.le_total m m' with hm | hm
  · rw [List.getElem?_eq_getElem hi, ← (hM.pre m m' hm p).getElem hl, h]
  · rw [List.getElem?_eq_getElem hi, (hM.pre m' m hm p).getElem hi, h]

theorem Grows.looks (c : Nat → Nat) : Looks lc C (M 0).env (fun k => M (c k)) := ⟨fun k => hM.env (c k), fun k => hM.cls (c k)⟩

/-- Between no rule and some, there is the moment with one. -/
theorem Grows.one {p : Int} : ∀ {a b : Nat}, a ≤ b → ((M a).rules.phases p).length = 0 → 0 < ((M b).rules.phases p).length →
    ∃ m, a ≤ m ∧ m ≤ b ∧ ((M m).rules.phases p).length = 1
  | a, b, hab, h0, h1 => by
    induction b with
    | zero =>
      have : a = 0 := by omega
      subst this; omega
    | succ b ih =>
      by_cases hb : 0 < ((M b).rules.phases p).length
      · have : a ≤ b := by
          rcases Nat.lt_or_ge b a with h | h
          · have : a = b + 1 := by omega
            subst this; omega
          · exact h
        obtain ⟨m, h2, h3, h4⟩ := ih this hb
        exact ⟨m, h2, by omega, h4⟩
      · have := hM.single b p
        exact ⟨b + 1, hab, Nat.le_refl _, by omega⟩

/-- The outcome of a call that ended, if it ended, not before the changes that it saw. -/
def EndsAfter (c : Nat → Nat) (m : Nat) (x : Res (Tx × Trace × Nat)) (y : Res (Tx × Trace)) : Prop :=
  x.Both (fun a b => a.1 = b.1 ∧ a.2.1 = b.2 ∧ m ≤ c a.2.2) y

omit hM in
theorem EndsAfter.ev {c : Nat → Nat} {m : Nat} {x : Res (Tx × Trace × Nat)} {y : Res (Tx × Trace)} (h : EndsAfter c m x y) (ev : Trace) :
    EndsAfter c m (x.bind fun (t, tr, e) => .ok (t, ev ++ tr, e)) (y.bind fun (t, tr) => .ok (t, ev ++ tr)) :=
  Res.Both.bind h fun _ _ hab => .ok ⟨hab.1, by rw [hab.2.1], hab.2.2⟩

omit hM in
/-- Nothing is looked at once the rules are at their end. -/
theorem loop_over {c : Nat → Nat} {phase : Int} (n k : Nat) {m : Nat} (hm : m ≤ c k) (t : Tx) {env : Env} {rs : RuleSet} {look : Nat → Scene} :
    EndsAfter c m (processLoopDuring look phase n k statusEndOfRules t) (processLoop env rs phase n statusEndOfRules t) := by
  cases n with
  | zero => exact .fuel
  | succ n =>
    simp only [processLoopDuring, processLoop, ne_eq, not_true, and_false, if_false]
    exact .ok ⟨rfl, rfl, hm⟩

theorem loop_one_moment {c : Nat → Nat} (hc : ∀ i j, i ≤ j → c i ≤ c j) (phase : Int) : ∀ (n k j : Nat) (next : Int) (t : Tx), j ≤ k →
    t.nextRule = curAt ((M (c j)).rules.phases t.phase).length next →
    (t.phase = phase → next < 0 ∨ next < ((M (c j)).rules.phases phase).length ∨ (next = 0 ∧ ((M (c j)).rules.phases phase).length = 0)) →
    ∃ m, c j ≤ m ∧ EndsAfter c m (processLoopDuring (fun k => M (c k)) phase n k next t)
      (processLoop (M m).env (M m).rules phase n next { t with nextRule := curAt ((M m).rules.phases t.phase).length next })
  | 0, k, j, next, t, hjk, _, _ => ⟨c j, Nat.le_refl _, .fuel⟩
  | n + 1, k, j, next, t, hjk, ht, hi => by
    have hcjk := hc j k hjk
    by_cases hl : t.phase = phase ∧ next ≠ statusEndOfRules
    case neg =>
      refine ⟨c j, Nat.le_refl _, ?_⟩
      rw [← ht]
      simp only [processLoopDuring, processLoop, hl, if_false]
      exact .ok ⟨rfl, rfl, hcjk⟩
    obtain ⟨hp, hne⟩ := hl
    subst hp
    have hi := hi rfl
    by_cases hneg : next < 0
    · -- a negative place
      refine ⟨c j, Nat.le_refl _, ?_⟩
      have e1 : processDuring (fun k => M (c k)) n k t t.phase next = .panic := by
        simp only [processDuring]; rw [if_pos (by omega), if_pos hneg]
      have e2 : ∀ u : Tx, (M (c j)).rules.process (M (c j)).env n u t.phase next = .panic := by
        intro u; simp only [RuleSet.process]; rw [if_pos (by omega), if_pos hneg]
      simp only [processLoopDuring, processLoop, e1, e2, hne, ne_eq, not_false_iff, and_self, if_true]
      exact .panic
    by_cases hmiss : (((M (c k)).rules.phases t.phase).length : Int) ≤ next
    · -- no rule there: the phase is empty
      have hle := hM.len_le hcjk t.phase
      have h0 : next = 0 ∧ ((M (c j)).rules.phases t.phase).length = 0 := by omega
      obtain ⟨rfl, h0⟩ := h0
      have h1 : ((M (c k)).rules.phases t.phase).length = 0 := by omega
      refine ⟨c k, hcjk, ?_⟩
      have ecur : curAt ((M (c k)).rules.phases t.phase).length 0 = curAt ((M (c j)).rules.phases t.phase).length 0 := by rw [h0, h1]
      have ecur' : curAt ((M (c j)).rules.phases t.phase).length 0 = statusEndOfRules := by rw [h0]; rfl
      rw [ecur, ← ht]
      rw [ecur'] at ht
      have e1 : processDuring (fun k => M (c k)) n k t t.phase 0 = .ok (t, k) := by
        simp only [processDuring]; rw [if_neg (by omega)]
      have e2 : (M (c k)).rules.process (M (c k)).env n t t.phase 0 = .ok t := by
        simp only [RuleSet.process]; rw [if_neg (by omega)]
      simp only [processLoopDuring, processLoop, e1, e2, hne, ne_eq, not_false_iff, and_self, if_true, Res.bind_ok']
      have hz : ¬ (0 : Int) < ((M (c k)).rules.phases t.phase).length := by omega
      simp only [hz, if_false]
      split
      · exact .ok ⟨rfl, rfl, Nat.le_refl _⟩
      · simp only [next_eq]
        have e3 : t.touch.nextRule = statusEndOfRules := ht
        simp only [e3]
        exact (loop_over n (k + 2) (hc _ _ (by omega)) _).ev []
    · -- the rule found there
      have hlt : next.toNat < ((M (c k)).rules.phases t.phase).length := by omega
      cases hr : ((M (c k)).rules.phases t.phase)[next.toNat]? with
      | none => rw [List.getElem?_eq_none_iff] at hr; omega
      | some r =>
      have hclear := hM.clear (c k) t.phase r (List.mem_of_getElem? hr)
      obtain ⟨res, hres⟩ := rule_aims hclear (M 0).env n t
      -- what the two sides do
      obtain ⟨τ, e, hτ, hτe, hke, hrun⟩ := hres _ (hM.looks c) (curAt ((M (c j)).rules.phases t.phase).length next) (k + 1) (k + 1) (Nat.le_refl _)
      have hC : processDuring (fun k => M (c k)) n k t t.phase next =
          res.bind fun p => .ok (p.2.aimed (M (c τ)).rules (curAt ((M (c j)).rules.phases t.phase).length next) p.1, e) := by
        simp only [processDuring]
        rw [if_pos (by omega), if_neg (by omega), hr]
        simp only
        rw [← hrun, ← ht]
      have hA : ∀ m, next < ((M m).rules.phases t.phase).length →
          (M m).rules.process (M m).env n { t with nextRule := curAt ((M m).rules.phases t.phase).length next } t.phase next =
          res.bind fun p => .ok (p.2.aimed (M m).rules (curAt ((M m).rules.phases t.phase).length next) p.1) := by
        intro m hm
        simp only [RuleSet.process]
        rw [if_pos (by omega), if_neg (by omega), hM.rule hr (by omega)]
        simp only
        obtain ⟨τ, e, _, _, _, h⟩ := hres (fun _ => M m) (hM.looks fun _ => m) (curAt ((M m).rules.phases t.phase).length next) 0 0 (Nat.le_refl _)
        simp only at h
        rw [← rule_still (M m) n r 0, h]
        cases res <;> rfl
      -- a moment that has this rule and the same next place as `Next` saw
      have hcorner : ∃ m, c j ≤ m ∧ m ≤ c k ∧ next < ((M m).rules.phases t.phase).length ∧
          curAt ((M m).rules.phases t.phase).length next = curAt ((M (c j)).rules.phases t.phase).length next := by
        rcases hi with h | h | ⟨h, h0⟩
        · omega
        · exact ⟨c j, Nat.le_refl _, hcjk, h, rfl⟩
        · subst h
          obtain ⟨m, h1, h2, h3⟩ := hM.one hcjk h0 (by omega)
          exact ⟨m, h1, h2, by omega, by rw [h3, h0]; rfl⟩
      simp only [processLoopDuring, processLoop, hC, hne, ne_eq, not_false_iff, and_self, if_true]
      rw [if_pos (by omega)]
      cases res with
      | panic =>
        refine ⟨c k, hcjk, ?_⟩
        rw [hA (c k) (by omega)]
        exact .panic
      | fuel =>
        refine ⟨c k, hcjk, ?_⟩
        rw [hA (c k) (by omega)]
        exact .fuel
      | ok p =>
      obtain ⟨J, t1⟩ := p
      have hdis : ∀ rs b, (t1.aimed rs b J).touch.intervention.disruptive = t1.intervention.disruptive := fun _ _ => rfl
      simp only [Res.bind_ok', hdis]
      -- one moment at which the place is then the same, at the end of the loop
      have hend : ∃ m, c j ≤ m ∧ m ≤ c e ∧ next < ((M m).rules.phases t.phase).length ∧
          t1.aimed (M m).rules (curAt ((M m).rules.phases t.phase).length next) J =
          t1.aimed (M (c τ)).rules (curAt ((M (c j)).rules.phases t.phase).length next) J := by
        cases J with
        | keep =>
          obtain ⟨m, h1, h2, h3, h4⟩ := hcorner
          exact ⟨m, h1, Nat.le_trans h2 (hc _ _ (by omega)), h3, by simp only [Tx.aimed, Aim.val, h4]⟩
        | zero => exact ⟨c k, hcjk, hc _ _ (by omega), by omega, rfl⟩
        | to i =>
          refine ⟨c τ, Nat.le_trans hcjk (hc _ _ (by omega)), hc _ _ (by omega), ?_, rfl⟩
          have := hM.len_le (hc k τ (by omega)) t.phase
          omega
      by_cases hd : t1.intervention.disruptive = true
      · obtain ⟨m, h1, h2, h3, h4⟩ := hend
        refine ⟨m, h1, ?_⟩
        rw [hA m h3]
        simp only [Res.bind_ok', h4, hdis]
        rw [if_pos hd, if_pos hd, if_pos (by omega)]
        exact .ok ⟨rfl, rfl, h2⟩
      · rw [if_neg hd]
        simp only [next_eq]
        generalize hb : (t1.aimed (M (c τ)).rules (curAt ((M (c j)).rules.phases t.phase).length next) J).touch.nextRule = b
        by_cases hbe : b = statusEndOfRules
        · -- there is no further rule
          obtain ⟨m, h1, h2, h3, h4⟩ := hend
          refine ⟨m, h1, ?_⟩
          rw [hA m h3]
          simp only [Res.bind_ok', h4, hdis]
          rw [if_neg hd, if_pos (by omega)]
          simp only [hb]
          subst hbe
          exact (loop_over n (e + 2) (Nat.le_trans h2 (hc _ _ (by omega))) _).ev _
        · -- the next one
          have hb' : ∀ m, c (e + 1) ≤ m → (t1.aimed (M m).rules (curAt ((M m).rules.phases t.phase).length next) J).touch.nextRule = b := by
            intro m hm
            have l1 := fun p => hM.len_le (Nat.le_trans (hc j (e + 1) (by omega)) hm) p
            have l2 := fun p => hM.len_le (Nat.le_trans (hc τ (e + 1) (by omega)) hm) p
            subst hb
            cases J with
            | keep =>
              simp only [Tx.touch, Tx.aimed, Aim.val, curAt, hne, if_false] at hbe ⊢
              split at hbe
              · exact absurd rfl hbe
              · rename_i h
                have := l1 t.phase
                rw [if_neg (by omega), if_neg h]
            | zero => rfl
            | to i =>
              simp only [Tx.touch, Tx.aimed, Aim.val] at hbe ⊢
              split at hbe
              · exact absurd rfl hbe
              · rename_i h
                have := l2 t1.phase
                rw [if_neg (by omega), if_neg h]
          have hinv : t1.phase = t.phase → b < 0 ∨ b < ((M (c (e + 1))).rules.phases t.phase).length ∨ (b = 0 ∧ ((M (c (e + 1))).rules.phases t.phase).length = 0) := by
            intro hp
            have l1 := hM.len_le (hc j (e + 1) (by omega)) t.phase
            have l2 := hM.len_le (hc τ (e + 1) (by omega)) t.phase
            subst hb
            cases J with
            | keep =>
              simp only [Tx.touch, Tx.aimed, Aim.val, curAt, hne, if_false] at hbe ⊢
              split at hbe
              · exact absurd rfl hbe
              · rename_i h
                rw [if_neg h]
                omega
            | zero =>
              rcases Nat.eq_zero_or_pos ((M (c (e + 1))).rules.phases t.phase).length with h | h
              · exact .inr (.inr ⟨rfl, h⟩)
              · exact .inr (.inl (Int.ofNat_lt.2 h))
            | to i =>
              simp only [Tx.touch, Tx.aimed, Aim.val] at hbe ⊢
              split at hbe
              · exact absurd rfl hbe
              · rename_i h
                rw [if_neg h]
                rw [hp] at h
                omega
          obtain ⟨m, hm, hrec⟩ := loop_one_moment hc t.phase n (e + 2) (e + 1) b
            { t1.touch with currentRule := b, nextRule := curAt ((M (c (e + 1))).rules.phases t1.phase).length b } (by omega) rfl hinv
          refine ⟨m, Nat.le_trans (hc _ _ (by omega)) hm, ?_⟩
          have l1 := hM.len_le (Nat.le_trans (hc k (e + 1) (by omega)) hm) t.phase
          rw [hA m (by omega)]
          simp only [Res.bind_ok', hdis]
          rw [if_neg hd, if_pos (by omega)]
          simp only [hb' m hm]
          exact hrec.ev _

end
end Verif
