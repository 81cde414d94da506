import Verif.Props.Loop
/-!
Walks over the chains of a phase for any way of evaluating a chain.
-/
namespace Verif
open Sample Spec

namespace Spec

/-- What becomes of a computation: it returns, it panics, or it goes on for ever. -/
inductive Ending (α : Type) where
  | returns (a : α)
  | panics
  | hangs

/-- One computation after another. -/
def Ending.bind {α β : Type} : Ending α → (α → Ending β) → Ending β
  | .returns a, f => f a
  | .panics, _ => .panics
  | .hangs, _ => .hangs

variable {K C : Type}

/-- The walk over the chains `cs` of phase `q` from number `j` on ends: with a machine, or
with a panic (`none`).  `E j c m` is what evaluating chain `c` with number `j` makes of
the machine `m`, and the number of the chain to go on with. -/
inductive Ends (E : Nat → C → Mach K → Ending (Mach K × Nat)) (q : Int) (cs : List C) : Nat → Mach K → Option (Mach K) → Prop where
  | over {j m} : cs.length ≤ j → Ends E q cs j m (some m)
  | crash {j m c} : cs[j]? = some c → E j c m = .panics → Ends E q cs j m none
  | stop {j m c x} : cs[j]? = some c → E j c m = .returns x → (x.1.verdict.disruptive = true ∨ x.1.phase ≠ q) → Ends E q cs j m (some x.1)
  | go {j m c x o} : cs[j]? = some c → E j c m = .returns x → ¬ (x.1.verdict.disruptive = true ∨ x.1.phase ≠ q) →
      Ends E q cs x.2 x.1 o → Ends E q cs j m o

open Classical in
/-- What becomes of the walk over a phase. -/
noncomputable def endBy (E : Nat → C → Mach K → Ending (Mach K × Nat)) (q : Int) (cs : List C) (m : Mach K) : Ending (Mach K) :=
  if h : ∃ o, Ends E q cs 0 m o then match h.choose with
    | some m => .returns m
    | none => .panics
  else .hangs

/-- One call.  Calls that evaluate no rules are those of the machine of C83. -/
noncomputable def callBy (S : Sight K) (E : Nat → C → Mach K → Ending (Mach K × Nat)) (chains : Int → List C) (m : Mach K) (op : Op) :
    Ending (Mach K × List Intervention) :=
  match phaseOf op with
  | some q =>
    let m := { m with known := S.learn m.known op }
    if q ≤ m.phase then .returns (m, [])
    else if m.aborted then .returns (goto q m, [])
    else (endBy E q (chains q) (goto q m)).bind fun m => .returns (m, [])
  | none => .returns (call S [] m op)

/-- A sequence of calls, and the verdicts shown. -/
noncomputable def runBy (S : Sight K) (E : Nat → C → Mach K → Ending (Mach K × Nat)) (chains : Int → List C) :
    Mach K → List Op → Ending (Mach K × List Intervention)
  | m, [] => .returns (m, [])
  | m, op :: ops => (callBy S E chains m op).bind fun x => (runBy S E chains x.1 ops).bind fun y => .returns (y.1, x.2 ++ y.2)

end Spec

theorem Spec.Ends.unique {K C : Type} {E : Nat → C → Mach K → Ending (Mach K × Nat)} {q : Int} {cs : List C} {j : Nat} {m : Mach K}
    {a b : Option (Mach K)} (h : Ends E q cs j m a) (h' : Ends E q cs j m b) : a = b := by
  induction h with
  | over hl =>
    cases h' with
    | over _ => rfl
    | crash hc _ => rw [List.getElem?_eq_none hl] at hc; cases hc
    | stop hc _ _ => rw [List.getElem?_eq_none hl] at hc; cases hc
    | go hc _ _ _ => rw [List.getElem?_eq_none hl] at hc; cases hc
  | crash hc he =>
    cases h' with
    | over hl => rw [List.getElem?_eq_none hl] at hc; cases hc
    | crash hc' _ => rfl
    | stop hc' he' _ => rw [hc] at hc'; cases hc'; rw [he] at he'; cases he'
    | go hc' he' _ _ => rw [hc] at hc'; cases hc'; rw [he] at he'; cases he'
  | stop hc he hs =>
    cases h' with
    | over hl => rw [List.getElem?_eq_none hl] at hc; cases hc
    | crash hc' he' => rw [hc] at hc'; cases hc'; rw [he] at he'; cases he'
    | stop hc' he' _ => rw [hc] at hc'; cases hc'; rw [he] at he'; cases he'; rfl
    | go hc' he' hs' _ => rw [hc] at hc'; cases hc'; rw [he] at he'; cases he'; exact absurd hs hs'
  | go hc he hs _ ih =>
    cases h' with
    | over hl => rw [List.getElem?_eq_none hl] at hc; cases hc
    | crash hc' he' => rw [hc] at hc'; cases hc'; rw [he] at he'; cases he'
    | stop hc' he' hs' => rw [hc] at hc'; cases hc'; rw [he] at he'; cases he'; exact absurd hs' hs
    | go hc' he' _ hw => rw [hc] at hc'; cases hc'; rw [he] at he'; cases he'; exact ih hw

theorem endBy_some {K C : Type} {E : Nat → C → Mach K → Ending (Mach K × Nat)} {q : Int} {cs : List C} {m m' : Mach K}
    (h : Ends E q cs 0 m (some m')) : endBy E q cs m = .returns m' := by
  have hex : ∃ o, Ends E q cs 0 m o := ⟨_, h⟩
  rw [endBy, dif_pos hex, hex.choose_spec.unique h]

theorem endBy_crash {K C : Type} {E : Nat → C → Mach K → Ending (Mach K × Nat)} {q : Int} {cs : List C} {m : Mach K}
    (h : Ends E q cs 0 m none) : endBy E q cs m = .panics := by
  have hex : ∃ o, Ends E q cs 0 m o := ⟨_, h⟩
  rw [endBy, dif_pos hex, hex.choose_spec.unique h]

theorem endBy_none {K C : Type} {E : Nat → C → Mach K → Ending (Mach K × Nat)} {q : Int} {cs : List C} {m : Mach K}
    (h : ¬ ∃ o, Ends E q cs 0 m o) : endBy E q cs m = .hangs := by
  rw [endBy, dif_neg h]

section
variable {env : Env} {V : View env} {S : Sight V.K} {C : Type} {E : Nat → C → Mach V.K → Ending (Mach V.K × Nat)} {R : C → Rule → Prop} {h : List Op}
  {m : Mach V.K} {t : Tx}

/-- Evaluating a loaded chain does what `E` says of the written one. -/
structure Evaluates {env : Env} (V : View env) {C : Type} (E : Nat → C → Mach V.K → Ending (Mach V.K × Nat)) (R : C → Rule → Prop) (rs : RuleSet) : Prop where
  eval : ∀ {h : List Op} {q : Int} {j : Nat} {c : C} {r : Rule} {m : Mach V.K} {t : Tx}, (rs.phases q)[j]? = some r → R c r →
    Stands V h q (rs.phases q).length j m t →
    match E j c m with
    | .returns x => ∃ t1, (∀ n ≥ 1, r.run env rs n t = .ok t1) ∧ Acting V h q (rs.phases q).length x t1 ∧
        (¬ x.1.verdict.disruptive = true → x.1.aborted = false)
    | .panics => ∀ n, r.run env rs n t = .panic
    | .hangs => ∀ n, r.run env rs n t = .fuel

theorem Evaluates.returns {rs : RuleSet} (he : Evaluates V E R rs) {q : Int} {j : Nat} {c : C} {r : Rule} {x : Mach V.K × Nat}
    (hr : (rs.phases q)[j]? = some r) (hc : R c r) (hst : Stands V h q (rs.phases q).length j m t) (hx : E j c m = .returns x) :
    ∃ t1, (∀ n ≥ 1, r.run env rs n t = .ok t1) ∧ Acting V h q (rs.phases q).length x t1 ∧ (¬ x.1.verdict.disruptive = true → x.1.aborted = false) := by
  have := he.eval hr hc hst
  rw [hx] at this
  exact this

/-- With any fuel the result is `a`, or the fuel does not suffice; with enough fuel it is `a`. -/
structure Comes {α : Type} (f : Nat → Res (α × Trace)) (a : α) : Prop where
  any : ∀ n, f n = .fuel ∨ ∃ tr, f n = .ok (a, tr)
  enough : ∃ N, ∀ n ≥ N, ∃ tr, f n = .ok (a, tr)

/-- With any fuel there is a panic, or the fuel does not suffice; with enough fuel there is a panic. -/
structure Breaks {α : Type} (f : Nat → Res α) : Prop where
  any : ∀ n, f n = .fuel ∨ f n = .panic
  enough : ∃ N, ∀ n ≥ N, f n = .panic

theorem pairs_at {α β : Type} {R : α → β → Prop} {as : List α} {bs : List β} (hp : Pairs R as bs) : ∀ {j : Nat} {a}, as[j]? = some a →
    ∃ b, bs[j]? = some b ∧ R a b := by
  induction hp with
  | nil => intro j c hc; simp at hc
  | cons hr _ ih =>
    intro j c hc
    cases j with
    | zero => simp only [List.getElem?_cons_zero, Option.some.injEq] at hc ⊢; exact ⟨_, rfl, hc ▸ hr⟩
    | succ j => simp only [List.getElem?_cons_succ] at hc ⊢; exact ih hc

/-- A chain whose evaluation does not return. -/
theorem turn_none {rs : RuleSet} {q : Int} {j : Nat} {r : Rule} (hr : (rs.phases q)[j]? = some r)
    (hst : Stands V h q (rs.phases q).length j m t) {x : Res Tx} (hx : x = .panic ∨ x = .fuel) (hrun : ∀ n, r.run env rs n t = x) (n : Nat) :
    processLoop env rs q (n + 1) (slot (rs.phases q).length j) t = x.bind fun _ => .fuel := by
  have hi : j < (rs.phases q).length := by
    rcases Nat.lt_or_ge j (rs.phases q).length with h | h
    · exact h
    · rw [List.getElem?_eq_none h] at hr; cases hr
  have hsl : slot (rs.phases q).length j = j := if_neg (by omega)
  have hproc : rs.process env n t q j = x := by
    simp only [RuleSet.process]
    rw [if_pos (by omega), if_neg (by omega)]
    simp only [Int.toNat_natCast, hr]
    exact hrun n
  rw [hsl]
  simp only [processLoop]
  rw [if_pos (show t.phase = q ∧ (j : Int) ≠ statusEndOfRules from ⟨hst.phase, by show (j : Int) ≠ -2; omega⟩), hproc]
  rcases hx with rfl | rfl <;> rfl

/-- If the walk ends, so does the loop. -/
theorem ends_loop {rs : RuleSet} (he : Evaluates V E R rs) {q : Int} {cs : List C} (hp : Pairs R cs (rs.phases q)) {j : Nat} {m : Mach V.K}
    {o : Option (Mach V.K)} (hw : Ends E q cs j m o) : ∀ t, Stands V h q (rs.phases q).length j m t →
      match o with
      | some m' => ∃ t', Agree V h m' t' ∧ Comes (fun n => processLoop env rs q n (slot (rs.phases q).length j) t) t'
      | none => Breaks (fun n => processLoop env rs q n (slot (rs.phases q).length j) t) := by
  induction hw with
  | @over j m hl =>
    intro t hst
    have ho : ∀ n ≥ 1, processLoop env rs q n (slot (rs.phases q).length j) t = .ok (t, []) := fun n hn =>
      loop_out hn (.inr (if_pos (by rw [← hp.length_eq]; exact hl)))
    refine ⟨t, hst.agree, fun n => ?_, 1, fun n hn => ⟨[], ho n hn⟩⟩
    cases n with
    | zero => exact .inl (by simp only [processLoop])
    | succ n => exact .inr ⟨_, ho _ (by omega)⟩
  | @crash j m c hc hx =>
    intro t hst
    obtain ⟨r, hr, hcr⟩ := pairs_at hp hc
    have hrun := he.eval hr hcr hst
    rw [hx] at hrun
    have hb := turn_none hr hst (.inl rfl) hrun
    refine ⟨fun n => ?_, 1, fun n hn => ?_⟩
    · cases n with
      | zero => exact .inl (by simp only [processLoop])
      | succ n => exact .inr (hb n)
    · obtain ⟨n, rfl⟩ : ∃ k, n = k + 1 := ⟨n - 1, by omega⟩
      exact hb n
  | @stop j m c x hc hx hstop =>
    intro t hst
    obtain ⟨r, hr, hcr⟩ := pairs_at hp hc
    obtain ⟨t1, g1, g2, g3⟩ := he.returns hr hcr hst hx
    have := turn_by hr hst g1 g2 g3
    rw [if_pos hstop] at this
    obtain ⟨t', k1, k2, k3⟩ := this
    refine ⟨t', k1, fun n => ?_, 2, fun n hn => ?_⟩
    · cases n with
      | zero => exact .inl (by simp only [processLoop])
      | succ n => exact k2 n
    · obtain ⟨n, rfl⟩ : ∃ k, n = k + 1 := ⟨n - 1, by omega⟩
      exact k3 n (by omega)
  | @go j m c x o hc hx hgo _ ih =>
    intro t hst
    obtain ⟨r, hr, hcr⟩ := pairs_at hp hc
    obtain ⟨t1, g1, g2, g3⟩ := he.returns hr hcr hst hx
    have := turn_by hr hst g1 g2 g3
    rw [if_neg hgo] at this
    obtain ⟨t2, k1, tr, k2, k3⟩ := this
    have ih := ih t2 k1
    cases o with
    | some m' =>
      obtain ⟨t', i1, i2, N, i3⟩ := ih
      refine ⟨t', i1, fun n => ?_, N + 2, fun n hn => ?_⟩
      · cases n with
        | zero => exact .inl (by simp only [processLoop])
        | succ n =>
          rcases k2 n with e | e
          · exact .inl e
          · rcases i2 n with e' | ⟨tr', e'⟩
            · exact .inl (by show processLoop _ _ _ _ _ _ = _; rw [e]; simp only [e']; rfl)
            · exact .inr ⟨_, by show processLoop _ _ _ _ _ _ = _; rw [e]; simp only [e']; rfl⟩
      · obtain ⟨n, rfl⟩ : ∃ k, n = k + 1 := ⟨n - 1, by omega⟩
        obtain ⟨tr', e'⟩ := i3 n (by omega)
        exact ⟨_, by show processLoop _ _ _ _ _ _ = _; rw [k3 n (by omega)]; simp only [e']; rfl⟩
    | none =>
      obtain ⟨i2, N, i3⟩ := ih
      refine ⟨fun n => ?_, N + 2, fun n hn => ?_⟩
      · cases n with
        | zero => exact .inl (by simp only [processLoop])
        | succ n =>
          rcases k2 n with e | e
          · exact .inl e
          · rcases i2 n with e' | e'
            · exact .inl (by show processLoop _ _ _ _ _ _ = _; rw [e]; simp only [e']; rfl)
            · exact .inr (by show processLoop _ _ _ _ _ _ = _; rw [e]; simp only [e']; rfl)
      · obtain ⟨n, rfl⟩ : ∃ k, n = k + 1 := ⟨n - 1, by omega⟩
        exact (by show processLoop _ _ _ _ _ _ = _; rw [k3 n (by omega)]; simp only [i3 n (by omega)]; rfl)

/-- If the walk does not end, neither does the loop. -/
theorem loop_ends {rs : RuleSet} (he : Evaluates V E R rs) {q : Int} {cs : List C} (hp : Pairs R cs (rs.phases q)) :
    ∀ (n : Nat) {j : Nat} {m : Mach V.K} {t : Tx}, Stands V h q (rs.phases q).length j m t →
    processLoop env rs q n (slot (rs.phases q).length j) t = .fuel ∨ ∃ o, Ends E q cs j m o := by
  intro n
  induction n with
  | zero => intro j m t _; exact .inl (by simp only [processLoop])
  | succ n ih =>
    intro j m t hst
    cases hc : cs[j]? with
    | none => exact .inr ⟨_, .over (List.getElem?_eq_none_iff.1 hc)⟩
    | some c =>
      obtain ⟨r, hr, hcr⟩ := pairs_at hp hc
      cases hx : E j c m with
      | panics => exact .inr ⟨_, .crash hc hx⟩
      | hangs =>
        have hrun := he.eval hr hcr hst
        rw [hx] at hrun
        exact .inl (turn_none hr hst (.inr rfl) hrun n)
      | returns x =>
        obtain ⟨t1, g1, g2, g3⟩ := he.returns hr hcr hst hx
        have := turn_by hr hst g1 g2 g3
        by_cases hstop : x.1.verdict.disruptive = true ∨ x.1.phase ≠ q
        · exact .inr ⟨_, .stop hc hx hstop⟩
        · rw [if_neg hstop] at this
          obtain ⟨t2, k1, tr, k2, _⟩ := this
          rcases ih k1 with e | ⟨o, hw⟩
          · refine .inl ?_
            rcases k2 n with e' | e'
            · exact e'
            · rw [e', e]; rfl
          · exact .inr ⟨o, .go hc hx hstop hw⟩

/-- The rules of each phase are the chains given for it. -/
structure CarriedBy (R : C → Rule → Prop) (chains : Int → List C) (rs : RuleSet) : Prop where
  rules : ∀ q : Int, 1 ≤ q → Pairs R (chains q) (rs.phases q)
  six : ∀ q : Int, 6 < q → rs.phases q = []

/-- Processing a phase that is not yet processed. -/
theorem phase_by {rs : RuleSet} {chains : Int → List C} (he : Evaluates V E R rs) (hc : CarriedBy R chains rs) {q : Int} (hle : ¬ q ≤ m.phase)
    (hrun : m.aborted = false) (ha : Agree V h m t) :
    match endBy E q (chains q) (goto q m) with
    | .returns m' => ∃ t', Agree V h m' t' ∧ Comes (fun n => processPhase env rs n q t) t'
    | .panics => Breaks (fun n => processPhase env rs n q t)
    | .hangs => ∀ n, processPhase env rs n q t = .fuel := by
  have h1 : 1 ≤ q := by
    have := ha.low
    have := ha.phase
    omega
  have hpairs := hc.rules q h1
  have hlen : rs.phases q ≠ [] → q ≤ 6 := fun hne => Classical.byContradiction fun h6 => hne (hc.six q (by omega))
  rcases phase_start (env := env) (rs := rs) hlen hle hrun ha with ⟨hnil, h'⟩ | ⟨_, _, _, t0, hst, hgo⟩
  · have hemp : chains q = [] := List.length_eq_zero_iff.1 (by rw [hpairs.length_eq, hnil]; rfl)
    have hend : endBy E q (chains q) (goto q m) = .returns (goto q m) := endBy_some (.over (by rw [hemp]; exact Nat.zero_le _))
    rw [hend]
    obtain ⟨t', tr, k1, k2, k3⟩ := h'
    exact ⟨t', k1, fun n => (k2 n).imp id fun e => ⟨tr, e⟩, 2, fun n hn => ⟨tr, k3 n hn⟩⟩
  · have hgo : (fun n => processPhase env rs n q t) = fun n => processLoop env rs q n (slot (rs.phases q).length 0) t0 := funext hgo
    by_cases hw : ∃ o, Ends E q (chains q) 0 (goto q m) o
    · obtain ⟨o, hw⟩ := hw
      have := ends_loop he hpairs hw t0 hst
      cases o with
      | some m' => rw [endBy_some hw, hgo]; exact this
      | none => rw [endBy_crash hw, hgo]; exact this
    · rw [endBy_none hw]
      intro n
      rw [congrFun hgo n]
      exact (loop_ends he hpairs n hst).elim id fun e => absurd e hw

/-- One call. -/
theorem step_by {rs : RuleSet} {chains : Int → List C} (hs : Sees V S) (he : Evaluates V E R rs) (hc : CarriedBy R chains rs) {op : Op}
    (hf : Follows V S.learn h op) (ha : Agree V h m t) :
    match callBy S E chains m op with
    | .returns x => ∃ t' o, Agree V (h ++ [op]) x.1 t' ∧ shown [o] = x.2 ∧
      (∀ n, t.step env rs n op = .fuel ∨ ∃ tr, t.step env rs n op = .ok (t', o, tr)) ∧ ∃ N, ∀ n ≥ N, ∃ tr, t.step env rs n op = .ok (t', o, tr)
    | .panics => Breaks (fun n => t.step env rs n op)
    | .hangs => ∀ n, t.step env rs n op = .fuel := by
  cases hq : phaseOf op with
  | none =>
    have e : callBy S E chains m op = .returns (call S [] m op) := by simp only [callBy, hq]
    obtain ⟨t', o, tr, g1, g2, g3⟩ := step_plain (rs := rs) (chains := []) hs hq hf ha
    rw [e]
    exact ⟨t', o, g2, g3, fun n => .inr ⟨tr, g1 n⟩, 0, fun n _ => ⟨tr, g1 n⟩⟩
  | some q =>
    have hh := ha.heard hf (phaseOf_hear hq).1 (phaseOf_hear hq).2
    by_cases hle : q ≤ m.phase
    · have e : callBy S E chains m op = .returns ({ m with known := S.learn m.known op }, []) := by
        simp only [callBy, hq]; rw [if_pos hle]
      have g : ∀ n, t.step env rs n op = .ok (t.hear op, .unit, []) := fun n => by
        rw [step_enters hq, processPhase, if_pos (show (t.hear op).phase ≥ q by rw [hh.phase]; exact hle)]
        rfl
      rw [e]
      exact ⟨_, _, hh, rfl, fun n => .inr ⟨_, g n⟩, 0, fun n _ => ⟨_, g n⟩⟩
    · by_cases hab : m.aborted = true
      · have e : callBy S E chains m op = .returns (goto q { m with known := S.learn m.known op }, []) := by
          simp only [callBy, hq]; rw [if_neg hle, if_pos hab]
        have g : ∀ n, t.step env rs n op = .ok ((t.hear op).jumpToPhase q, .unit, []) := fun n => by
          rw [step_enters hq, processPhase, if_neg (show ¬ (t.hear op).phase ≥ q by rw [hh.phase]; exact hle), processPhase',
            if_pos (show ((t.hear op).jumpToPhase q).abort = true from hh.aborted.trans hab)]
          rfl
        rw [e]
        exact ⟨_, _, hh.goto q, rfl, fun n => .inr ⟨_, g n⟩, 0, fun n _ => ⟨_, g n⟩⟩
      · have e : callBy S E chains m op = (endBy E q (chains q) (goto q { m with known := S.learn m.known op })).bind fun m => .returns (m, []) := by
          simp only [callBy, hq]; rw [if_neg hle, if_neg hab]
        have k := phase_by he hc (m := { m with known := S.learn m.known op }) hle (by simpa using hab) hh
        rw [e]
        cases hend : endBy E q (chains q) (goto q { m with known := S.learn m.known op }) with
        | hangs =>
          rw [hend] at k
          intro n
          rw [step_enters hq, k n]; rfl
        | panics =>
          rw [hend] at k
          obtain ⟨k1, N, k2⟩ := k
          refine ⟨fun n => ?_, N, fun n hn => ?_⟩
          · rcases k1 n with e' | e'
            · exact .inl (by show t.step _ _ _ _ = _; rw [step_enters hq]; simp only [e']; rfl)
            · exact .inr (by show t.step _ _ _ _ = _; rw [step_enters hq]; simp only [e']; rfl)
          · show t.step _ _ _ _ = _
            rw [step_enters hq]; simp only [k2 n hn]; rfl
        | returns m1 =>
          rw [hend] at k
          obtain ⟨t', g1, g2, N, g3⟩ := k
          refine ⟨t', .unit, g1, rfl, fun n => ?_, N, fun n hn => ?_⟩
          · rcases g2 n with e' | ⟨tr, e'⟩
            · exact .inl (by rw [step_enters hq]; simp only [e']; rfl)
            · exact .inr ⟨tr, by rw [step_enters hq]; simp only [e']; rfl⟩
          · obtain ⟨tr, e'⟩ := g3 n hn
            exact ⟨tr, by rw [step_enters hq]; simp only [e']; rfl⟩

/-- A history. -/
theorem steps_by {rs : RuleSet} {chains : Int → List C} (hs : Sees V S) (he : Evaluates V E R rs) (hc : CarriedBy R chains rs) :
    ∀ {ops h : List Op} {m : Mach V.K} {t : Tx}, (∀ a op b, ops = a ++ op :: b → Follows V S.learn (h ++ a) op) → Agree V h m t →
    match runBy S E chains m ops with
    | .returns x => ∃ t' os, Agree V (h ++ ops) x.1 t' ∧ shown os = x.2 ∧
      (∀ n, t.steps env rs n ops = .fuel ∨ ∃ tr, t.steps env rs n ops = .ok (t', os, tr)) ∧ ∃ N, ∀ n ≥ N, ∃ tr, t.steps env rs n ops = .ok (t', os, tr)
    | .panics => Breaks (fun n => t.steps env rs n ops)
    | .hangs => ∀ n, t.steps env rs n ops = .fuel := by
  intro ops
  induction ops with
  | nil =>
    intro h m t _ ha
    exact ⟨t, [], by rw [List.append_nil]; exact ha, rfl, fun n => .inr ⟨[], rfl⟩, 0, fun n _ => ⟨[], rfl⟩⟩
  | cons op ops ih =>
    intro h m t hf ha
    have hf0 := hf [] op ops rfl
    rw [List.append_nil] at hf0
    have k := step_by (rs := rs) hs he hc hf0 ha
    rw [runBy]
    cases hcall : callBy S E chains m op with
    | hangs =>
      rw [hcall] at k
      intro n
      simp only [Tx.steps, k n]; rfl
    | panics =>
      rw [hcall] at k
      obtain ⟨k1, N, k2⟩ := k
      refine ⟨fun n => ?_, N, fun n hn => ?_⟩
      · rcases k1 n with e | e
        · exact .inl (by simp only [Tx.steps, e]; rfl)
        · exact .inr (by simp only [Tx.steps, e]; rfl)
      · simp only [Tx.steps, k2 n hn]; rfl
    | returns x =>
      rw [hcall] at k
      obtain ⟨t1, o, g1, g2, g3, N1, g4⟩ := k
      have i := ih (h := h ++ [op]) (fun a o b e => by
        have := hf (op :: a) o b (by rw [e]; rfl)
        rwa [List.append_assoc]) g1
      simp only [Ending.bind]
      cases hrun : runBy S E chains x.1 ops with
      | hangs =>
        rw [hrun] at i
        intro n
        rcases g3 n with e | ⟨tr, e⟩
        · simp only [Tx.steps, e]; rfl
        · simp only [Tx.steps, e, Res.bind_ok', i n]; rfl
      | panics =>
        rw [hrun] at i
        obtain ⟨i1, N, i2⟩ := i
        refine ⟨fun n => ?_, max N1 N, fun n hn => ?_⟩
        · rcases g3 n with e | ⟨tr, e⟩
          · exact .inl (by simp only [Tx.steps, e]; rfl)
          · rcases i1 n with e' | e'
            · exact .inl (by simp only [Tx.steps, e, Res.bind_ok', e']; rfl)
            · exact .inr (by simp only [Tx.steps, e, Res.bind_ok', e']; rfl)
        · obtain ⟨tr, e⟩ := g4 n (by omega)
          simp only [Tx.steps, e, Res.bind_ok', i2 n (by omega)]; rfl
      | returns y =>
        rw [hrun] at i
        obtain ⟨t2, os, j1, j2, j3, N2, j4⟩ := i
        rw [List.append_assoc] at j1
        refine ⟨t2, o :: os, j1, ?_, fun n => ?_, max N1 N2, fun n hn => ?_⟩
        · have e : shown (o :: os) = shown [o] ++ shown os := by
            rw [shown, shown, shown, ← List.filterMap_append]; rfl
          rw [e, g2, j2]
        · rcases g3 n with e | ⟨tr, e⟩
          · exact .inl (by simp only [Tx.steps, e]; rfl)
          · rcases j3 n with e' | ⟨tr', e'⟩
            · exact .inl (by simp only [Tx.steps, e, Res.bind_ok', e']; rfl)
            · exact .inr ⟨tr ++ tr', by simp only [Tx.steps, e, Res.bind_ok', e']⟩
        · obtain ⟨tr, e⟩ := g4 n (by omega)
          obtain ⟨tr', e'⟩ := j4 n (by omega)
          exact ⟨tr ++ tr', by simp only [Tx.steps, e, Res.bind_ok', e']⟩

theorem steps_returns {rs : RuleSet} {chains : Int → List C} (hs : Sees V S) (he : Evaluates V E R rs) (hc : CarriedBy R chains rs) {ops h : List Op}
    {m : Mach V.K} {t : Tx} (hf : ∀ a op b, ops = a ++ op :: b → Follows V S.learn (h ++ a) op) (ha : Agree V h m t) {x} (hx : runBy S E chains m ops = .returns x) :
    ∃ t' os, Agree V (h ++ ops) x.1 t' ∧ shown os = x.2 ∧
      (∀ n, t.steps env rs n ops = .fuel ∨ ∃ tr, t.steps env rs n ops = .ok (t', os, tr)) ∧ ∃ N, ∀ n ≥ N, ∃ tr, t.steps env rs n ops = .ok (t', os, tr) := by
  have := steps_by hs he hc hf ha
  rw [hx] at this
  exact this

theorem steps_panics {rs : RuleSet} {chains : Int → List C} (hs : Sees V S) (he : Evaluates V E R rs) (hc : CarriedBy R chains rs) {ops h : List Op}
    {m : Mach V.K} {t : Tx} (hf : ∀ a op b, ops = a ++ op :: b → Follows V S.learn (h ++ a) op) (ha : Agree V h m t) (hx : runBy S E chains m ops = .panics) :
    Breaks (fun n => t.steps env rs n ops) := by
  have := steps_by hs he hc hf ha
  rw [hx] at this
  exact this

theorem steps_hangs {rs : RuleSet} {chains : Int → List C} (hs : Sees V S) (he : Evaluates V E R rs) (hc : CarriedBy R chains rs) {ops h : List Op}
    {m : Mach V.K} {t : Tx} (hf : ∀ a op b, ops = a ++ op :: b → Follows V S.learn (h ++ a) op) (ha : Agree V h m t) (hx : runBy S E chains m ops = .hangs) :
    ∀ n, t.steps env rs n ops = .fuel := by
  have := steps_by hs he hc hf ha
  rw [hx] at this
  exact this

end
end Verif
