import Verif.Props.During
import Verif.Props.Host
import Verif.Props.Multipart
/-!
C107: goroutines that add rules and use transactions at the same time get what one
goroutine gets that does all this in some order.
-/
namespace Verif
open Sample

/-- C105, for rules loaded from a text, while the host adds rules of its own making from parts
of the packages. -/
theorem C105_loaded {lib : Lib} {vo : VarOrd} {ord : IterOrd} {text : Bytes} {set : DireSet}
    (hload : DireSet.addSecLangString lib vo [] text = .ok (set, none)) (added : List Rule) (hadd : ∀ r ∈ added, r.Stock) (c : Nat → Nat)
    (hc : ∀ i j, i ≤ j → c i ≤ c j) (n k : Nat) (ops : List Op) :
    let s : Scene := ⟨(set.execute newEngine).env lib ord, (set.execute newEngine).ruleSet⟩
    ∃ ms : List Nat, ms.length = ops.length ∧ ms.Pairwise (· ≤ ·) ∧ (∀ m ∈ ms, c k ≤ m) ∧
      CallsAt c ms ((set.execute newEngine).newTransaction.stepsDuring (fun k => Spec.moment s (added.map .rule) (c k)) n k ops)
        (Spec.stepsAt (Spec.moment s (added.map .rule)) n (set.execute newEngine).newTransaction (ms.zip ops)) :=
  C105_moments_in_order _ _ (loaded_stock hload).blind
    (by intro x hx; obtain ⟨r, hr, rfl⟩ := List.mem_map.1 hx; exact ⟨r, (hadd r hr).blind, rfl⟩) c hc n k _ ops

/-! ### A run of the host succeeds if every transaction's calls do -/

/-- Calls on existing transactions, and rules added to rule set `a`. -/
def HostOp.Plain (a k : Nat) : HostOp → Prop
  | .call i _ => i < k
  | .addRules b _ => b = a
  | _ => False

theorem host_runs {lib : Lib} {ord : IterOrd} {n a : Nat} : ∀ {ops : List HostOp} {w : World}, (∀ op ∈ ops, op.Plain a w.txs.length) →
    (∀ i x, w.txs[i]? = some x → x.1 = a ∧ ∃ r, stepsIn lib ord n x.2 (w.heap.view a i ops) = .ok r) → ∃ w' os, w.steps lib ord n ops = .ok (w', os)
  | [], w, _, _ => ⟨w, [], rfl⟩
  | op :: ops, w, hp, h => by
    have hp1 := hp op List.mem_cons_self
    have hp2 : ∀ o ∈ ops, o.Plain a w.txs.length := fun o ho => hp o (List.mem_cons_of_mem _ ho)
    cases op with
    | call i p =>
      cases hx : w.txs[i]? with
      | none => rw [List.getElem?_eq_none_iff] at hx; exact absurd hp1 (by simp only [HostOp.Plain]; omega)
      | some x =>
        obtain ⟨b, t⟩ := x
        obtain ⟨hba, r, hr⟩ := h i _ hx
        simp only at hba
        subst hba
        simp only [Heap.view, if_true, stepsIn] at hr
        obtain ⟨⟨t1, o1, tr1⟩, g1, g2⟩ := Res.bind_eq_ok.1 hr
        obtain ⟨⟨t2, o2, tr2⟩, g3, -⟩ := Res.bind_eq_ok.1 g2
        have hst : w.step lib ord n (.call i p) = .ok ({ w with txs := w.txs.set i (b, t1) }, .returned o1) := by
          simp only [World.step, hx]
          have : t.step (w.heap.engine.env lib ord) (w.heap.sets b) n p = .ok (t1, o1, tr1) := g1
          rw [this]; rfl
        obtain ⟨w', os, hw⟩ := host_runs (lib := lib) (ord := ord) (n := n) (a := b) (ops := ops) (w := { w with txs := w.txs.set i (b, t1) })
          (by simpa using hp2) (by
            intro j x hj
            by_cases hij : i = j
            · subst hij
              rw [List.getElem?_set_self (List.getElem?_eq_some_iff.1 hx).1] at hj
              cases hj
              exact ⟨rfl, _, g3⟩
            · rw [List.getElem?_set_ne hij] at hj
              obtain ⟨h1, r', h2⟩ := h j x hj
              refine ⟨h1, r', ?_⟩
              simpa only [Heap.view, if_neg hij] using h2)
        exact ⟨w', .returned o1 :: os, by simp only [World.steps, hst, Res.bind_ok', hw]⟩
    | addRules b rs =>
      obtain ⟨w', os, hw⟩ := host_runs (lib := lib) (ord := ord) (n := n) (a := a) (ops := ops) (w := { w with heap := w.heap.step (.addRules b rs) })
        hp2 (fun i x hx => by
          obtain ⟨h1, r, h2⟩ := h i x hx
          exact ⟨h1, r, h2⟩)
      exact ⟨w', .unit :: os, by simp only [World.steps, World.step, Res.bind_ok', hw]⟩
    | _ => exact hp1.elim

/-! ### Putting the calls in an order -/

/-- The calls, transaction after transaction. -/
def inTurn (i : Nat) : List (List (Nat × Op)) → List HostOp
  | [] => []
  | l :: ls => l.map (fun x => .call i x.2) ++ inTurn (i + 1) ls

/-- All calls whose moment has come, then the next rule, and so on. -/
def inSequence (a m : Nat) : List Rule → List (List (Nat × Op)) → List HostOp
  | [], jobs => inTurn 0 jobs
  | r :: rs, jobs =>
    inTurn 0 (jobs.map (·.takeWhile (·.1 ≤ m))) ++ .addRules a [r] :: inSequence a (m + 1) rs (jobs.map (·.dropWhile (·.1 ≤ m)))

/-- The rules added. -/
def addedIn (a : Nat) : List HostOp → List Rule
  | [] => []
  | .addRules b rs :: ops => if b = a then rs ++ addedIn a ops else addedIn a ops
  | _ :: ops => addedIn a ops

theorem callsOf_append (i : Nat) : ∀ (xs ys : List HostOp), callsOf i (xs ++ ys) = callsOf i xs ++ callsOf i ys
  | [], _ => rfl
  | x :: xs, ys => by
    cases x <;> simp only [List.cons_append, callsOf, callsOf_append i xs ys]
    split <;> rfl

theorem addedIn_append (a : Nat) : ∀ (xs ys : List HostOp), addedIn a (xs ++ ys) = addedIn a xs ++ addedIn a ys
  | [], _ => rfl
  | x :: xs, ys => by
    cases x <;> simp only [List.cons_append, addedIn, addedIn_append a xs ys]
    split <;> simp

theorem callsOf_turn (i j : Nat) : ∀ (l : List (Nat × Op)), callsOf i (l.map fun x => .call j x.2) = if j = i then l.map (·.2) else []
  | [] => by simp [callsOf]
  | x :: l => by
    simp only [List.map_cons, callsOf, callsOf_turn i j l]
    split <;> rfl

theorem callsOf_inTurn (i : Nat) : ∀ (jobs : List (List (Nat × Op))) (j : Nat), callsOf i (inTurn j jobs) =
    if j ≤ i then (jobs[i - j]?.getD []).map (·.2) else []
  | [], j => by simp [inTurn, callsOf]
  | l :: ls, j => by
    simp only [inTurn, callsOf_append, callsOf_turn, callsOf_inTurn i ls (j + 1)]
    by_cases h : j = i
    · subst h; simp; intro h; omega
    · by_cases h' : j + 1 ≤ i
      · have e : i - j = (i - (j + 1)) + 1 := by omega
        rw [if_neg h, if_pos h', if_pos (by omega), e]; simp
      · rw [if_neg h, if_neg h', if_neg (by omega)]; rfl

theorem inTurn_calls {x : HostOp} : ∀ {jobs : List (List (Nat × Op))} {j : Nat}, x ∈ inTurn j jobs → ∃ i p, x = .call i p ∧ j ≤ i ∧ i < j + jobs.length
  | [], _, h => by cases h
  | l :: ls, j, h => by
    rcases List.mem_append.1 h with h | h
    · obtain ⟨y, _, rfl⟩ := List.mem_map.1 h
      exact ⟨j, y.2, rfl, Nat.le_refl _, by simp⟩
    · obtain ⟨i, p, rfl, h1, h2⟩ := inTurn_calls h
      exact ⟨i, p, rfl, by omega, by simp only [List.length_cons]; omega⟩

theorem addedIn_calls (a : Nat) : ∀ {xs : List HostOp}, (∀ x ∈ xs, ∃ i p, x = .call i p) → addedIn a xs = []
  | [], _ => rfl
  | x :: xs, h => by
    obtain ⟨i, p, rfl⟩ := h x List.mem_cons_self
    exact addedIn_calls (xs := xs) a fun y hy => h y (List.mem_cons_of_mem _ hy)

/-- While only calls are made, the heap stays. -/
theorem view_calls (a i : Nat) (h : Heap) (rest : List HostOp) : ∀ {xs : List HostOp}, (∀ x ∈ xs, ∃ i p, x = .call i p) →
    h.view a i (xs ++ rest) = (callsOf i xs).map (fun op => (h.limits, h.sets a, op)) ++ h.view a i rest
  | [], _ => rfl
  | x :: xs, hx => by
    obtain ⟨j, p, rfl⟩ := hx x List.mem_cons_self
    have ih := view_calls a i h rest (fun y hy => hx y (List.mem_cons_of_mem _ hy))
    simp only [List.cons_append, Heap.view, callsOf]
    split
    · simp only [List.map_cons, List.cons_append, ih]
    · exact ih

theorem inSequence_added (a : Nat) : ∀ (rs : List Rule) (m : Nat) (jobs : List (List (Nat × Op))), addedIn a (inSequence a m rs jobs) = rs
  | [], m, jobs => addedIn_calls a fun x hx => by obtain ⟨i, p, h, _⟩ := inTurn_calls hx; exact ⟨i, p, h⟩
  | r :: rs, m, jobs => by
    simp only [inSequence, addedIn_append]
    rw [addedIn_calls a (fun x hx => by obtain ⟨i, p, h, _⟩ := inTurn_calls hx; exact ⟨i, p, h⟩)]
    simp only [addedIn, if_true, inSequence_added a rs]; rfl

theorem inSequence_calls (a i : Nat) : ∀ (rs : List Rule) (m : Nat) (jobs : List (List (Nat × Op))), callsOf i (inSequence a m rs jobs) = (jobs[i]?.getD []).map (·.2)
  | [], m, jobs => by simp only [inSequence, callsOf_inTurn, Nat.zero_le, if_true, Nat.sub_zero]
  | r :: rs, m, jobs => by
    simp only [inSequence, callsOf_append, callsOf_inTurn, Nat.zero_le, if_true, Nat.sub_zero, callsOf, inSequence_calls a i rs]
    simp only [List.getElem?_map]
    cases jobs[i]? with
    | none => rfl
    | some l => simp only [Option.map_some, Option.getD_some, ← List.map_append, List.takeWhile_append_dropWhile]

theorem inSequence_plain (a : Nat) : ∀ (rs : List Rule) (m : Nat) (jobs : List (List (Nat × Op))), ∀ op ∈ inSequence a m rs jobs, op.Plain a jobs.length
  | [], m, jobs, op, h => by
    obtain ⟨i, p, rfl, _, h2⟩ := inTurn_calls h
    simpa [HostOp.Plain] using h2
  | r :: rs, m, jobs, op, h => by
    rcases List.mem_append.1 h with h | h
    · obtain ⟨i, p, rfl, _, h2⟩ := inTurn_calls h
      simpa [HostOp.Plain] using h2
    · rcases List.mem_cons.1 h with rfl | h
      · rfl
      · simpa using inSequence_plain a rs (m + 1) _ op h

/-- What transaction `i` sees in that order: for each call the rules of its moment. -/
theorem inSequence_view (a i : Nat) (rs0 : RuleSet) (all : List Rule) : ∀ (rs : List Rule) (m : Nat) (jobs : List (List (Nat × Op))) (h : Heap),
    all.drop m = rs → h.sets a = rs0.addRules (all.take m) →
    (∀ l ∈ jobs, l.Pairwise (fun x y => x.1 ≤ y.1) ∧ ∀ x ∈ l, m ≤ x.1) →
    h.view a i (inSequence a m rs jobs) = (jobs[i]?.getD []).map fun x => (h.limits, rs0.addRules (all.take x.1), x.2)
  | [], m, jobs, h, hd, hs, hj => by
    have hv := view_calls a i h [] (xs := inTurn 0 jobs) (fun x hx => by obtain ⟨i, p, h, _⟩ := inTurn_calls hx; exact ⟨i, p, h⟩)
    rw [List.append_nil] at hv
    simp only [inSequence, hv, callsOf_inTurn, Nat.zero_le, if_true, Nat.sub_zero, Heap.view, List.append_nil, List.map_map]
    apply List.map_congr_left
    intro x hx
    have hm : m ≤ x.1 := by
      cases hi : jobs[i]? with
      | none => rw [hi] at hx; cases hx
      | some l => rw [hi] at hx; exact (hj l (List.mem_of_getElem? hi)).2 x hx
    have hlen : all.length ≤ m := by rw [List.drop_eq_nil_iff] at hd; exact hd
    simp only [Function.comp, hs]
    rw [List.take_of_length_le hlen, List.take_of_length_le (by omega)]
  | r :: rs, m, jobs, h, hd, hs, hj => by
    have hm : m < all.length := by
      rcases Nat.lt_or_ge m all.length with h | h
      · exact h
      · rw [List.drop_eq_nil_of_le h] at hd; cases hd
    have hr : all[m] = r ∧ all.drop (m + 1) = rs := by
      rw [List.drop_eq_getElem_cons hm] at hd
      cases hd; exact ⟨rfl, rfl⟩
    have ih := inSequence_view a i rs0 all rs (m + 1) (jobs.map (·.dropWhile (·.1 ≤ m))) (h.step (.addRules a [r])) hr.2
      (by
        simp only [Heap.step, Heap.modifySet, if_true, hs]
        rw [List.take_add_one, List.getElem?_eq_getElem hm, hr.1]
        simp only [RuleSet.addRules, Option.toList, List.foldl_append])
      (by
        intro l hl
        obtain ⟨l', hl', rfl⟩ := List.mem_map.1 hl
        obtain ⟨h1, h2⟩ := hj l' hl'
        have h1' := h1.sublist (List.dropWhile_sublist (fun x : Nat × Op => decide (x.1 ≤ m)))
        refine ⟨h1', fun x hx => ?_⟩
        cases hdw : l'.dropWhile (fun x => decide (x.1 ≤ m)) with
        | nil => rw [hdw] at hx; cases hx
        | cons y ys =>
          have hy : ¬ y.1 ≤ m := by
            have := List.head?_dropWhile_not (fun x : Nat × Op => decide (x.1 ≤ m)) l'
            rw [hdw] at this
            simpa using this
          rw [hdw] at hx h1'
          rcases List.mem_cons.1 hx with rfl | hx
          · omega
          · have := (List.pairwise_cons.1 h1').1 x hx; omega)
    have hl : (h.step (.addRules a [r])).limits = h.limits := rfl
    rw [hl] at ih
    simp only [inSequence]
    rw [view_calls a i h _ (fun x hx => by obtain ⟨i, p, h, _⟩ := inTurn_calls hx; exact ⟨i, p, h⟩)]
    simp only [Heap.view]
    rw [ih]
    simp only [callsOf_inTurn, Nat.zero_le, if_true, Nat.sub_zero, List.getElem?_map]
    cases hi : jobs[i]? with
    | none => rfl
    | some l =>
      simp only [Option.map_some, Option.getD_some, List.map_map]
      have e : l.map (fun x => (h.limits, rs0.addRules (all.take x.1), x.2)) =
          (l.takeWhile (·.1 ≤ m)).map (fun x => (h.limits, rs0.addRules (all.take x.1), x.2)) ++
          (l.dropWhile (·.1 ≤ m)).map (fun x => (h.limits, rs0.addRules (all.take x.1), x.2)) := by
        rw [← List.map_append, List.takeWhile_append_dropWhile]
      rw [e]
      congr 1
      apply List.map_congr_left
      intro x hx
      have h1 : x.1 ≤ m := by
        have := List.all_eq_true.1 (List.all_takeWhile (p := fun x : Nat × Op => decide (x.1 ≤ m)) (l := l)) x hx
        simpa using this
      have h2 : m ≤ x.1 := (hj l (List.mem_of_getElem? hi)).2 x ((List.takeWhile_sublist _).mem hx)
      have h3 : x.1 = m := by omega
      simp only [Function.comp, hs, h3]

/-- The moments of C105, when rules alone are added. -/
theorem moment_rules (env : Env) (rs : RuleSet) (added : List Rule) (m : Nat) :
    Spec.moment ⟨env, rs⟩ (added.map .rule) m = ⟨env, rs.addRules (added.take m)⟩ := by
  simp only [Spec.moment, ← List.map_take, RuleSet.addRules]
  generalize added.take m = l
  induction l generalizing rs with
  | nil => rfl
  | cons r l ih => simp only [List.map_cons, List.foldl_cons, Spec.Change.apply, ih]

theorem stepsAt_view (lib : Lib) (ord : IterOrd) (lim : Limits) (rs : RuleSet) (added : List Rule) (n : Nat) : ∀ (l : List (Nat × Op)) (t : Tx),
    Spec.stepsAt (fun m => ⟨{ lib, ord, limits := lim }, rs.addRules (added.take m)⟩) n t l =
    stepsIn lib ord n t (l.map fun x => (lim, rs.addRules (added.take x.1), x.2))
  | [], _ => rfl
  | (m, op) :: l, t => by simp only [Spec.stepsAt, List.map_cons, stepsIn, stepsAt_view lib ord lim rs added n l]

theorem list_choice {α β : Type} : ∀ (xs : List α) (P : Nat → α → β → Prop), (∀ i x, xs[i]? = some x → ∃ y, P i x y) →
    ∃ ys : List β, ys.length = xs.length ∧ ∀ i x, xs[i]? = some x → ∃ y, ys[i]? = some y ∧ P i x y
  | [], _, _ => ⟨[], rfl, fun i x h => by simp at h⟩
  | x :: xs, P, h => by
    obtain ⟨y, hy⟩ := h 0 x rfl
    obtain ⟨ys, h1, h2⟩ := list_choice xs (fun i => P (i + 1)) fun i z hz => h (i + 1) z hz
    refine ⟨y :: ys, by simp [h1], fun i z hz => ?_⟩
    cases i with
    | zero => cases hz; exact ⟨y, rfl, hy⟩
    | succ i => exact h2 i z hz

theorem zip_ordered {ops : List Op} : ∀ {ms : List Nat}, ms.Pairwise (· ≤ ·) → (ms.zip ops).Pairwise (fun x y => x.1 ≤ y.1) := by
  induction ops with
  | nil => intro ms _; simp
  | cons op ops ih =>
    intro ms h
    cases ms with
    | nil => simp
    | cons m ms =>
      obtain ⟨h1, h2⟩ := List.pairwise_cons.1 h
      rw [List.zip_cons_cons, List.pairwise_cons]
      exact ⟨fun x hx => h1 x.1 (List.of_mem_zip hx).1, ih h2⟩

/-! ### C107 -/

/-- What one goroutine does with its transaction: when it begins, its calls, and what comes
of them. -/
structure Spec.Job where
  start : Nat
  ops : List Op
  final : Tx
  outs : List Out
  trace : Trace
  done : Nat

/-- The job was done, on a transaction in state `t`, while the rule set was what `look` says. -/
def Spec.Job.Done (look : Nat → Scene) (n : Nat) (t : Tx) (j : Spec.Job) : Prop :=
  t.stepsDuring look n j.start j.ops = .ok (j.final, j.outs, j.trace, j.done)

/-- C107.  Transactions of one rule set, each used by its own goroutine, while another adds
rules to the rule set.  One goroutine making the same calls and the same additions, in some
order that keeps the order of each goroutine, gets the same results for every one of them. -/
theorem C107_some_order {lib : Lib} {ord : IterOrd} {n a : Nat} (w : World) (added : List Rule) (hs : (w.heap.sets a).Blind)
    (hadd : ∀ r ∈ added, r.Blind) (c : Nat → Nat) (hc : ∀ i j, i ≤ j → c i ≤ c j) (jobs : List Spec.Job) (hlen : w.txs.length = jobs.length)
    (hjobs : ∀ (i : Nat) (j : Spec.Job), jobs[i]? = some j → ∃ t, w.txs[i]? = some (a, t) ∧
      j.Done (fun k => ⟨w.heap.engine.env lib ord, (w.heap.sets a).addRules (added.take (c k))⟩) n t) :
    ∃ prog w' os, w.steps lib ord n prog = .ok (w', os) ∧ addedIn a prog = added ∧ (∀ op ∈ prog, op.Plain a jobs.length) ∧
      ∀ (i : Nat) (j : Spec.Job), jobs[i]? = some j → callsOf i prog = j.ops ∧ w'.txs[i]? = some (a, j.final) ∧ returnsOf i prog os = j.outs := by
  -- the moments
  obtain ⟨tj, hl, htj⟩ := list_choice jobs (fun i j (l : List (Nat × Op)) => ∃ t, w.txs[i]? = some (a, t) ∧ l.map (·.2) = j.ops ∧ l.Pairwise (fun x y => x.1 ≤ y.1) ∧
      stepsIn lib ord n t (l.map fun (x : Nat × Op) => (w.heap.limits, (w.heap.sets a).addRules (added.take x.1), x.2)) = .ok (j.final, j.outs, j.trace)) (by
    intro i j hj
    obtain ⟨t, ht, hd⟩ := hjobs i j hj
    obtain ⟨ms, h1, h2, _, h4⟩ := C105_moments_in_order ⟨w.heap.engine.env lib ord, w.heap.sets a⟩ (added.map .rule) hs
      (by intro x hx; obtain ⟨r, hr, rfl⟩ := List.mem_map.1 hx; exact ⟨r, hadd r hr, rfl⟩) c hc n j.start t j.ops
    refine ⟨ms.zip j.ops, t, ht, by rw [List.map_snd_zip (by omega)], zip_ordered h2, ?_⟩
    simp only [moment_rules] at h4
    rw [Spec.Job.Done] at hd
    rw [hd] at h4
    have e := stepsAt_view lib ord w.heap.limits (w.heap.sets a) added n (ms.zip j.ops) t
    have e' : Spec.stepsAt (Spec.moment ⟨w.heap.engine.env lib ord, w.heap.sets a⟩ (added.map .rule)) n t (ms.zip j.ops) =
        Spec.stepsAt (fun m => ⟨{ lib, ord, limits := w.heap.limits }, (w.heap.sets a).addRules (added.take m)⟩) n t (ms.zip j.ops) := by
      congr 1
      funext m
      exact moment_rules _ _ _ _
    rw [e', e] at h4
    generalize stepsIn lib ord n t _ = y at h4 ⊢
    cases h4 with
    | @ok x y h =>
      obtain ⟨h1, h2, h3, _⟩ := h
      simp only at h1 h2 h3
      rw [h1, h2, h3])
  -- the order
  have hview : ∀ (i : Nat) (j : Spec.Job), jobs[i]? = some j → ∃ t l, w.txs[i]? = some (a, t) ∧ tj[i]? = some l ∧ l.map (·.2) = j.ops ∧
      stepsIn lib ord n t (w.heap.view a i (inSequence a 0 added tj)) = .ok (j.final, j.outs, j.trace) := by
    intro i j hj
    obtain ⟨l, h1, t, h2, h3, _, h5⟩ := htj i j hj
    refine ⟨t, l, h2, h1, h3, ?_⟩
    rw [inSequence_view a i (w.heap.sets a) added added 0 tj w.heap rfl rfl, h1]
    · exact h5
    · intro l hl'
      obtain ⟨i', hi', rfl⟩ := List.getElem_of_mem hl'
      obtain ⟨l', g1, t', g2, g3, g4, g5⟩ := htj i' jobs[i'] (List.getElem?_eq_getElem (by omega))
      rw [List.getElem?_eq_getElem hi'] at g1
      cases g1
      exact ⟨g4, fun _ _ => Nat.zero_le _⟩
  have hplain := inSequence_plain a added 0 tj
  rw [hl] at hplain
  obtain ⟨w', os, hw⟩ := host_runs (lib := lib) (ord := ord) (n := n) (a := a) (ops := inSequence a 0 added tj) (w := w) (by rw [hlen]; exact hplain) (by
    intro i x hx
    have hi := (List.getElem?_eq_some_iff.1 hx).1
    obtain ⟨t, l, h1, _, _, h4⟩ := hview i jobs[i] (List.getElem?_eq_getElem (by omega))
    rw [hx] at h1
    cases h1
    exact ⟨rfl, _, h4⟩)
  refine ⟨_, w', os, hw, inSequence_added a added 0 tj, hplain, ?_⟩
  intro i j hj
  obtain ⟨t, l, h1, h2, h3, h4⟩ := hview i j hj
  obtain ⟨t', tr, g1, g2⟩ := host_view hw h1
  rw [h4] at g2
  simp only [Res.ok.injEq, Prod.mk.injEq] at g2
  obtain ⟨rfl, hr, _⟩ := g2
  refine ⟨?_, g1, hr.symm⟩
  rw [inSequence_calls, h2]
  exact h3

/-- Two transactions over an empty rule set, and two rules added while both process phase 1:
the first begins before and sees one rule, the other begins when both are there. -/
def Sample.jobOf (start : Nat) (r : Res (Tx × List Out × Trace × Nat)) : Spec.Job :=
  match r with
  | .ok (t, os, tr, e) => ⟨start, [.processPhase 1, .result], t, os, tr, e⟩
  | _ => ⟨start, [.processPhase 1, .result], newTransaction limits, [], [], 0⟩

def Sample.twoJobs (look : Nat → Scene) : List Spec.Job :=
  [0, 1].map fun k => Sample.jobOf k ((newTransaction limits).stepsDuring look 9 k [.processPhase 1, .result])

def Sample.twoTxs : World := { heap := { limits }, txs := [(0, newTransaction limits), (0, newTransaction limits)] }

def Sample.duringTwo : Nat → Scene :=
  fun k => ⟨Sample.twoTxs.heap.engine.env lib ord, (Sample.twoTxs.heap.sets 0).addRules
    (([{ always [.log] with phase := 1 }, { always [.deny] with phase := 1 }] : List Rule).take (if k = 0 then 0 else 2))⟩

/-- The first logs one line and goes on, the second is denied. -/
example : (Sample.twoJobs Sample.duringTwo).map (fun j => (j.final.intervention.log.length, j.trace)) = [(0, [(1, 0)]), (0, [(1, 0), (1, 1)])] ∧
    (Sample.twoJobs Sample.duringTwo).map (fun j => j.outs.map fun | .intervention i => (i.disruptive, i.log.length) | _ => (false, 0)) =
      [[(false, 0), (false, 1)], [(false, 0), (true, 2)]] := by decide +kernel

example : ∃ prog w' os, Sample.twoTxs.steps lib ord 9 prog = .ok (w', os) ∧
    (addedIn 0 prog).map (·.actions.length) = [1, 1] ∧ ∀ (i : Nat) (j : Spec.Job), (Sample.twoJobs Sample.duringTwo)[i]? = some j → returnsOf i prog os = j.outs := by
  have hr : ∀ as : List Action, (∀ a ∈ as, a.Stock) → ({ always as with phase := 1 } : Rule).Blind := fun as h => (always_stock h).blind
  obtain ⟨prog, w', os, h1, h2, _, h4⟩ := C107_some_order (lib := lib) (ord := ord) (n := 9) (a := 0) Sample.twoTxs
    [{ always [.log] with phase := 1 }, { always [.deny] with phase := 1 }] ⟨nofun, nofun⟩
    (by
      intro r h
      simp only [List.mem_cons, List.not_mem_nil, or_false] at h
      rcases h with rfl | rfl <;> exact hr _ (by simp [Action.Stock]))
    (fun k => if k = 0 then 0 else 2) (by intro i j h; split <;> split <;> omega) (Sample.twoJobs Sample.duringTwo) rfl (by
      intro i j hj
      have hi := (List.getElem?_eq_some_iff.1 hj).1
      have hok : ∀ k ∈ [0, 1], (match (newTransaction limits).stepsDuring Sample.duringTwo 9 k [.processPhase 1, .result] with | .ok _ => true | _ => false) = true := by decide +kernel
      have key : ∀ k ∈ [0, 1], (Sample.jobOf k ((newTransaction limits).stepsDuring Sample.duringTwo 9 k [.processPhase 1, .result])).Done Sample.duringTwo 9 (newTransaction limits) := by
        intro k hk
        have := hok k hk
        split at this
        · rename_i r hr
          rw [hr]
          exact hr
        · cases this
      match i, hi with
      | 0, _ => cases hj; exact ⟨_, rfl, key 0 (by simp)⟩
      | 1, _ => cases hj; exact ⟨_, rfl, key 1 (by simp)⟩)
  exact ⟨prog, w', os, h1, by rw [h2]; rfl, fun i j hj => (h4 i j hj).2.2⟩

end Verif
