import Verif.Props.Machine
/-!
The reference machine without restriction on `allow`: a chain can send the transaction
back to the start of its own phase, so a phase need not come to an end.  C92: a call
returns exactly if the walk over its phase ends.
-/
namespace Verif
open Sample Spec

/-! ### The machine -/

namespace Spec
variable {K : Type}

/-- The phases `allow` goes to. -/
def Goes (arg : Bytes) : Prop := Unquoted arg [] ∨ Unquoted arg b!"phase" ∨ Unquoted arg b!"request"

open Classical in
/-- The effect of an action on the machine and on the number of the chain to go on with:
going to a phase means its first chain, skipping the one after the next. -/
noncomputable def actAt (S : Sight K) (x : Mach K × Nat) (a : PAct) : Mach K × Nat :=
  (act S x.1 a,
    if a.tk = .skip then (x.1.rule + 2).toNat
    else if a.tk = .allow ∧ Goes a.arg then 0
    else x.2)

/-- What a chain does when it fires. -/
noncomputable def fireAt (S : Sight K) (x : Mach K × Nat) (c : List PRule) : Mach K × Nat :=
  c.foldl (fun x p => (inOrder p.acts.action).foldl (actAt S) x) x

open Classical in
/-- The evaluation of chain number `j`. -/
noncomputable def evalAt (S : Sight K) (j : Nat) (c : List PRule) (m : Mach K) : Mach K × Nat :=
  if ∀ p ∈ c, S.holds m.known p then fireAt S ({ m with rule := j }, j + 1) c else ({ m with rule := j }, j + 1)

/-- The walk over the chains `cs` of phase `q` from number `j` on ends in `m'`. -/
inductive Walks (S : Sight K) (q : Int) (cs : List (List PRule)) : Nat → Mach K → Mach K → Prop where
  | over {j m} : cs.length ≤ j → Walks S q cs j m m
  | stop {j m c} : cs[j]? = some c → ((evalAt S j c m).1.verdict.disruptive = true ∨ (evalAt S j c m).1.phase ≠ q) →
      Walks S q cs j m (evalAt S j c m).1
  | go {j m c m'} : cs[j]? = some c → ¬ ((evalAt S j c m).1.verdict.disruptive = true ∨ (evalAt S j c m).1.phase ≠ q) →
      Walks S q cs (evalAt S j c m).2 (evalAt S j c m).1 m' → Walks S q cs j m m'

open Classical in
/-- Where the walk ends, if it does. -/
noncomputable def endOf (S : Sight K) (q : Int) (cs : List (List PRule)) (m : Mach K) : Option (Mach K) :=
  if h : ∃ m', Walks S q cs 0 m m' then some h.choose else none

/-- One call; `none` if it never returns. -/
noncomputable def callOr (S : Sight K) (chains : List (List PRule)) (m : Mach K) (op : Op) : Option (Mach K × List Intervention) :=
  match phaseOf op with
  | some q =>
    if q ≤ m.phase ∨ m.aborted then some (call S chains m op)
    else (endOf S q (chains.filter fun c => chainPhase c = q) (goto q { m with known := S.learn m.known op })).map fun m => (m, [])
  | none => some (call S chains m op)

/-- A sequence of calls: the verdicts shown, or `none` if a call never returns. -/
noncomputable def runOr (S : Sight K) (chains : List (List PRule)) : Mach K → List Op → Option (Mach K × List Intervention)
  | m, [] => some (m, [])
  | m, op :: ops =>
    match callOr S chains m op with
    | none => none
    | some (m, is) =>
      match runOr S chains m ops with
      | none => none
      | some (m, js) => some (m, is ++ js)

end Spec

theorem Spec.Walks.unique {K : Type} {S : Sight K} {q : Int} {cs : List (List PRule)} {j : Nat} {m a b : Mach K}
    (h : Walks S q cs j m a) (h' : Walks S q cs j m b) : a = b := by
  induction h with
  | over hl =>
    cases h' with
    | over _ => rfl
    | stop hc _ => rw [List.getElem?_eq_none hl] at hc; cases hc
    | go hc _ _ => rw [List.getElem?_eq_none hl] at hc; cases hc
  | stop hc hs =>
    cases h' with
    | over hl => rw [List.getElem?_eq_none hl] at hc; cases hc
    | stop hc' _ => rw [hc] at hc'; cases hc'; rfl
    | go hc' hs' _ => rw [hc] at hc'; cases hc'; exact absurd hs hs'
  | go hc hs _ ih =>
    cases h' with
    | over hl => rw [List.getElem?_eq_none hl] at hc; cases hc
    | stop hc' hs' => rw [hc] at hc'; cases hc'; exact absurd hs' hs
    | go hc' _ hw => rw [hc] at hc'; cases hc'; exact ih hw

theorem endOf_some {K : Type} {S : Sight K} {q : Int} {cs : List (List PRule)} {m m' : Mach K} (h : Walks S q cs 0 m m') : endOf S q cs m = some m' := by
  have hex : ∃ m', Walks S q cs 0 m m' := ⟨m', h⟩
  rw [endOf, dif_pos hex, hex.choose_spec.unique h]

theorem endOf_none {K : Type} {S : Sight K} {q : Int} {cs : List (List PRule)} {m : Mach K} (h : ¬ ∃ m', Walks S q cs 0 m m') : endOf S q cs m = none := by
  rw [endOf, dif_neg h]

/-! ### A walk that ends visits no chain twice -/

section
variable {K : Type} {S : Sight K}

/-- A walk with the numbers of the chains evaluated. -/
inductive Path (S : Sight K) (q : Int) (cs : List (List PRule)) : List Nat → Nat → Mach K → Mach K → Prop where
  | over {j m} : cs.length ≤ j → Path S q cs [] j m m
  | stop {j m c} : cs[j]? = some c → ((evalAt S j c m).1.verdict.disruptive = true ∨ (evalAt S j c m).1.phase ≠ q) →
      Path S q cs [j] j m (evalAt S j c m).1
  | go {js j m c m'} : cs[j]? = some c → ¬ ((evalAt S j c m).1.verdict.disruptive = true ∨ (evalAt S j c m).1.phase ≠ q) →
      Path S q cs js (evalAt S j c m).2 (evalAt S j c m).1 m' → Path S q cs (j :: js) j m m'

theorem Spec.Walks.path {q : Int} {cs : List (List PRule)} {j : Nat} {m m' : Mach K} (h : Walks S q cs j m m') : ∃ js, Path S q cs js j m m' := by
  induction h with
  | over h => exact ⟨_, .over h⟩
  | stop h1 h2 => exact ⟨_, .stop h1 h2⟩
  | go h1 h2 _ ih => obtain ⟨js, ih⟩ := ih; exact ⟨_, .go h1 h2 ih⟩

/-- Nothing that decides the way of the machine differs. -/
structure Alike (m n : Mach K) : Prop where
  known : m.known = n.known
  phase : m.phase = n.phase
  rule : m.rule = n.rule
  verdict : m.verdict.disruptive = n.verdict.disruptive

theorem Alike.act {m n : Mach K} (h : Alike m n) (a : PAct) : Alike (act S m a) (act S n a) := by
  obtain ⟨h1, h2, h3, h4⟩ := h
  simp only [Spec.act]
  split
  · exact ⟨h1, h2, h3, rfl⟩
  · exact ⟨h1, h2, h3, h4⟩
  · exact ⟨h1, h2, h3, h4⟩
  · repeat' split
    · exact ⟨h1, rfl, rfl, h4⟩
    · exact ⟨h1, by simp only [goto, h2], rfl, h4⟩
    · exact ⟨h1, rfl, rfl, h4⟩
    · exact ⟨h1, h2, h3, h4⟩
  · exact ⟨h1, h2, h3, h4⟩

theorem Alike.acts {m n : Mach K} (h : Alike m n) (j : Nat) (as : List PAct) :
    Alike (as.foldl (actAt S) (m, j)).1 (as.foldl (actAt S) (n, j)).1 ∧ (as.foldl (actAt S) (m, j)).2 = (as.foldl (actAt S) (n, j)).2 := by
  induction as generalizing m n j with
  | nil => exact ⟨h, rfl⟩
  | cons a as ih =>
    have e : (actAt S (m, j) a).2 = (actAt S (n, j) a).2 := by simp only [actAt, h.rule]
    rw [List.foldl_cons, List.foldl_cons]
    have := ih (h.act (S := S) a) (actAt S (m, j) a).2
    have e1 : ((Spec.act S m a, (actAt S (m, j) a).2) : Mach K × Nat) = actAt S (m, j) a := rfl
    have e2 : ((Spec.act S n a, (actAt S (m, j) a).2) : Mach K × Nat) = actAt S (n, j) a := by rw [e]; rfl
    rwa [e1, e2] at this

theorem Alike.fire {m n : Mach K} (h : Alike m n) (j : Nat) (c : List PRule) :
    Alike (fireAt S (m, j) c).1 (fireAt S (n, j) c).1 ∧ (fireAt S (m, j) c).2 = (fireAt S (n, j) c).2 := by
  induction c generalizing m n j with
  | nil => exact ⟨h, rfl⟩
  | cons p c ih =>
    obtain ⟨h1, h2⟩ := h.acts (S := S) j (inOrder p.acts.action)
    have := ih h1 ((inOrder p.acts.action).foldl (actAt S) (m, j)).2
    have e2 : ((((inOrder p.acts.action).foldl (actAt S) (n, j)).1, ((inOrder p.acts.action).foldl (actAt S) (m, j)).2) : Mach K × Nat) =
        (inOrder p.acts.action).foldl (actAt S) (n, j) := by rw [h2]
    rw [e2] at this
    exact this

theorem eval_alike {m n : Mach K} (hk : m.known = n.known) (hp : m.phase = n.phase) (hv : m.verdict.disruptive = n.verdict.disruptive) (j : Nat) (c : List PRule) :
    Alike (evalAt S j c m).1 (evalAt S j c n).1 ∧ (evalAt S j c m).2 = (evalAt S j c n).2 := by
  rw [evalAt, evalAt, hk]
  have h0 : Alike { m with known := n.known, rule := (j : Int) } { n with rule := (j : Int) } := ⟨rfl, hp, rfl, hv⟩
  split
  · exact h0.fire _ _
  · exact ⟨h0, rfl⟩

theorem Path.alike {q : Int} {cs : List (List PRule)} {js : List Nat} {j : Nat} {m m' : Mach K} (h : Path S q cs js j m m') :
    ∀ {js' : List Nat} {n n' : Mach K}, m.known = n.known → m.phase = n.phase → m.verdict.disruptive = n.verdict.disruptive →
    Path S q cs js' j n n' → js = js' := by
  induction h with
  | over hl =>
    intro js' n n' _ _ _ h'
    cases h' with
    | over _ => rfl
    | stop hc _ => rw [List.getElem?_eq_none hl] at hc; cases hc
    | go hc _ _ => rw [List.getElem?_eq_none hl] at hc; cases hc
  | @stop j m c hc hs =>
    intro js' n n' hk hp hv h'
    obtain ⟨ha, _⟩ := eval_alike (S := S) hk hp hv j c
    cases h' with
    | over hl => rw [List.getElem?_eq_none hl] at hc; cases hc
    | stop _ _ => rfl
    | go hc' hs' _ =>
      rw [hc] at hc'; cases hc'
      rw [ha.verdict, ha.phase] at hs
      exact absurd hs hs'
  | @go js j m c m' hc hs _ ih =>
    intro js' n n' hk hp hv h'
    obtain ⟨ha, hj⟩ := eval_alike (S := S) hk hp hv j c
    cases h' with
    | over hl => rw [List.getElem?_eq_none hl] at hc; cases hc
    | stop hc' hs' =>
      rw [hc] at hc'; cases hc'
      rw [ha.verdict, ha.phase] at hs
      exact absurd hs' hs
    | go hc' _ hw =>
      rw [hc] at hc'; cases hc'
      rw [← hj] at hw
      rw [ih ha.known ha.phase ha.verdict hw]

theorem act_keeps (a : PAct) (m : Mach K) : (act S m a).known = m.known ∧ (m.verdict.disruptive = true → (act S m a).verdict.disruptive = true) := by
  simp only [act]
  split
  · exact ⟨rfl, fun _ => rfl⟩
  · exact ⟨rfl, id⟩
  · exact ⟨rfl, id⟩
  · repeat' split
    all_goals exact ⟨rfl, id⟩
  · exact ⟨rfl, id⟩

theorem acts_keep (as : List PAct) (x : Mach K × Nat) :
    (as.foldl (actAt S) x).1.known = x.1.known ∧ (x.1.verdict.disruptive = true → (as.foldl (actAt S) x).1.verdict.disruptive = true) := by
  induction as generalizing x with
  | nil => exact ⟨rfl, id⟩
  | cons a as ih =>
    rw [List.foldl_cons]
    exact ⟨(ih _).1.trans (act_keeps a x.1).1, fun h => (ih _).2 ((act_keeps a x.1).2 h)⟩

theorem fire_keeps (c : List PRule) (x : Mach K × Nat) :
    (fireAt S x c).1.known = x.1.known ∧ (x.1.verdict.disruptive = true → (fireAt S x c).1.verdict.disruptive = true) := by
  induction c generalizing x with
  | nil => exact ⟨rfl, id⟩
  | cons p c ih =>
    exact ⟨(ih ((inOrder p.acts.action).foldl (actAt S) x)).1.trans (acts_keep _ x).1, fun h => (ih ((inOrder p.acts.action).foldl (actAt S) x)).2 ((acts_keep _ x).2 h)⟩

theorem eval_keeps (j : Nat) (c : List PRule) (m : Mach K) :
    (evalAt S j c m).1.known = m.known ∧ (m.verdict.disruptive = true → (evalAt S j c m).1.verdict.disruptive = true) := by
  rw [evalAt]
  split
  · exact fire_keeps c _
  · exact ⟨rfl, id⟩

/-- The walk from where a number comes up. -/
theorem Path.from {q : Int} {cs : List (List PRule)} {js : List Nat} {j : Nat} {m m' : Mach K} (h : Path S q cs js j m m') :
    (m.phase = q ∧ m.verdict.disruptive = false) → ∀ {i : Nat}, i ∈ js → ∃ a b n, js = a ++ i :: b ∧ Path S q cs (i :: b) i n m' ∧
      n.known = m.known ∧ n.phase = q ∧ n.verdict.disruptive = false := by
  induction h with
  | over _ => intro _ i hi; cases hi
  | @stop j m c hc hs =>
    intro hm i hi
    rw [List.mem_singleton.1 hi]
    exact ⟨[], [], m, rfl, .stop hc hs, rfl, hm⟩
  | @go js j m c m' hc hs hw ih =>
    intro hm i hi
    rcases List.mem_cons.1 hi with rfl | hi
    · exact ⟨[], js, m, rfl, .go hc hs hw, rfl, hm⟩
    · have h1 : (evalAt S j c m).1.phase = q := by
        rcases Int.lt_trichotomy (evalAt S j c m).1.phase q with h | h | h
        · exact absurd (.inr (by omega)) hs
        · exact h
        · exact absurd (.inr (by omega)) hs
      have h2 : (evalAt S j c m).1.verdict.disruptive = false := by
        cases hd : (evalAt S j c m).1.verdict.disruptive with
        | false => rfl
        | true => exact absurd (.inl hd) hs
      obtain ⟨a, b, n, e1, e2, e3, e4⟩ := ih ⟨h1, h2⟩ hi
      exact ⟨j :: a, b, n, by rw [e1]; rfl, e2, e3.trans (eval_keeps j c m).1, e4⟩

theorem Path.nodup {q : Int} {cs : List (List PRule)} {js : List Nat} {j : Nat} {m m' : Mach K} (h : Path S q cs js j m m') :
    m.phase = q → js.Nodup ∧ ∀ i ∈ js, i < cs.length := by
  have hlt : ∀ {j : Nat} {c : List PRule}, cs[j]? = some c → j < cs.length := by
    intro j c hc
    rcases Nat.lt_or_ge j cs.length with h | h
    · exact h
    · rw [List.getElem?_eq_none h] at hc; cases hc
  induction h with
  | over _ => intro _; exact ⟨List.nodup_nil, by simp⟩
  | stop hc _ => intro _; exact ⟨by simp, fun i hi => by rw [List.mem_singleton.1 hi]; exact hlt hc⟩
  | @go js j m c m' hc hs hw ih =>
    intro hm
    have h1 : (evalAt S j c m).1.phase = q := by
      rcases Int.lt_trichotomy (evalAt S j c m).1.phase q with h | h | h
      · exact absurd (.inr (by omega)) hs
      · exact h
      · exact absurd (.inr (by omega)) hs
    have h2 : (evalAt S j c m).1.verdict.disruptive = false := by
      cases hd : (evalAt S j c m).1.verdict.disruptive with
      | false => rfl
      | true => exact absurd (.inl hd) hs
    have h3 : m.verdict.disruptive = false := by
      cases hd : m.verdict.disruptive with
      | false => rfl
      | true => have := (eval_keeps (S := S) j c m).2 hd; rw [h2] at this; cases this
    obtain ⟨k1, k2⟩ := ih h1
    refine ⟨List.nodup_cons.2 ⟨fun hj => ?_, k1⟩, fun i hi => ?_⟩
    · obtain ⟨a, b, n, e1, e2, e3, e4, e5⟩ := hw.from ⟨h1, h2⟩ hj
      have := (Path.go hc hs hw).alike (e3.trans (eval_keeps j c m).1).symm (hm.trans e4.symm) (h3.trans e5.symm) e2
      simp only [List.cons.injEq, true_and] at this
      have hl : js.length = a.length + (b.length + 1) := by rw [e1]; simp
      rw [this] at hl
      omega
    · rcases List.mem_cons.1 hi with rfl | hi
      · exact hlt hc
      · exact k2 i hi

theorem nodup_length : ∀ (n : Nat) {l : List Nat}, l.Nodup → (∀ i ∈ l, i < n) → l.length ≤ n := by
  intro n
  induction n with
  | zero =>
    intro l _ h
    cases l with
    | nil => simp
    | cons a l => exact absurd (h a List.mem_cons_self) (by omega)
  | succ n ih =>
    intro l hn h
    by_cases hm : n ∈ l
    · have := ih (l := l.erase n) (hn.erase n) fun i hi => by
        obtain ⟨h1, h2⟩ := (hn.mem_erase_iff).1 hi
        have := h i h2
        omega
      rw [List.length_erase_of_mem hm] at this
      omega
    · have := ih hn fun i hi => by
        have h1 := h i hi
        have h2 : i ≠ n := fun e => hm (e ▸ hi)
        omega
      omega

end

/-! ### Less fuel -/

/-- Out of fuel, or the same. -/
def Res.Sooner {α : Type} (a b : Res α) : Prop := a = .fuel ∨ a = b

theorem Res.Sooner.bind {α β : Type} {a b : Res α} {f g : α → Res β} (h : a.Sooner b) (hf : ∀ x, (f x).Sooner (g x)) : (a.bind f).Sooner (b.bind g) := by
  rcases h with rfl | rfl
  · exact .inl rfl
  · cases a with
    | ok x => exact hf x
    | panic => exact .inr rfl
    | fuel => exact .inr rfl

theorem act_sooner (rs : RuleSet) (n : Nat) (x : Action) (t : Tx) :
    (Action.run rs n x t).Sooner (Action.run rs (max n 1) x t) := by
  cases n with
  | succ n => rw [show max (n + 1) 1 = n + 1 by omega]; exact .inr rfl
  | zero =>
    cases x
    case block => exact .inl (by simp only [Action.run])
    all_goals exact .inr (by simp only [Action.run])

theorem doAll_sooner {f g : Action → Tx → Res Tx} (h : ∀ x t, (f x t).Sooner (g x t)) (xs : List Action) (t : Tx) :
    (doAll f xs t).Sooner (doAll g xs t) := by
  induction xs generalizing t with
  | nil => exact .inr rfl
  | cons x xs ih => simp only [doAll]; exact (h x t).bind fun t => ih t

theorem exec_sooner {f g : Action → Tx → Res Tx} (h : ∀ x t, (f x t).Sooner (g x t)) (xs : List Action) (t : Tx) :
    (actionsExecute f xs t).Sooner (actionsExecute g xs t) := by
  simp only [actionsExecute]
  split
  · exact .inr rfl
  · exact doAll_sooner h _ _

theorem subs_sooner (rs : RuleSet) (n : Nat) (ss : List Rule) (t : Tx) :
    (subActions rs n ss t).Sooner (subActions rs (max n 1) ss t) := by
  induction ss generalizing t with
  | nil => exact .inr rfl
  | cons s ss ih => simp only [subActions]; exact (exec_sooner (act_sooner rs n) _ _).bind fun t => ih t

theorem process_sooner {env : Env} (rs : RuleSet) (n : Nat) (t : Tx) (q i : Int) :
    (rs.process env n t q i).Sooner (rs.process env (max n 1) t q i) := by
  simp only [RuleSet.process]
  split
  · split
    · exact .inr rfl
    · split
      · exact .inr rfl
      · simp only [Rule.run]
        refine Res.Sooner.bind (.inr rfl) fun x => ?_
        obtain ⟨b, t⟩ := x
        simp only
        split
        · exact .inr rfl
        · refine Res.Sooner.bind (.inr rfl) fun x => ?_
          obtain ⟨b, t⟩ := x
          simp only
          split
          · exact .inr rfl
          · exact (exec_sooner (act_sooner rs n) _ _).bind fun t => subs_sooner rs n _ t
  · exact .inr rfl

/-! ### Actions and chains -/

section
variable {env : Env} {V : View env} {S : Sight V.K} {h : List Op} {m : Mach V.K} {t : Tx}

/-- The transaction is in the state of the machine while a rule of phase `q` acts; if
it is in that phase, it goes on at `x.2`. -/
structure Acting {env : Env} (V : View env) (h : List Op) (q : Int) (len : Nat) (x : Mach V.K × Nat) (t : Tx) : Prop where
  agree : Agree V h x.1 t
  cur : t.currentRule = x.1.rule
  low : -1 ≤ x.1.rule
  next : t.phase = q → t.nextRule = slot len x.2

theorem act_at {rs : RuleSet} (hs : Sees V S) (hdef : rs.defaultActions = []) {q : Int} (hlen : 0 < (rs.phases q).length) 
    {x : Mach V.K × Nat} (hb : Acting V h q (rs.phases q).length x t) {a : PAct} {y : Action} (hm : ActMeans a y) :
    ∃ t', (∀ n ≥ 1, Action.run rs n y t = .ok t') ∧ Acting V h q (rs.phases q).length (actAt S x a) t' := by
  obtain ⟨m, j⟩ := x
  obtain ⟨ha, hcur, hlow, hnext⟩ := hb
  simp only at ha hcur hlow hnext
  cases hm with
  | @deny arg =>
    obtain ⟨_, _, _, _, _, _, d7⟩ := C26_deny t
    have e : ∀ {α : Type} (f : Tx → α), f { denyDo t with interv := t.interv } = f t := fun f => by rw [d7]
    have hd := fun a htk => ha.deny hs a htk
    refine ⟨denyDo t, fun n _ => by simp only [Action.run], hd ⟨.deny, arg⟩ rfl, hcur, hlow, fun hph => ?_⟩
    rw [show (denyDo t).nextRule = _ from e Tx.nextRule]
    exact hnext ((e Tx.phase).symm.trans hph)
  | log =>
    refine ⟨logDo t, fun n _ => by simp only [Action.run], ?_, hcur, hlow, hnext⟩
    have := ha.say hs (b!"ModSecurity: running action in phase " ++ itoa t.phase ++ b!" rule " ++ itoa t.currentRule)
    rw [ha.phase, hcur] at this
    simp only [logDo, ha.phase, hcur]
    exact this
  | block =>
    refine ⟨t, fun n hn => ?_, ha, hcur, hlow, hnext⟩
    obtain ⟨n, rfl⟩ : ∃ k, n = k + 1 := ⟨n - 1, by omega⟩
    simp only [Action.run, hdef]; rfl
  | skip =>
    have e1 : (skipDo rs t).phase = t.phase := by simp only [skipDo, Tx.jumpTo]; split <;> rfl
    have e2 : (skipDo rs t).currentRule = t.currentRule := by simp only [skipDo, Tx.jumpTo]; split <;> rfl
    refine ⟨skipDo rs t, fun n _ => by simp only [Action.run], ?_, e2.trans hcur, hlow, fun hph => ?_⟩
    · refine ha.congr ?_ rfl ?_ ?_ ?_ ?_ ?_ ?_ <;> simp only [skipDo, Tx.jumpTo] <;> split <;>
        first | rfl | exact ha.phase | exact ha.verdict | exact ha.chosen | exact ha.aborted | exact ha.low | exact ha.high
    · rw [e1] at hph
      show (skipDo rs t).nextRule = slot _ (m.rule + 2).toNat
      simp only [skipDo, Tx.jumpTo, slot, statusEndOfRules, hcur, hph]
      by_cases hl : (rs.phases q).length ≤ (m.rule + 2).toNat
      · rw [if_pos (by omega), if_pos hl]
      · rw [if_neg (by omega), if_neg hl]; simp; omega
  | @status arg u k hu hk =>
    refine ⟨t.setData b!"status" (.int k), fun n _ => by simp only [Action.run], ?_, hcur, hlow, hnext⟩
    refine ha.congr rfl rfl ha.phase ha.verdict ?_ ha.aborted ha.low ha.high
    simp [Tx.getData, Tx.setData, actAt, act, numberIn_eq hu hk]
  | @allow arg u hu =>
    have s0 : slot (rs.phases q).length 0 = 0 := if_neg (by omega)
    have hskip : ¬ (ActTok.allow = .skip) := by simp
    have go : ∀ (p : Int), Goes arg → act S m ⟨.allow, arg⟩ = goto p m → allowDo u t = t.jumpToPhase p →
        ∃ t', (∀ n ≥ 1, Action.run rs n (.allow u) t = .ok t') ∧ Acting V h q (rs.phases q).length (actAt S (m, j) ⟨.allow, arg⟩) t' := by
      intro p hg e1 e2
      have e3 : actAt S (m, j) ⟨.allow, arg⟩ = (goto p m, 0) := by
        simp only [actAt, e1]
        rw [if_neg hskip, if_pos ⟨rfl, hg⟩]
      refine ⟨allowDo u t, fun n _ => by simp only [Action.run], ?_⟩
      rw [e2, e3]
      exact ⟨ha.goto p, rfl, by show (-1 : Int) ≤ -1; omega, fun _ => s0.symm⟩
    by_cases h1 : u = []
    · subst h1
      refine go 6 (.inl hu) ?_ (by simp [allowDo, phaseLogging])
      simp only [act]; rw [if_pos hu]
    · have g1 : ¬ Unquoted arg [] := fun h' => h1 (hu.unique h')
      by_cases h2 : u = b!"phase"
      · subst h2
        refine go (t.phase + 1) (.inr (.inl hu)) ?_ ((if_neg h1).trans (if_pos rfl))
        simp only [act]; rw [if_neg g1, if_pos hu, ha.phase]
      · have g2 : ¬ Unquoted arg b!"phase" := fun h' => h2 (hu.unique h')
        by_cases h3 : u = b!"request"
        · subst h3
          refine go 4 (.inr (.inr hu)) ?_ ((if_neg h1).trans ((if_neg h2).trans (if_pos rfl)))
          simp only [act]; rw [if_neg g1, if_neg g2, if_pos hu]
        · have g3 : ¬ Unquoted arg b!"request" := fun h' => h3 (hu.unique h')
          have hng : ¬ Goes arg := fun hg => hg.elim g1 fun hg => hg.elim g2 g3
          have e1 : act S m ⟨.allow, arg⟩ = m := by simp only [act]; rw [if_neg g1, if_neg g2, if_neg g3]
          have e2 : allowDo u t = t := by simp only [allowDo]; rw [if_neg h1, if_neg h2, if_neg h3]
          have e3 : actAt S (m, j) ⟨.allow, arg⟩ = (m, j) := by
            simp only [actAt, e1]
            rw [if_neg hskip, if_neg (fun hh => hng hh.2)]
          refine ⟨t, fun n _ => by simp only [Action.run, e2], ?_⟩
          rw [e3]
          exact ⟨ha, hcur, hlow, hnext⟩

theorem acts_at {rs : RuleSet} (hs : Sees V S) (hdef : rs.defaultActions = []) {q : Int} (hlen : 0 < (rs.phases q).length)
    {as : List PAct} {ys : List Action} (hm : Pairs ActMeans as ys) : ∀ {x : Mach V.K × Nat} {t : Tx}, Acting V h q (rs.phases q).length x t →
    ∃ t', (∀ n ≥ 1, doAll (Action.run rs n) ys t = .ok t') ∧ Acting V h q (rs.phases q).length (as.foldl (actAt S) x) t' := by
  induction hm with
  | nil => intro x t hb; exact ⟨t, fun _ _ => rfl, hb⟩
  | cons hax _ ih =>
    intro x t hb
    obtain ⟨t1, g1, g2⟩ := act_at hs hdef hlen hb hax
    obtain ⟨t2, k1, k2⟩ := ih g2
    exact ⟨t2, fun n hn => by simp only [doAll, g1 n hn, Res.bind_ok']; exact k1 n hn, k2⟩

theorem chain_at {rs : RuleSet} (hs : Sees V S) (hdef : rs.defaultActions = []) {q : Int} (hlen : 0 < (rs.phases q).length)
    {ps : List PRule} {ss : List Rule} (hm : Pairs (RuleMeans env.lib) ps ss) : ∀ {x : Mach V.K × Nat} {t : Tx}, Acting V h q (rs.phases q).length x t →
    ∃ t', (∀ n ≥ 1, subActions rs n ss t = .ok t') ∧ Acting V h q (rs.phases q).length (fireAt S x ps) t' := by
  induction hm with
  | nil => intro x t hb; exact ⟨t, fun _ _ => rfl, hb⟩
  | @cons p r ps ss hr _ ih =>
    intro x t hb
    obtain ⟨t1, g1, g2⟩ := acts_at (S := S) hs hdef hlen (inOrder_grouped hr.actions) hb
    have g1' : ∀ n ≥ 1, actionsExecute (Action.run rs n) r.actions t = .ok t1 := by
      intro n hn
      simp only [actionsExecute]
      cases hx : actionMap r.actions (List.replicate groupCount []) with
      | none =>
        obtain ⟨x, hx, hg⟩ := actionMap_none.1 hx
        obtain ⟨a, _, hax⟩ := hr.actions.right x hx
        cases hax <;> simp [Action.group, groupData, groupNonDisruptive, groupDisruptive, groupFlow, groupCount] at hg
      | some mm => simp only [actionMap_grouped hx]; exact g1 n hn
    obtain ⟨t2, k1, k2⟩ := ih g2
    exact ⟨t2, fun n hn => by simp only [subActions, g1' n hn, Res.bind_ok']; exact k1 n hn, k2⟩

/-- One evaluation of a chain. -/
theorem eval_at {rs : RuleSet} (hs : Sees V S) (hdef : rs.defaultActions = []) {q : Int} (hlen : 0 < (rs.phases q).length)
    (hph : ∃ o ∈ h, phaseOf o = some q) {j : Nat} {c : List PRule} {r : Rule} (hc : ChainMeans env.lib c r)
    (hcov : ∀ p ∈ c, ∀ v ∈ p.vars, V.covers q v.tk) (ha : Agree V h m t) (hcur : t.currentRule = j)
    (hnext : t.nextRule = slot (rs.phases q).length (j + 1)) (hab : m.aborted = false) :
    ∃ t', (∀ n ≥ 1, r.run env rs n t = .ok t') ∧ Acting V h q (rs.phases q).length (evalAt S j c m) t' := by
  obtain ⟨p, ps, r0, ss, rfl, hr, hps, rfl⟩ := hc
  have hk := ha.know
  obtain ⟨b, t1, g1, a1, a2, a3, k2⟩ := loaded_matches V hph (r := { r0 with subRules := ss }) hr.not hr.trans hr.vars hr.op
    (hcov p List.mem_cons_self) ha.fine (ha.aborted.trans hab)
  have still : ∀ {u : Tx}, Untouched t u → V.fine h u → V.know u = V.know t → Acting V h q (rs.phases q).length ({ m with rule := j }, j + 1) u := by
    intro u hu hf hk'
    refine ⟨⟨hk'.trans hk, hf, hu.phase.trans ha.phase, ?_, ?_, hu.abort.trans ha.aborted, ?_, ?_⟩, hu.currentRule.trans hcur, ?_, ?_⟩
    · simp only [Tx.intervention, hu.interv]; exact ha.verdict
    · simp only [Tx.getData, hu.data]; exact ha.chosen
    · rw [hu.phase]; exact ha.low
    · rw [hu.phase]; exact ha.high
    · show (-1 : Int) ≤ (j : Int); omega
    · intro _; rw [hu.nextRule]; exact hnext
  rw [hk] at k2
  cases b with
  | false =>
    have hno : ¬ ∀ p' ∈ p :: ps, S.holds m.known p' := fun hall => by
      have := k2.2 ((hs.holds _ _).1 (hall p List.mem_cons_self))
      cases this
    refine ⟨t1, fun n hn => by simp only [Rule.run, g1, Res.bind_ok']; rfl, ?_⟩
    rw [evalAt, if_neg hno]
    exact still a1 a2 a3
  | true =>
    obtain ⟨b, t2, g2, b1, b2, b3, j2⟩ := loaded_matchSubs V hph hps (fun p hp => hcov p (List.mem_cons_of_mem _ hp)) a2
      (a1.abort.trans (ha.aborted.trans hab))
    rw [a3, hk] at j2
    cases b with
    | false =>
      have hno : ¬ ∀ p' ∈ p :: ps, S.holds m.known p' := fun hall => by
        have := j2.2 fun p' hp' => (hs.holds _ _).1 (hall p' (List.mem_cons_of_mem _ hp'))
        cases this
      refine ⟨t2, fun n hn => by simp only [Rule.run, g1, Res.bind_ok', Bool.not_true, Bool.false_eq_true, if_false, g2]; rfl, ?_⟩
      rw [evalAt, if_neg hno]
      exact still (a1.trans b1) b2 (b3.trans a3)
    | true =>
      have hyes : ∀ p' ∈ p :: ps, S.holds m.known p' := by
        intro p' hp'
        rw [hs.holds]
        rcases List.mem_cons.1 hp' with rfl | hp'
        · exact k2.1 rfl
        · exact j2.1 rfl p' hp'
      obtain ⟨t3, c1, c2⟩ := chain_at (S := S) hs hdef hlen (.cons hr hps) (still (a1.trans b1) b2 (b3.trans a3))
      refine ⟨t3, ?_, ?_⟩
      · intro n hn
        simp only [Rule.run, g1, Res.bind_ok', Bool.not_true, Bool.false_eq_true, if_false, g2]
        exact c1 n hn
      · rw [evalAt, if_pos hyes]; exact c2

/-! ### The loop -/

theorem actAt_fst (x : Mach V.K × Nat) (as : List PAct) : (as.foldl (actAt S) x).1 = as.foldl (act S) x.1 := by
  induction as generalizing x with
  | nil => rfl
  | cons a as ih => rw [List.foldl_cons, List.foldl_cons, ih]; rfl

theorem fireAt_fst (x : Mach V.K × Nat) (c : List PRule) : (fireAt S x c).1 = fire S x.1 c := by
  induction c generalizing x with
  | nil => rfl
  | cons p c ih =>
    show (fireAt S ((inOrder p.acts.action).foldl (actAt S) x) c).1 = fire S ((inOrder p.acts.action).foldl (act S) x.1) c
    rw [ih, actAt_fst]

theorem evalAt_known (j : Nat) (c : List PRule) (m : Mach V.K) : (evalAt S j c m).1.known = m.known ∧ (evalAt S j c m).1.aborted = m.aborted := by
  rw [evalAt]
  split
  · rw [fireAt_fst]; exact fire_known c _
  · exact ⟨rfl, rfl⟩

/-- The transaction stands before rule `j` of phase `q`. -/
structure Stands {env : Env} (V : View env) (h : List Op) (q : Int) (len j : Nat) (m : Mach V.K) (t : Tx) : Prop where
  agree : Agree V h m t
  running : m.aborted = false
  phase : t.phase = q
  cur : t.currentRule = slot len j
  next : j < len → t.nextRule = slot len (j + 1)

/-- One turn of the loop, whatever the evaluation of the chain amounts to. -/
theorem turn_by {rs : RuleSet} {q : Int} {j : Nat} {r : Rule} {x : Mach V.K × Nat} {t1 : Tx} (hr : (rs.phases q)[j]? = some r)
    (hst : Stands V h q (rs.phases q).length j m t) (g1 : ∀ n ≥ 1, r.run env rs n t = .ok t1)
    (g2 : Acting V h q (rs.phases q).length x t1) (hrun : ¬ x.1.verdict.disruptive = true → x.1.aborted = false) :
    if x.1.verdict.disruptive = true ∨ x.1.phase ≠ q then
      ∃ t', Agree V h x.1 t' ∧ (∀ n, processLoop env rs q (n + 1) (slot (rs.phases q).length j) t = .fuel ∨
          ∃ tr, processLoop env rs q (n + 1) (slot (rs.phases q).length j) t = .ok (t', tr)) ∧
        ∀ n ≥ 1, ∃ tr, processLoop env rs q (n + 1) (slot (rs.phases q).length j) t = .ok (t', tr)
    else ∃ t', Stands V h q (rs.phases q).length x.2 x.1 t' ∧ ∃ tr,
      (∀ n, processLoop env rs q (n + 1) (slot (rs.phases q).length j) t = .fuel ∨
        processLoop env rs q (n + 1) (slot (rs.phases q).length j) t =
          (processLoop env rs q n (slot (rs.phases q).length x.2) t').bind fun (t, tr') => .ok (t, tr ++ tr')) ∧
      ∀ n ≥ 1, processLoop env rs q (n + 1) (slot (rs.phases q).length j) t =
        (processLoop env rs q n (slot (rs.phases q).length x.2) t').bind fun (t, tr') => .ok (t, tr ++ tr') := by
  have hi : j < (rs.phases q).length := by
    rcases Nat.lt_or_ge j (rs.phases q).length with h | h
    · exact h
    · rw [List.getElem?_eq_none h] at hr; cases hr
  have hsl : slot (rs.phases q).length j = j := if_neg (by omega)
  have hproc : ∀ n ≥ 1, rs.process env n t q j = .ok t1 := by
    intro n hn
    simp only [RuleSet.process]
    rw [if_pos (by omega), if_neg (by omega)]
    simp only [Int.toNat_natCast, hr]
    exact g1 n hn
  -- the loop with the result of the evaluation
  let rest (n : Nat) : Res (Tx × Trace) :=
    let ev : Trace := if (j : Int) < (rs.phases q).length then [(q, (j : Int))] else []
    if t1.touch.intervention.disruptive then .ok (t1.touch, ev)
    else
      (processLoop env rs q n (t1.touch.next (rs.phases t1.touch.phase).length).2 (t1.touch.next (rs.phases t1.touch.phase).length).1).bind
        fun (t, tr) => .ok (t, ev ++ tr)
  have hin : t.phase = q ∧ (j : Int) ≠ statusEndOfRules := ⟨hst.phase, by show (j : Int) ≠ -2; omega⟩
  have hyes : ∀ n ≥ 1, processLoop env rs q (n + 1) j t = rest n := by
    intro n hn
    simp only [processLoop]
    rw [if_pos hin, hproc n hn]
    rfl
  have hany : ∀ n, processLoop env rs q (n + 1) j t = .fuel ∨ processLoop env rs q (n + 1) j t = rest n := by
    intro n
    rcases process_sooner (env := env) rs n t q j with e | e
    · refine .inl ?_
      simp only [processLoop]
      rw [if_pos hin, e]
      rfl
    · refine .inr ?_
      rw [hproc (max n 1) (by omega)] at e
      simp only [processLoop]
      rw [if_pos hin, e]
      rfl
  have hti : t1.touch.intervention = x.1.verdict := g2.agree.touch.verdict
  rw [hsl]
  by_cases hd : x.1.verdict.disruptive = true
  · rw [if_pos (.inl hd)]
    have hrest : ∀ n, rest n = .ok (t1.touch, [(q, (j : Int))]) := by
      intro n
      simp only [rest]
      rw [if_pos (show t1.touch.intervention.disruptive = true by rw [hti]; exact hd), if_pos (by omega)]
    exact ⟨_, g2.agree.touch, fun n => (hany n).imp id fun e => ⟨_, e.trans (hrest n)⟩, fun n hn => ⟨_, (hyes n hn).trans (hrest n)⟩⟩
  · have hrest : ∀ n, rest n = (processLoop env rs q n (t1.touch.next (rs.phases t1.touch.phase).length).2 (t1.touch.next (rs.phases t1.touch.phase).length).1).bind
        fun (t, tr) => .ok (t, [(q, (j : Int))] ++ tr) := by
      intro n
      simp only [rest]
      rw [if_neg (show ¬ t1.touch.intervention.disruptive = true by rw [hti]; exact hd), if_pos (by omega)]
    by_cases hq : x.1.phase = q
    · rw [if_neg (fun hh => hh.elim hd fun h' => h' hq)]
      have hq1 : t1.touch.phase = q := g2.agree.phase.trans hq
      have hl1 : (rs.phases t1.touch.phase).length = (rs.phases q).length := by rw [hq1]
      obtain ⟨nr, e1, e2⟩ := next_slot (t := t1.touch) (show t1.touch.nextRule = _ from g2.next hq1)
      refine ⟨_, ⟨g2.agree.touch.moved (slot (rs.phases q).length x.2) nr, hrun hd, hq1, rfl, e2⟩,
        [(q, (j : Int))], fun n => (hany n).imp id fun e => ?_, fun n hn => ?_⟩
      · rw [e, hrest n, hl1, e1]
      · rw [hyes n hn, hrest n, hl1, e1]
    · rw [if_pos (.inr hq)]
      have hne : t1.touch.phase ≠ q := fun e => hq (g2.agree.phase.symm.trans e)
      obtain ⟨x, y, z, e1⟩ := next_shape t1.touch (rs.phases t1.touch.phase).length
      have hout : ∀ n ≥ 1, rest n = .ok ({ t1.touch with currentRule := x, nextRule := y }, [(q, (j : Int))] ++ []) := by
        intro n hn
        rw [hrest n, e1]
        simp only [loop_out (env := env) (rs := rs) (t := { t1.touch with currentRule := x, nextRule := y }) (next := z) (n := n) hn (.inl hne), Res.bind_ok']
      refine ⟨_, g2.agree.touch.moved x y, fun n => ?_, fun n hn => ⟨_, (hyes n hn).trans (hout n hn)⟩⟩
      cases n with
      | zero =>
        rcases hany 0 with e | e
        · exact .inl e
        · refine .inl ?_
          rw [e, hrest 0]
          simp only [processLoop]; rfl
      | succ n => exact .inr ⟨_, (hyes _ (by omega)).trans (hout _ (by omega))⟩

/-- One turn of the loop. -/
theorem turn_loop {rs : RuleSet} (hs : Sees V S) (hdef : rs.defaultActions = []) {q : Int} (hph : ∃ o ∈ h, phaseOf o = some q)
    {cs : List (List PRule)} (hp : Pairs (ChainMeans env.lib) cs (rs.phases q)) (hcov : ∀ c ∈ cs, ∀ p ∈ c, ∀ v ∈ p.vars, V.covers q v.tk)
    {j : Nat} {c : List PRule} (hj : cs[j]? = some c) (hst : Stands V h q (rs.phases q).length j m t) :
    if (evalAt S j c m).1.verdict.disruptive = true ∨ (evalAt S j c m).1.phase ≠ q then
      ∃ t', Agree V h (evalAt S j c m).1 t' ∧ (∀ n, processLoop env rs q (n + 1) (slot (rs.phases q).length j) t = .fuel ∨
          ∃ tr, processLoop env rs q (n + 1) (slot (rs.phases q).length j) t = .ok (t', tr)) ∧
        ∀ n ≥ 1, ∃ tr, processLoop env rs q (n + 1) (slot (rs.phases q).length j) t = .ok (t', tr)
    else ∃ t', Stands V h q (rs.phases q).length (evalAt S j c m).2 (evalAt S j c m).1 t' ∧ ∃ tr,
      (∀ n, processLoop env rs q (n + 1) (slot (rs.phases q).length j) t = .fuel ∨
        processLoop env rs q (n + 1) (slot (rs.phases q).length j) t =
          (processLoop env rs q n (slot (rs.phases q).length (evalAt S j c m).2) t').bind fun (t, tr') => .ok (t, tr ++ tr')) ∧
      ∀ n ≥ 1, processLoop env rs q (n + 1) (slot (rs.phases q).length j) t =
        (processLoop env rs q n (slot (rs.phases q).length (evalAt S j c m).2) t').bind fun (t, tr') => .ok (t, tr ++ tr') := by
  obtain ⟨c', r, h1, hr, hcr⟩ : ∃ c' r, cs[j]? = some c' ∧ (rs.phases q)[j]? = some r ∧ ChainMeans env.lib c' r := by
    have : ∀ {cs : List (List PRule)} {rl : List Rule}, Pairs (ChainMeans env.lib) cs rl → ∀ {j : Nat} {c}, cs[j]? = some c →
        ∃ r, rl[j]? = some r ∧ ChainMeans env.lib c r := by
      intro cs rl hp
      induction hp with
      | nil => intro j c hc; simp at hc
      | cons hr _ ih =>
        intro j c hc
        cases j with
        | zero => simp only [List.getElem?_cons_zero, Option.some.injEq] at hc ⊢; exact ⟨_, rfl, hc ▸ hr⟩
        | succ j => simp only [List.getElem?_cons_succ] at hc ⊢; exact ih hc
    obtain ⟨r, h1, h2⟩ := this hp hj
    exact ⟨c, r, hj, h1, h2⟩
  rw [hj] at h1
  cases h1
  have hi : j < (rs.phases q).length := by
    rcases Nat.lt_or_ge j (rs.phases q).length with h | h
    · exact h
    · rw [List.getElem?_eq_none h] at hr; cases hr
  have hsl : slot (rs.phases q).length j = j := if_neg (by omega)
  have hcm : c ∈ cs := List.mem_of_getElem? hj
  obtain ⟨t1, g1, g2⟩ := eval_at (S := S) hs hdef (by omega) hph hcr (hcov c hcm) hst.agree (hst.cur.trans hsl) (hst.next hi) hst.running
  exact turn_by hr hst g1 g2 fun _ => (evalAt_known j c m).2.trans hst.running

/-- If the walk ends, so does the loop. -/
theorem path_loop {rs : RuleSet} (hs : Sees V S) (hdef : rs.defaultActions = []) {q : Int} (hph : ∃ o ∈ h, phaseOf o = some q)
    {cs : List (List PRule)} (hp : Pairs (ChainMeans env.lib) cs (rs.phases q)) (hcov : ∀ c ∈ cs, ∀ p ∈ c, ∀ v ∈ p.vars, V.covers q v.tk)
    {js : List Nat} {j : Nat} {m m' : Mach V.K} (hw : Path S q cs js j m m') :
    ∀ n ≥ js.length + 1, ∀ t, Stands V h q (rs.phases q).length j m t →
      ∃ t' tr, processLoop env rs q n (slot (rs.phases q).length j) t = .ok (t', tr) ∧ Agree V h m' t' := by
  induction hw with
  | over hl =>
    refine fun n hn t hst => ⟨t, [], loop_out hn (.inr (if_pos ?_)), hst.agree⟩
    rw [← hp.length_eq]; exact hl
  | @stop j m c hc hstop =>
    intro n hn t hst
    simp only [List.length_cons, List.length_nil] at hn
    obtain ⟨n, rfl⟩ : ∃ k, n = k + 1 := ⟨n - 1, by omega⟩
    have := turn_loop hs hdef hph hp hcov hc hst
    rw [if_pos hstop] at this
    obtain ⟨t', g1, _, g2⟩ := this
    obtain ⟨tr, g2⟩ := g2 n (by omega)
    exact ⟨t', tr, g2, g1⟩
  | @go js j m c m' hc hgo _ ih =>
    intro n hn t hst
    simp only [List.length_cons] at hn
    obtain ⟨n, rfl⟩ : ∃ k, n = k + 1 := ⟨n - 1, by omega⟩
    have := turn_loop hs hdef hph hp hcov hc hst
    rw [if_neg hgo] at this
    obtain ⟨t1, g1, tr, _, g2⟩ := this
    obtain ⟨t', tr', k1, k2⟩ := ih n (by omega) t1 g1
    refine ⟨t', tr ++ tr', ?_, k2⟩
    rw [g2 n (by omega), k1]; rfl

/-- If the loop ends, so does the walk; the loop does not panic. -/
theorem loop_walks {rs : RuleSet} (hs : Sees V S) (hdef : rs.defaultActions = []) {q : Int} (hph : ∃ o ∈ h, phaseOf o = some q)
    {cs : List (List PRule)} (hp : Pairs (ChainMeans env.lib) cs (rs.phases q)) (hcov : ∀ c ∈ cs, ∀ p ∈ c, ∀ v ∈ p.vars, V.covers q v.tk) :
    ∀ (n : Nat) {j : Nat} {m : Mach V.K} {t : Tx}, Stands V h q (rs.phases q).length j m t →
    processLoop env rs q n (slot (rs.phases q).length j) t = .fuel ∨ ∃ m', Walks S q cs j m m' := by
  intro n
  induction n with
  | zero => intro j m t _; exact .inl (by simp only [processLoop])
  | succ n ih =>
    intro j m t hst
    cases hc : cs[j]? with
    | none => exact .inr ⟨m, .over (List.getElem?_eq_none_iff.1 hc)⟩
    | some c =>
      have := turn_loop hs hdef hph hp hcov hc hst
      by_cases hstop : (evalAt S j c m).1.verdict.disruptive = true ∨ (evalAt S j c m).1.phase ≠ q
      · exact .inr ⟨_, .stop hc hstop⟩
      · rw [if_neg hstop] at this
        obtain ⟨t1, g1, tr, g2, _⟩ := this
        rcases ih g1 with e | ⟨m', hw⟩
        · refine .inl ?_
          rcases g2 n with e' | e'
          · exact e'
          · rw [e', e]; rfl
        · exact .inr ⟨m', .go hc hstop hw⟩

/-- Processing a phase that is not yet processed: it has no rules, or the loop starts
before its first rule. -/
theorem phase_start {rs : RuleSet} {q : Int} (hlen : rs.phases q ≠ [] → q ≤ 6) (hle : ¬ q ≤ m.phase) (hrun : m.aborted = false) (ha : Agree V h m t) :
    (rs.phases q = [] ∧ ∃ t' tr, Agree V h (goto q m) t' ∧ (∀ n, processPhase env rs n q t = .fuel ∨ processPhase env rs n q t = .ok (t', tr)) ∧
      ∀ n ≥ 2, processPhase env rs n q t = .ok (t', tr)) ∨
    (rs.phases q ≠ [] ∧ 1 ≤ q ∧ q ≤ 6 ∧ ∃ t0, Stands V h q (rs.phases q).length 0 (goto q m) t0 ∧
      ∀ n, processPhase env rs n q t = processLoop env rs q n (slot (rs.phases q).length 0) t0) := by
  have h0 : 1 ≤ q := by
    have := ha.low
    have := ha.phase
    omega
  have hgo : ∀ n, processPhase env rs n q t =
      processLoop env rs q n ((t.jumpToPhase q).next (rs.phases (t.jumpToPhase q).phase).length).2 ((t.jumpToPhase q).next (rs.phases (t.jumpToPhase q).phase).length).1 := by
    intro n
    simp only [processPhase, ge_iff_le]
    rw [if_neg (by rw [ha.phase]; exact hle)]
    simp only [processPhase']
    rw [if_neg (show ¬ (t.jumpToPhase q).abort = true by rw [show (t.jumpToPhase q).abort = false from (ha.goto q).aborted.trans hrun]; simp)]
  have hzero : processPhase env rs 0 q t = .fuel := by rw [hgo 0]; simp only [processLoop]
  by_cases hnil : rs.phases q = []
  · refine .inl ⟨hnil, ?_⟩
    have hj := ha.goto q
    have hjp := goto_phase q t
    by_cases h7 : 7 < q
    · obtain ⟨x, y, z, e⟩ := next_shape (t.jumpToPhase q) (rs.phases (t.jumpToPhase q).phase).length
      have key : ∀ n ≥ 1, processPhase env rs n q t = .ok ({ t.jumpToPhase q with currentRule := x, nextRule := y }, []) := by
        intro n hn
        rw [hgo n, e]
        refine loop_out hn (.inl ?_)
        show (t.jumpToPhase q).phase ≠ q
        omega
      refine ⟨_, _, hj.moved _ _, fun n => ?_, fun n hn => key n (by omega)⟩
      cases n with
      | zero => exact .inl hzero
      | succ n => exact .inr (key _ (by omega))
    · have hq : (t.jumpToPhase q).phase = q := by omega
      let u : Tx := ({ t.jumpToPhase q with currentRule := 0, nextRule := -2 } : Tx).touch
      have hu : Agree V h (goto q m) u := (hj.moved 0 (-2)).touch
      have e0 : (t.jumpToPhase q).next (rs.phases q).length = ({ t.jumpToPhase q with currentRule := 0, nextRule := -2 }, 0) := by
        rw [hnil]; rfl
      obtain ⟨x, y, z, e⟩ := next_shape u (rs.phases u.phase).length
      have ez : z = -2 := by
        have : (u.next (rs.phases u.phase).length).2 = -2 := rfl
        rw [e] at this; exact this
      have turn : ∀ n, processPhase env rs (n + 1) q t = if u.intervention.disruptive then .ok (u, []) else
          (processLoop env rs q n z { u with currentRule := x, nextRule := y }).bind fun (t, tr) => .ok (t, [] ++ tr) := by
        intro n
        rw [hgo (n + 1), hq, e0]
        simp only [processLoop]
        rw [if_pos ⟨hq, by simp [statusEndOfRules]⟩]
        simp only [RuleSet.process, hnil, List.length_nil, Int.lt_irrefl, if_false, Res.bind_ok', gt_iff_lt, Int.cast_ofNat_Int]
        show (if u.intervention.disruptive = true then _ else (processLoop env rs q n (u.next (rs.phases u.phase).length).2 (u.next (rs.phases u.phase).length).1).bind _) = _
        rw [e]
      by_cases hd : u.intervention.disruptive = true
      · have key : ∀ n, processPhase env rs (n + 1) q t = .ok (u, []) := fun n => by rw [turn n, if_pos hd]
        refine ⟨u, [], hu, fun n => ?_, fun n hn => ?_⟩
        · cases n with
          | zero => exact .inl hzero
          | succ n => exact .inr (key _)
        · obtain ⟨n, rfl⟩ : ∃ k, n = k + 1 := ⟨n - 1, by omega⟩
          exact key n
      · have key : ∀ n, processPhase env rs (n + 2) q t = .ok ({ u with currentRule := x, nextRule := y }, [] ++ []) := fun n => by
          rw [turn (n + 1), if_neg hd]
          simp only [loop_out (env := env) (rs := rs) (q := q) (n := n + 1) (next := z) (t := { u with currentRule := x, nextRule := y })
            (by omega) (.inr ez), Res.bind_ok']
        refine ⟨_, [] ++ [], hu.moved x y, fun n => ?_, fun n hn => ?_⟩
        · match n with
          | 0 => exact .inl hzero
          | 1 =>
            refine .inl ?_
            rw [turn 0, if_neg hd]
            simp only [processLoop]; rfl
          | n + 2 => exact .inr (key n)
        · obtain ⟨n, rfl⟩ : ∃ k, n = k + 2 := ⟨n - 2, by omega⟩
          exact key n
  · refine .inr ⟨hnil, h0, hlen hnil, ?_⟩
    have h5 := hlen hnil
    have hpos : 0 < (rs.phases q).length := List.length_pos_iff.2 hnil
    have hs0 : slot (rs.phases q).length 0 = 0 := if_neg (by omega)
    have hj := ha.goto q
    have hjp := goto_phase q t
    have hq : (t.jumpToPhase q).phase = q := by omega
    obtain ⟨nr, e1, e2⟩ := next_slot (t := t.jumpToPhase q) (len := (rs.phases q).length) (j := 0) (by rw [hs0]; rfl)
    have hl : (rs.phases (t.jumpToPhase q).phase).length = (rs.phases q).length := by rw [hq]
    refine ⟨_, ⟨hj.moved (slot (rs.phases q).length 0) nr, hrun, hq, rfl, e2⟩, fun n => ?_⟩
    rw [hgo n, hl, e1]

/-- Processing a phase that is not yet processed. -/
theorem phase_loop {rs : RuleSet} {chains : List (List PRule)} (hs : Sees V S) (hc : Carried env.lib chains rs) (hcov : Covered V chains)
    {q : Int} (hph : ∃ o ∈ h, phaseOf o = some q) (m : Mach V.K) (hle : ¬ q ≤ m.phase) (hrun : m.aborted = false) :
    ∀ t, Agree V h m t → match endOf S q (chains.filter fun c => chainPhase c = q) (goto q m) with
      | some m' => ∀ n ≥ chains.length + 2, ∃ t' tr, processPhase env rs n q t = .ok (t', tr) ∧ Agree V h m' t'
      | none => ∀ n, processPhase env rs n q t = .fuel := by
  rcases (show q ≤ 0 ∨ 1 ≤ q by omega) with h0 | h0
  · intro t ha
    have := ha.low
    have := ha.phase
    omega
  have hpairs := hc.rules q h0
  have hcov' : ∀ c ∈ chains.filter fun c => chainPhase c = q, ∀ p ∈ c, ∀ v ∈ p.vars, V.covers q v.tk := by
    intro c hcm p hp v hv
    obtain ⟨hcm, hcq⟩ := List.mem_filter.1 hcm
    have hcq : chainPhase c = q := by simpa using hcq
    rw [← hcq]
    exact hcov c hcm (by omega) p hp v hv
  have hlen : rs.phases q ≠ [] → q ≤ 5 := by
    intro hne
    have hemp : (chains.filter fun c => chainPhase c = q) ≠ [] := fun e => hne (List.length_eq_zero_iff.1 (by rw [← hpairs.length_eq, e]; rfl))
    obtain ⟨c0, hc0⟩ := List.exists_mem_of_ne_nil _ hemp
    obtain ⟨hc0, hq0⟩ := List.mem_filter.1 hc0
    have hq0 : chainPhase c0 = q := by simpa using hq0
    have := hc.five c0 hc0
    omega
  by_cases hnil : rs.phases q = []
  · have hemp : (chains.filter fun c => chainPhase c = q) = [] := List.length_eq_zero_iff.1 (by rw [hpairs.length_eq, hnil]; rfl)
    rw [hemp, endOf_some (.over (Nat.zero_le _))]
    intro t ha n hn
    rcases phase_start (env := env) (rs := rs) (fun hne => by have := hlen hne; omega) hle hrun ha with ⟨_, t', tr, h1, _, h2⟩ | ⟨h', _⟩
    · exact ⟨t', tr, h2 n (by omega), h1⟩
    · exact absurd hnil h'
  · have hst : ∀ {t : Tx}, Agree V h m t → ∃ t0, Stands V h q (rs.phases q).length 0 (goto q m) t0 ∧
        ∀ n, processPhase env rs n q t = processLoop env rs q n (slot (rs.phases q).length 0) t0 := by
      intro t ha
      rcases phase_start (env := env) (rs := rs) (fun hne => by have := hlen hne; omega) hle hrun ha with ⟨h', _⟩ | ⟨_, _, _, h'⟩
      · exact absurd h' hnil
      · exact h'
    have h5 := hlen hnil
    by_cases hw : ∃ m', Walks S q (chains.filter fun c => chainPhase c = q) 0 (goto q m) m'
    · obtain ⟨m', hw⟩ := hw
      rw [endOf_some hw]
      obtain ⟨js, hw⟩ := hw.path
      intro t ha n hn
      obtain ⟨t0, h1, h2⟩ := hst ha
      rw [h2 n]
      have hjp := goto_phase q t
      have h3 := ha.low
      have h4 := ha.phase
      obtain ⟨hnd, hlt⟩ := hw.nodup (show max 0 (min q 7) = q by omega)
      have hle1 := nodup_length _ hnd hlt
      have hle2 := List.length_filter_le (fun c => decide (chainPhase c = q)) chains
      exact path_loop hs hc.defaults hph hpairs hcov' hw n (by omega) t0 h1
    · rw [endOf_none hw]
      intro t ha n
      obtain ⟨t0, h1, h2⟩ := hst ha
      rw [h2 n]
      rcases loop_walks hs hc.defaults hph hpairs hcov' n h1 with e | e
      · exact e
      · exact absurd e hw

/-! ### Calls -/

/-- One call. -/
theorem step_loop {rs : RuleSet} {chains : List (List PRule)} (hs : Sees V S) (hc : Carried env.lib chains rs) (hcov : Covered V chains)
    {op : Op} (hf : Follows V S.learn h op) (ha : Agree V h m t) : match callOr S chains m op with
      | some (m', is) => ∀ n ≥ chains.length + 2, ∃ t' o tr, t.step env rs n op = .ok (t', o, tr) ∧ Agree V (h ++ [op]) m' t' ∧ shown [o] = is
      | none => ∀ n, t.step env rs n op = .fuel := by
  cases hq : phaseOf op with
  | none =>
    simp only [callOr, hq]
    intro n _
    obtain ⟨t', o, tr, g1, g2⟩ := step_plain (rs := rs) (chains := chains) hs hq hf ha
    exact ⟨t', o, tr, g1 n, g2⟩
  | some q =>
    have hh := ha.heard hf (phaseOf_hear hq).1 (phaseOf_hear hq).2
    simp only [callOr, hq]
    by_cases hle : q ≤ m.phase
    · rw [if_pos (.inl hle)]
      intro n _
      refine ⟨t.hear op, .unit, [], ?_, ?_, ?_⟩
      · rw [step_enters hq, processPhase, if_pos (show (t.hear op).phase ≥ q by rw [hh.phase]; exact hle)]
        rfl
      · simp only [call, hq, if_pos hle]; exact hh
      · simp only [call, hq, if_pos hle]; rfl
    · by_cases hab : m.aborted = true
      · rw [if_pos (.inr hab)]
        intro n _
        refine ⟨(t.hear op).jumpToPhase q, .unit, [], ?_, ?_, ?_⟩
        · rw [step_enters hq, processPhase, if_neg (show ¬ (t.hear op).phase ≥ q by rw [hh.phase]; exact hle), processPhase',
            if_pos (show ((t.hear op).jumpToPhase q).abort = true from hh.aborted.trans hab)]
          rfl
        · simp only [call, hq, if_neg hle, if_pos hab]; exact hh.goto q
        · simp only [call, hq, if_neg hle, if_pos hab]; rfl
      · rw [if_neg (fun h' => h'.elim hle hab)]
        have := phase_loop hs hc hcov (h := h ++ [op]) (q := q) ⟨op, by simp, hq⟩ { m with known := S.learn m.known op } hle
          (show m.aborted = false by simpa using hab) _ hh
        cases he : endOf S q (chains.filter fun c => chainPhase c = q) (goto q { m with known := S.learn m.known op }) with
        | none =>
          simp only [he, Option.map_none] at this ⊢
          intro n
          rw [step_enters hq, this n]; rfl
        | some m' =>
          simp only [he, Option.map_some] at this ⊢
          intro n hn
          obtain ⟨t', tr, g1, g2⟩ := this n hn
          exact ⟨t', .unit, tr, by rw [step_enters hq, g1]; rfl, g2, rfl⟩

/-- A history. -/
theorem steps_loop {rs : RuleSet} {chains : List (List PRule)} (hs : Sees V S) (hc : Carried env.lib chains rs) (hcov : Covered V chains)
    {n : Nat} (hn : chains.length + 2 ≤ n) : ∀ {ops h : List Op} {m : Mach V.K} {t : Tx},
    (∀ a op b, ops = a ++ op :: b → Follows V S.learn (h ++ a) op) → Agree V h m t →
    match runOr S chains m ops with
    | some (m', is) => ∃ t' os tr, t.steps env rs n ops = .ok (t', os, tr) ∧ Agree V (h ++ ops) m' t' ∧ shown os = is
    | none => t.steps env rs n ops = .fuel := by
  intro ops
  induction ops with
  | nil => intro h m t _ ha; exact ⟨t, [], [], rfl, by rw [List.append_nil]; exact ha, rfl⟩
  | cons op ops ih =>
    intro h m t hf ha
    have hf0 := hf [] op ops rfl
    rw [List.append_nil] at hf0
    have h1 := step_loop (rs := rs) hs hc hcov hf0 ha
    simp only [runOr]
    cases hcall : callOr S chains m op with
    | none =>
      simp only [hcall] at h1 ⊢
      simp only [Tx.steps, h1 n]; rfl
    | some x =>
      obtain ⟨m1, is⟩ := x
      simp only [hcall] at h1 ⊢
      obtain ⟨t1, o, tr1, g1, g2, g3⟩ := h1 n hn
      have h2 := ih (h := h ++ [op]) (fun a o b e => by
        have := hf (op :: a) o b (by rw [e]; rfl)
        rwa [List.append_assoc]) g2
      cases hrun : runOr S chains m1 ops with
      | none =>
        simp only [hrun] at h2 ⊢
        simp only [Tx.steps, g1, Res.bind_ok', h2]; rfl
      | some y =>
        obtain ⟨m2, js⟩ := y
        simp only [hrun] at h2 ⊢
        obtain ⟨t2, os, tr2, k1, k2, k3⟩ := h2
        refine ⟨t2, o :: os, tr1 ++ tr2, by simp only [Tx.steps, g1, Res.bind_ok', k1], ?_, ?_⟩
        · rw [List.append_assoc] at k2; exact k2
        · have e : shown (o :: os) = shown [o] ++ shown os := by
            rw [shown, shown, shown, ← List.filterMap_append]; rfl
          rw [e, g3, k3]

end

/-- The same as two implications. -/
theorem steps_or {env : Env} {V : View env} {S : Sight V.K} {rs : RuleSet} {chains : List (List PRule)} (hs : Sees V S) (hc : Carried env.lib chains rs)
    (hcov : Covered V chains) {n : Nat} (hn : chains.length + 2 ≤ n) {ops h : List Op} {m : Mach V.K} {t : Tx}
    (hf : ∀ a op b, ops = a ++ op :: b → Follows V S.learn (h ++ a) op) (ha : Agree V h m t) :
    (∀ m' is, runOr S chains m ops = some (m', is) → ∃ t' os tr, t.steps env rs n ops = .ok (t', os, tr) ∧ Agree V (h ++ ops) m' t' ∧ shown os = is) ∧
    (runOr S chains m ops = none → t.steps env rs n ops = .fuel) := by
  have := steps_loop (rs := rs) hs hc hcov hn hf ha
  cases hr : runOr S chains m ops with
  | none => simp only [hr] at this; exact ⟨(fun _ _ h => by cases h), fun _ => this⟩
  | some x =>
    obtain ⟨m1, js⟩ := x
    simp only [hr] at this
    exact ⟨(fun m' is h => by cases h; exact this), (fun h => by cases h)⟩

/-- One call, as two implications. -/
theorem step_or {env : Env} {V : View env} {S : Sight V.K} {rs : RuleSet} {chains : List (List PRule)} (hs : Sees V S) (hc : Carried env.lib chains rs)
    (hcov : Covered V chains) {op : Op} {h : List Op} {m : Mach V.K} {t : Tx} (hf : Follows V S.learn h op) (ha : Agree V h m t) :
    (∀ m' is, callOr S chains m op = some (m', is) → ∀ n ≥ chains.length + 2, ∃ t' o tr, t.step env rs n op = .ok (t', o, tr) ∧
      Agree V (h ++ [op]) m' t' ∧ shown [o] = is) ∧
    (callOr S chains m op = none → ∀ n, t.step env rs n op = .fuel) := by
  have := step_loop (rs := rs) hs hc hcov hf ha
  cases hr : callOr S chains m op with
  | none => simp only [hr] at this; exact ⟨(fun _ _ h => by cases h), fun _ => this⟩
  | some x =>
    obtain ⟨m1, js⟩ := x
    simp only [hr] at this
    exact ⟨(fun m' is h => by cases h; exact this), (fun h => by cases h)⟩

/-! ### Texts that do not go back -/

section
variable {K : Type} {S : Sight K}

/-- While chain number `j` of phase `q` acts: the phase is not left backwards, and as long
as it is not left, it goes on at `k`. -/
def Onward (q : Int) (j k : Nat) (x : Mach K × Nat) : Prop :=
  q ≤ x.1.phase ∧ (x.1.phase = q → x.1.rule = j ∧ x.2 = k)

theorem Onward.act {q : Int} (h0 : 0 ≤ q) (h5 : q ≤ 5) {j k : Nat} {x : Mach K × Nat} (h : Onward q j k x) {a : PAct}
    (hret : 4 ≤ q → a.tk = .allow → ¬ Unquoted a.arg b!"request") :
    Onward q j (if a.tk = .skip then j + 2 else k) (actAt S x a) := by
  obtain ⟨m, i⟩ := x
  obtain ⟨h1, h2⟩ := h
  simp only at h1 h2
  obtain ⟨tk, arg⟩ := a
  by_cases hs : tk = .skip
  · subst hs
    refine ⟨h1, fun hp => ⟨(h2 hp).1, ?_⟩⟩
    have : (m.rule + 2).toNat = j + 2 := by rw [(h2 hp).1]; omega
    simpa only [actAt, if_true] using this
  · rw [if_neg hs]
    by_cases ha : tk = .allow
    · subst ha
      have go : ∀ p : Int, q < max 0 (min p 7) → Spec.act S m ⟨.allow, arg⟩ = goto p m → Onward q j k (actAt S (m, i) ⟨.allow, arg⟩) := by
        intro p hp e
        have e1 : (actAt S (m, i) ⟨.allow, arg⟩).1 = goto p m := e
        refine ⟨by rw [e1]; show q ≤ max 0 (min p 7); omega, fun h' => ?_⟩
        rw [e1] at h'
        have h' : max 0 (min p 7) = q := h'
        omega
      by_cases g1 : Unquoted arg []
      · exact go 6 (by omega) (by simp only [Spec.act]; rw [if_pos g1])
      · by_cases g2 : Unquoted arg b!"phase"
        · exact go (m.phase + 1) (by omega) (by simp only [Spec.act]; rw [if_neg g1, if_pos g2])
        · by_cases g3 : Unquoted arg b!"request"
          · refine go 4 ?_ (by simp only [Spec.act]; rw [if_neg g1, if_neg g2, if_pos g3])
            by_cases h4 : 4 ≤ q
            · exact absurd g3 (hret h4 rfl)
            · omega
          · have e1 : Spec.act S m ⟨.allow, arg⟩ = m := by simp only [Spec.act]; rw [if_neg g1, if_neg g2, if_neg g3]
            have e2 : actAt S (m, i) ⟨.allow, arg⟩ = (m, i) := by
              simp only [actAt, e1]
              rw [if_neg hs, if_neg (fun hh => hh.2.elim g1 fun hg => hg.elim g2 g3)]
            rw [e2]; exact ⟨h1, h2⟩
    · have e2 : (actAt S (m, i) ⟨tk, arg⟩).2 = i := by
        simp only [actAt]
        rw [if_neg hs, if_neg (fun hh => ha hh.1)]
      have e3 : (Spec.act S m ⟨tk, arg⟩).phase = m.phase ∧ (Spec.act S m ⟨tk, arg⟩).rule = m.rule := by
        cases tk <;> first | exact ⟨rfl, rfl⟩ | exact absurd rfl ha
      refine ⟨by rw [show (actAt S (m, i) ⟨tk, arg⟩).1 = Spec.act S m ⟨tk, arg⟩ from rfl, e3.1]; exact h1, fun hp => ?_⟩
      rw [show (actAt S (m, i) ⟨tk, arg⟩).1 = Spec.act S m ⟨tk, arg⟩ from rfl, e3.1] at hp
      exact ⟨e3.2.trans (h2 hp).1, e2.trans (h2 hp).2⟩

theorem Onward.acts {q : Int} (h0 : 0 ≤ q) (h5 : q ≤ 5) {j : Nat} (as : List PAct) :
    ∀ {k : Nat} {x : Mach K × Nat}, Onward q j k x → (∀ a ∈ as, 4 ≤ q → a.tk = .allow → ¬ Unquoted a.arg b!"request") →
    Onward q j (if as.any fun a => a.tk = .skip then j + 2 else k) (as.foldl (actAt S) x) := by
  induction as with
  | nil => intro k x h _; exact h
  | cons a as ih =>
    intro k x h hret
    have := ih (h.act (S := S) h0 h5 (hret a List.mem_cons_self)) fun a ha => hret a (List.mem_cons_of_mem _ ha)
    have e : (if (a :: as).any (fun a => decide (a.tk = .skip)) then j + 2 else k) =
        if as.any (fun a => decide (a.tk = .skip)) then j + 2 else if a.tk = .skip then j + 2 else k := by
      rw [List.any_cons, if_or]; simp only [decide_eq_true_eq]
    rw [e]; exact this

theorem Onward.fire {q : Int} (h0 : 0 ≤ q) (h5 : q ≤ 5) {j : Nat} (c : List PRule) :
    ∀ {k : Nat} {x : Mach K × Nat}, Onward q j k x → (∀ p ∈ c, ∀ a ∈ p.acts.action, 4 ≤ q → a.tk = .allow → ¬ Unquoted a.arg b!"request") →
    Onward q j (if skips c then j + 2 else k) (fireAt S x c) := by
  induction c with
  | nil => intro k x h _; exact h
  | cons p c ih =>
    intro k x h hret
    have h1 := h.acts (S := S) h0 h5 (inOrder p.acts.action) fun a ha => hret p List.mem_cons_self a (mem_inOrder ha)
    rw [inOrder_skip] at h1
    have h2 := ih h1 fun p hp => hret p (List.mem_cons_of_mem _ hp)
    have e : (if skips (p :: c) then j + 2 else k) =
        if skips c then j + 2 else if p.acts.action.any (fun a => decide (a.tk = .skip)) then j + 2 else k := if_or _ _ _ _
    rw [e]; exact h2

theorem fireAt_fire (x : Mach K × Nat) (c : List PRule) : (fireAt S x c).1 = fire S x.1 c := by
  have acts : ∀ (as : List PAct) (x : Mach K × Nat), (as.foldl (actAt S) x).1 = as.foldl (Spec.act S) x.1 := by
    intro as
    induction as with
    | nil => intro x; rfl
    | cons a as ih => intro x; rw [List.foldl_cons, List.foldl_cons, ih]; rfl
  induction c generalizing x with
  | nil => rfl
  | cons p c ih =>
    show (fireAt S ((inOrder p.acts.action).foldl (actAt S) x) c).1 = Spec.fire S ((inOrder p.acts.action).foldl (Spec.act S) x.1) c
    rw [ih, acts]

theorem skip_walk (q : Int) (i : Nat) (cs : List (List PRule)) (m : Mach K) : walk S q i true cs m = walk S q (i + 1) false cs.tail m := by
  cases cs <;> rfl

/-- The walk of the simple machine. -/
theorem walk_walks {q : Int} (h0 : 0 ≤ q) (h5 : q ≤ 5) {cs : List (List PRule)}
    (hret : ∀ c ∈ cs, ∀ p ∈ c, ∀ a ∈ p.acts.action, 4 ≤ q → a.tk = .allow → ¬ Unquoted a.arg b!"request") :
    ∀ (k : Nat) {j : Nat} {m : Mach K}, cs.length ≤ j + k → m.phase = q → Walks S q cs j m (walk S q j false (cs.drop j) m) := by
  intro k
  induction k with
  | zero =>
    intro j m hk _
    rw [List.drop_eq_nil_of_le (by omega)]
    exact .over (by omega)
  | succ k ih =>
    intro j m hk hm
    cases hc : cs[j]? with
    | none =>
      have := List.getElem?_eq_none_iff.1 hc
      rw [List.drop_eq_nil_of_le this]
      exact .over this
    | some c =>
      have hlt : j < cs.length := by
        rcases Nat.lt_or_ge j cs.length with h | h
        · exact h
        · rw [List.getElem?_eq_none h] at hc; cases hc
      have hdrop : cs.drop j = c :: cs.drop (j + 1) := by
        rw [List.drop_eq_getElem_cons hlt]
        have := List.getElem?_eq_getElem hlt
        rw [hc] at this
        simp only [Option.some.injEq] at this
        rw [this]
      rw [hdrop]
      simp only [walk]
      by_cases hh : ∀ p ∈ c, S.holds m.known p
      · rw [if_pos hh]
        have he : evalAt S j c m = fireAt S ({ m with rule := (j : Int) }, j + 1) c := by rw [evalAt, if_pos hh]
        have hon := Onward.fire (S := S) h0 h5 c (j := j) (k := j + 1) (x := ({ m with rule := (j : Int) }, j + 1))
          ⟨by rw [show ({ m with rule := (j : Int) } : Mach K).phase = m.phase from rfl, hm]; exact Int.le_refl _, fun _ => ⟨rfl, rfl⟩⟩
          (hret c (List.mem_of_getElem? hc))
        rw [← he] at hon
        have hf : fire S { m with rule := (j : Int) } c = (evalAt S j c m).1 := by rw [he, fireAt_fire]
        rw [hf]
        by_cases hstop : (evalAt S j c m).1.verdict.disruptive = true ∨ (evalAt S j c m).1.phase ≠ q
        · rw [if_pos hstop]; exact .stop hc hstop
        · rw [if_neg hstop]
          have hph : (evalAt S j c m).1.phase = q := by
            rcases Int.lt_trichotomy (evalAt S j c m).1.phase q with h | h | h
            · exact absurd (.inr (by omega)) hstop
            · exact h
            · exact absurd (.inr (by omega)) hstop
          refine .go hc hstop ?_
          obtain ⟨_, hn⟩ := hon.2 hph
          rw [hn]
          cases hsk : skips c with
          | true =>
            rw [if_pos rfl, skip_walk, List.tail_drop]
            exact ih (by omega) hph
          | false =>
            rw [if_neg (by simp)]
            exact ih (by omega) hph
      · rw [if_neg hh]
        have he : evalAt S j c m = ({ m with rule := (j : Int) }, j + 1) := by rw [evalAt, if_neg hh]
        have hp' : ({ m with rule := (j : Int) } : Mach K).phase = q := hm
        by_cases hd : m.verdict.disruptive = true
        · rw [if_pos hd]
          have := Walks.stop (S := S) (q := q) (m := m) hc (.inl (by rw [he]; exact hd))
          rwa [he] at this
        · rw [if_neg hd]
          refine .go hc (by rw [he]; exact fun h' => h'.elim hd fun h' => h' hp') ?_
          rw [he]
          exact ih (by omega) hp'

/-- On a text with no `allow:request` in a response phase, every walk ends where the simple machine ends. -/
theorem callOr_call {chains : List (List PRule)} (h5 : ∀ c ∈ chains, chainPhase c ≤ 5) (hret : NoReturn chains) {m : Mach K} (hm : 0 ≤ m.phase) (op : Op) :
    callOr S chains m op = some (call S chains m op) := by
  simp only [callOr]
  cases hq : phaseOf op with
  | none => rfl
  | some q =>
    simp only
    by_cases hle : q ≤ m.phase ∨ m.aborted = true
    · rw [if_pos hle]
    · rw [if_neg hle]
      have h1 : ¬ q ≤ m.phase := fun h => hle (.inl h)
      have h2 : ¬ m.aborted = true := fun h => hle (.inr h)
      have hw : Walks S q (chains.filter fun c => chainPhase c = q) 0 (goto q { m with known := S.learn m.known op })
          (walk S q 0 false (chains.filter fun c => chainPhase c = q) (goto q { m with known := S.learn m.known op })) := by
        by_cases hemp : (chains.filter fun c => chainPhase c = q) = []
        · rw [hemp]; exact .over (Nat.zero_le _)
        · obtain ⟨c0, hc0⟩ := List.exists_mem_of_ne_nil _ hemp
          obtain ⟨hc0, hq0⟩ := List.mem_filter.1 hc0
          have hq0 : chainPhase c0 = q := by simpa using hq0
          have := h5 c0 hc0
          refine walk_walks (S := S) (q := q) (by omega) (by omega) ?_ _ (Nat.le_of_eq (by rw [Nat.zero_add])) ?_
          · intro c hcm p hp a ha h4
            obtain ⟨hcm, hcq⟩ := List.mem_filter.1 hcm
            have hcq : chainPhase c = q := by simpa using hcq
            exact hret c hcm (by omega) p hp a ha
          · show max 0 (min q 7) = q
            omega
      rw [endOf_some hw]
      simp only [Option.map_some, call, hq]
      rw [if_neg h1, if_neg h2]

/-- The phase of the machine stays in range. -/
theorem act_low {m : Mach K} (h : 0 ≤ m.phase) (a : PAct) : 0 ≤ (Spec.act S m a).phase := by
  have hg : ∀ p, 0 ≤ (goto p m).phase := fun p => by show 0 ≤ max 0 (min p 7); omega
  obtain ⟨tk, arg⟩ := a
  cases tk <;> first | exact h | skip
  simp only [Spec.act]
  split
  · exact hg _
  · split
    · exact hg _
    · split
      · exact hg _
      · exact h

theorem fire_low {m : Mach K} (h : 0 ≤ m.phase) (c : List PRule) : 0 ≤ (fire S m c).phase := by
  have acts : ∀ (as : List PAct) (m : Mach K), 0 ≤ m.phase → 0 ≤ (as.foldl (Spec.act S) m).phase := by
    intro as
    induction as with
    | nil => intro m h; exact h
    | cons a as ih => intro m h; exact ih _ (act_low h a)
  induction c generalizing m with
  | nil => exact h
  | cons p c ih => exact ih (acts _ _ h)

theorem walk_low {q : Int} {cs : List (List PRule)} : ∀ {i : Nat} {b : Bool} {m : Mach K}, 0 ≤ m.phase → 0 ≤ (walk S q i b cs m).phase := by
  induction cs with
  | nil => intro i b m h; cases b <;> exact h
  | cons c cs ih =>
    intro i b m h
    cases b with
    | true => exact ih h
    | false =>
      simp only [walk]
      have h' : 0 ≤ ({ m with rule := (i : Int) } : Mach K).phase := h
      split
      · split
        · exact fire_low h' c
        · exact ih (fire_low h' c)
      · split
        · exact h'
        · exact ih h'

theorem call_low {chains : List (List PRule)} {m : Mach K} (h : 0 ≤ m.phase) (op : Op) : 0 ≤ (call S chains m op).1.phase := by
  have hg : ∀ p (m : Mach K), 0 ≤ (goto p m).phase := fun p m => by show 0 ≤ max 0 (min p 7); omega
  unfold call
  cases op <;> simp only [phaseOf] <;> first
    | exact h
    | exact hg _ _
    | (split <;> exact h)
    | (split
       · exact h
       · split
         · exact hg _ _
         · exact walk_low (hg _ _))

/-- Such a text never hangs, and its machine is the simple one. -/
theorem runOr_run {chains : List (List PRule)} (h5 : ∀ c ∈ chains, chainPhase c ≤ 5) (hret : NoReturn chains) (ops : List Op) :
    ∀ {m : Mach K}, 0 ≤ m.phase → runOr S chains m ops = some (run S chains m ops) := by
  induction ops with
  | nil => intro m _; rfl
  | cons op ops ih =>
    intro m hm
    simp only [runOr, callOr_call h5 hret hm op, Spec.run]
    rw [ih (call_low hm op)]

end

/-- C92.  Load any text of well-formed directives whose variables do not read a body and
make any calls in any order.  If the walk over each phase ends on the reference machine,
all calls return, without more turns of a loop than there are chains in the text (and two), and the
verdicts shown are those of the machine; if some walk does not end, the call never
returns. -/
theorem C92_exact {lib : Lib} {vo : VarOrd} {ord : IterOrd} {text : Bytes} {dirs : List PDir} (ht : Program text dirs)
    (hok : ∀ d ∈ dirs, DirOk lib d) (hv : ∀ p ∈ rulesIn dirs, ∀ v ∈ p.vars, readsBody v.tk = false) :
    ∃ set, DireSet.addSecLangString lib vo [] text = .ok (set, none) ∧
      ∀ ops n, (chainsOf (rulesIn dirs)).length + 2 ≤ n → match runOr (toldSight lib) (chainsOf (rulesIn dirs)) { known := {} } ops with
        | some (_, is) => ∃ t' os tr,
          (set.execute newEngine).newTransaction.steps ((set.execute newEngine).env lib ord) (set.execute newEngine).ruleSet n ops = .ok (t', os, tr) ∧
          shown os = is
        | none => (set.execute newEngine).newTransaction.steps ((set.execute newEngine).env lib ord) (set.execute newEngine).ruleSet n ops = .fuel := by
  obtain ⟨ds, hds, hload, hcar⟩ := loaded_carried (vo := vo) ht hok
  refine ⟨group ds, hload, fun ops n hn => ?_⟩
  have hlim : 0 ≤ (DireSet.execute (group ds) newEngine).limits.requestBodyInMem ∧ 0 ≤ (DireSet.execute (group ds) newEngine).limits.responseBody := by
    rw [(C58_switches (group ds) newEngine).2.1]
    simp [newEngine, newDefaultLimits]
  obtain ⟨k1, k2⟩ := steps_or (env := (DireSet.execute (group ds) newEngine).env lib ord)
    (V := toldView _ (DireSet.execute (group ds) newEngine).limits) (S := toldSight lib) (h := []) (m := { known := {} })
    (t := (DireSet.execute (group ds) newEngine).newTransaction) (n := n) (ops := ops)
    ⟨rfl, fun k p => .rfl⟩ hcar (fun c hcm _ p hp => hv p (mem_chainsOf hcm hp)) hn
    (fun a op b _ => told_follows _ hlim.1 hlim.2 _ _) {
      know := rfl, fine := ⟨Buf.Lim.new _ _, Buf.Lim.new _ _⟩, phase := rfl, verdict := rfl, chosen := rfl, aborted := rfl
      low := Int.le_refl 0
      high := by show (0 : Int) ≤ 7; omega }
  cases hr : runOr (toldSight lib) (chainsOf (rulesIn dirs)) { known := {} } ops with
  | none => exact k2 hr
  | some x =>
    obtain ⟨t', os, tr, g1, _, g3⟩ := k1 x.1 x.2 hr
    exact ⟨t', os, tr, g1, g3⟩

/-! ### An example -/

/-- PUT goes back to phase 4 and skips on; GET goes back to it. -/
def backText : Bytes := b!"SecRule REQUEST_METHOD \"@rx PUT\" \"id:1,phase:4,allow:request,skip:1\"\nSecRule REQUEST_METHOD \"@rx GET\" \"id:2,phase:4,allow:request\"\n"

/-- A rule on the method in phase 4. -/
def backRule (id : Int) (meth : Bytes) (as : List PAct) : PRule :=
  { methodIs id false meth as with acts := { id := id, phase := 4, action := as } }

def backRules : List PRule := [backRule 1 b!"PUT" [⟨.allow, b!"request"⟩, ⟨.skip, b!"1"⟩], backRule 2 b!"GET" [⟨.allow, b!"request"⟩]]

theorem backText_program : Program backText (backRules.map .rule) := (C53_exact id _ _).1 (by decide +kernel)

theorem back_dirOk : ∀ d ∈ backRules.map PDir.rule, DirOk lib d := by
  intro d hd
  simp only [backRules, List.map_cons, List.map_nil, List.mem_cons, List.not_mem_nil, or_false] at hd
  have go : ActOk ⟨.allow, b!"request"⟩ := .inl ⟨_, .allow (u := b!"request") ((trimQuote_iff _ _).1 (by decide))⟩
  rcases hd with rfl | rfl <;> refine ⟨(methodIs_ok (id := 0) (not := false) (meth := []) (as := []) (by simp)).vars, (methodIs_ok (id := 0) (not := false) (as := []) (by simp)).op, fun a ha => ?_⟩ <;>
    simp only [backRule, List.mem_cons, List.not_mem_nil, or_false] at ha
  · rcases ha with rfl | rfl
    · exact go
    · exact .inl ⟨_, .skip⟩
  · rw [ha]; exact go

theorem back_holds {id : Int} {meth : Bytes} {as : List PAct} {k : Facts} : (toldSight lib).holds k (backRule id meth as) ↔ k.method = meth :=
  (methodIs_holds (id := id) (not := false) (as := as)).trans (by simp)

theorem back_evals {k : Facts} {r : Int} :
    evalAt (toldSight lib) 0 [backRule 1 b!"PUT" [⟨.allow, b!"request"⟩, ⟨.skip, b!"1"⟩]] { known := k, phase := 4, rule := r } =
      (if k.method = b!"PUT" then ({ known := k, phase := 4, rule := -1 }, 1) else ({ known := k, phase := 4, rule := 0 }, 1)) ∧
    evalAt (toldSight lib) 1 [backRule 2 b!"GET" [⟨.allow, b!"request"⟩]] { known := k, phase := 4, rule := r } =
      (if k.method = b!"GET" then ({ known := k, phase := 4, rule := -1 }, 0) else ({ known := k, phase := 4, rule := 1 }, 2)) := by
  have n1 : ¬ Unquoted b!"request" [] := fun h => absurd ((trimQuote_iff _ _).2 h) (by decide)
  have n2 : ¬ Unquoted b!"request" b!"phase" := fun h => absurd ((trimQuote_iff _ _).2 h) (by decide)
  have n3 : Unquoted b!"request" b!"request" := (trimQuote_iff _ _).1 (by decide)
  have g : Goes b!"request" := .inr (.inr n3)
  have o1 : inOrder [⟨.allow, b!"request"⟩, ⟨.skip, b!"1"⟩] = [⟨.allow, b!"request"⟩, ⟨.skip, b!"1"⟩] := rfl
  have o2 : inOrder [⟨.allow, b!"request"⟩] = [⟨.allow, b!"request"⟩] := rfl
  have a1 : ∀ x : Mach Facts × Nat, actAt (toldSight lib) x ⟨.allow, b!"request"⟩ = (goto 4 x.1, 0) := by
    intro x
    simp only [actAt, Spec.act]
    rw [if_neg n1, if_neg n2, if_pos n3, if_neg (by decide), if_pos ⟨rfl, g⟩]
  have a2 : ∀ x : Mach Facts × Nat, actAt (toldSight lib) x ⟨.skip, b!"1"⟩ = (x.1, (x.1.rule + 2).toNat) := fun _ => rfl
  constructor
  · simp only [evalAt, List.mem_singleton, forall_eq, back_holds]
    split
    · simp only [fireAt, backRule, List.foldl_cons, List.foldl_nil, o1, a1, a2]; rfl
    · rfl
  · simp only [evalAt, List.mem_singleton, forall_eq, back_holds]
    split
    · simp only [fireAt, backRule, List.foldl_cons, List.foldl_nil, o2, a1]; rfl
    · rfl

/-- With method GET the walk over phase 4 goes on for ever. -/
theorem back_endless {j : Nat} {m m' : Mach Facts} (hw : Walks (toldSight lib) 4 (backRules.map fun p => [p]) j m m') :
    j < 2 → ∀ k r, m = { known := k, phase := 4, rule := r } → k.method = b!"GET" → False := by
  induction hw with
  | over h => intro hj; exact absurd h (by simp only [backRules, List.map_cons, List.map_nil, List.length_cons, List.length_nil]; omega)
  | @stop j m c hc hs =>
    intro hj k r hm hk
    subst hm
    obtain ⟨e0, e1⟩ := back_evals (k := k) (r := r)
    rw [if_neg (by rw [hk]; decide)] at e0
    rw [if_pos hk] at e1
    have : j = 0 ∨ j = 1 := by omega
    rcases this with rfl | rfl
    · cases hc; rw [e0] at hs; simp at hs
    · cases hc; rw [e1] at hs; simp at hs
  | @go j m c m' hc hs _ ih =>
    intro hj k r hm hk
    subst hm
    obtain ⟨e0, e1⟩ := back_evals (k := k) (r := r)
    rw [if_neg (by rw [hk]; decide)] at e0
    rw [if_pos hk] at e1
    have : j = 0 ∨ j = 1 := by omega
    rcases this with rfl | rfl
    · cases hc; rw [e0] at ih; exact ih (show 1 < 2 by decide) k 0 rfl hk
    · cases hc; rw [e1] at ih; exact ih (show 0 < 2 by decide) k (-1) rfl hk

/-- With any other method it ends. -/
theorem back_ends {k : Facts} (hk : k.method ≠ b!"GET") :
    Walks (toldSight lib) 4 (backRules.map fun p => [p]) 0 { known := k, phase := 4 } { known := k, phase := 4, rule := 1 } := by
  have last : ∀ r, Walks (toldSight lib) 4 (backRules.map fun p => [p]) 1 { known := k, phase := 4, rule := r } { known := k, phase := 4, rule := 1 } := by
    intro r
    have e := (back_evals (k := k) (r := r)).2
    rw [if_neg hk] at e
    refine .go (c := [backRule 2 b!"GET" [⟨.allow, b!"request"⟩]]) rfl (by rw [e]; simp) ?_
    rw [e]
    exact .over (Nat.le_refl _)
  have e := (back_evals (k := k) (r := -1)).1
  have h2 : ∃ r, evalAt (toldSight lib) 0 [backRule 1 b!"PUT" [⟨.allow, b!"request"⟩, ⟨.skip, b!"1"⟩]] { known := k, phase := 4 } =
      ({ known := k, phase := 4, rule := r }, 1) := by
    by_cases hp : k.method = b!"PUT"
    · rw [if_pos hp] at e; exact ⟨_, e⟩
    · rw [if_neg hp] at e; exact ⟨_, e⟩
  obtain ⟨r, e⟩ := h2
  refine .go (c := [backRule 1 b!"PUT" [⟨.allow, b!"request"⟩, ⟨.skip, b!"1"⟩]]) rfl (by rw [e]; simp) ?_
  rw [e]
  exact last r

/-- The response headers of a GET request are never done with; those of any other are. -/
example (m : Bytes) : ∃ set, DireSet.addSecLangString lib varOrd [] backText = .ok (set, none) ∧ ∀ n ≥ 4,
    if m = b!"GET" then
      (set.execute newEngine).newTransaction.steps ((set.execute newEngine).env lib Sample.ord) (set.execute newEngine).ruleSet n
        [.processRequestURL none m [], .processResponseHeaders 200 [] none, .result] = .fuel
    else ∃ t' os tr, (set.execute newEngine).newTransaction.steps ((set.execute newEngine).env lib Sample.ord) (set.execute newEngine).ruleSet n
        [.processRequestURL none m [], .processResponseHeaders 200 [] none, .result] = .ok (t', os, tr) ∧ shown os = [{ status := 200 }] := by
  obtain ⟨set, h1, h2⟩ := C92_exact (lib := lib) (vo := varOrd) (ord := Sample.ord) backText_program
    back_dirOk
    (by
      intro p hp v hv
      have hp : p ∈ backRules := hp
      simp only [backRules, List.mem_cons, List.not_mem_nil, or_false] at hp
      rcases hp with rfl | rfl <;> rw [List.mem_singleton.1 hv] <;> rfl)
  refine ⟨set, h1, fun n hn => ?_⟩
  have h2 := h2 [.processRequestURL none m [], .processResponseHeaders 200 [] none, .result] n hn
  have c1 : callOr (toldSight lib) (backRules.map fun p => [p]) { known := {} } (.processRequestURL none m []) =
    some ({ known := { method := m } }, []) := rfl
  have c2 : callOr (toldSight lib) (backRules.map fun p => [p]) { known := { method := m } } (.processResponseHeaders 200 [] none) =
      (endOf (toldSight lib) 4 (backRules.map fun p => [p]) { known := told { method := m } (.processResponseHeaders 200 [] none), phase := 4 }).map fun m => (m, []) := by
    simp only [callOr, phaseOf]
    rw [if_neg (by simp)]
    rfl
  rw [show chainsOf (rulesIn (backRules.map PDir.rule)) = backRules.map fun p => [p] from rfl] at h2
  simp only [runOr, c1, c2] at h2
  by_cases hm : m = b!"GET"
  · rw [if_pos hm]
    rw [endOf_none (fun ⟨m', h⟩ => back_endless h (by decide) _ _ rfl hm)] at h2
    exact h2
  · rw [if_neg hm]
    rw [endOf_some (back_ends hm)] at h2
    exact h2

end Verif
