import Verif.Props.HostRules
/-!
C99: rules are shared objects.  What is never read of a rule once it is in a rule set, and
what is read anew at every call.
-/
namespace Verif
open Sample Spec

namespace Spec

/-- Rules with the same variables, transformations, operator and actions. -/
structure LikeAlone (r r' : Rule) : Prop where
  vars : r'.vars = r.vars
  trans : r'.trans = r.trans
  op : r'.op = r.op
  not : r'.not = r.not
  actions : r'.actions = r.actions

/-- And so their sub-rules, one by one. -/
structure LikeRule (r r' : Rule) : Prop where
  alone : LikeAlone r r'
  subs : Pairs LikeAlone r.subRules r'.subRules

/-- Rule sets with such rules. -/
structure LikeRules (rs rs' : RuleSet) : Prop where
  rules : ∀ q, Pairs LikeRule (rs.phases q) (rs'.phases q)
  defaults : rs'.defaultActions = rs.defaultActions

end Spec

theorem Spec.LikeRules.length {rs rs' : RuleSet} (h : LikeRules rs rs') (q : Int) : (rs'.phases q).length = (rs.phases q).length := by
  have : ∀ {l l' : List Rule}, Pairs LikeRule l l' → l'.length = l.length := by
    intro l l' hp
    induction hp with
    | nil => rfl
    | cons _ _ ih => rw [List.length_cons, List.length_cons, ih]
  exact this (h.rules q)

theorem Spec.LikeAlone.matches {r r' : Rule} (h : LikeAlone r r') (env : Env) (t : Tx) : r'.matches env t = r.matches env t := by
  have tv : ∀ (v : Var) (t : Tx), r'.transformVariable env v t = r.transformVariable env v t := by
    intro v t
    simp only [Rule.transformVariable]
    congr
    funext x
    have : r'.transformString env x.2 = r.transformString env x.2 := funext fun s => by rw [Rule.transformString, Rule.transformString, h.trans]
    rw [this]
  have fv : ∀ (xs : List Var) (t : Tx), fetchVars env r' xs t = fetchVars env r xs t := by
    intro xs
    induction xs with
    | nil => intro t; rfl
    | cons x xs ih => intro t; simp only [fetchVars, tv, ih]
  have loop : ∀ (out : List Bytes) (t : Tx), matchLoop r' t out = matchLoop r t out := by
    intro out
    induction out with
    | nil => intro t; rfl
    | cons v out ih => intro t; simp only [matchLoop, h.op, h.not, ih]
  simp only [Rule.matches, fv, loop, h.vars]

section
variable {rs rs' : RuleSet} (h : LikeRules rs rs')
include h

theorem like_action : ∀ (n : Nat) (a : Action) (t : Tx), Action.run rs' n a t = Action.run rs n a t := by
  have skip : ∀ t, skipDo rs' t = skipDo rs t := fun t => by rw [skipDo, skipDo, h.length]
  intro n
  induction n with
  | zero => intro a t; cases a <;> simp only [Action.run, skip]
  | succ n ih =>
    intro a t
    have : Action.run rs' n = Action.run rs n := funext fun a => funext fun t => ih a t
    cases a <;> simp only [Action.run, skip, this, h.defaults]

theorem like_run {r r' : Rule} (hr : LikeRule r r') (env : Env) (n : Nat) (t : Tx) : Rule.run env rs' n r' t = Rule.run env rs n r t := by
  have act : Action.run rs' n = Action.run rs n := funext fun a => funext fun t => like_action h n a t
  have subs : ∀ {ss ss' : List Rule}, Pairs LikeAlone ss ss' → (∀ t, matchSubs env ss' t = matchSubs env ss t) ∧ ∀ t, subActions rs' n ss' t = subActions rs n ss t := by
    intro ss ss' hs
    induction hs with
    | nil => exact ⟨fun _ => rfl, fun _ => rfl⟩
    | cons hx _ ih =>
      refine ⟨fun t => ?_, fun t => ?_⟩
      · simp only [matchSubs, hx.matches, ih.1]
      · simp only [subActions, hx.actions, act, ih.2]
  obtain ⟨s1, s2⟩ := subs hr.subs
  simp only [Rule.run, hr.alone.matches, s1, s2, hr.alone.actions, act]

theorem like_process (env : Env) (n : Nat) (t : Tx) (q o : Int) : rs'.process env n t q o = rs.process env n t q o := by
  have : ∀ {l l' : List Rule}, Pairs LikeRule l l' → ∀ i : Nat, (l[i]? = none ∧ l'[i]? = none) ∨ ∃ r r', l[i]? = some r ∧ l'[i]? = some r' ∧ LikeRule r r' := by
    intro l l' hp
    induction hp with
    | nil => intro i; exact .inl ⟨rfl, rfl⟩
    | cons hx _ ih =>
      intro i
      cases i with
      | zero => exact .inr ⟨_, _, rfl, rfl, hx⟩
      | succ i => exact ih i
  simp only [RuleSet.process, h.length]
  rcases this (h.rules q) o.toNat with ⟨h1, h2⟩ | ⟨r, r', h1, h2, h3⟩
  · rw [h1, h2]
  · rw [h1, h2]; simp only [like_run h h3]

theorem like_loop (env : Env) (q : Int) : ∀ (n : Nat) (next : Int) (t : Tx), processLoop env rs' q n next t = processLoop env rs q n next t := by
  intro n
  induction n with
  | zero => intro next t; rfl
  | succ n ih => intro next t; simp only [processLoop, like_process h, h.length, ih]

theorem like_phase (env : Env) (n : Nat) (q : Int) (t : Tx) : processPhase env rs' n q t = processPhase env rs n q t := by
  simp only [processPhase, processPhase', h.length, like_loop h]

theorem like_step (env : Env) (n : Nat) (t : Tx) (op : Op) : t.step env rs' n op = t.step env rs n op := by
  cases op <;> simp only [Tx.step, like_phase h, h.length]

end

/-- What is below the sub-rules of a rule is never read. -/
theorem run_cut (env : Env) (rs : RuleSet) (n : Nat) (r : Rule) (f : Rule → List Rule) (t : Tx) :
    Rule.run env rs n { r with subRules := r.subRules.map fun s => { s with subRules := f s } } t = Rule.run env rs n r t := by
  have all : ∀ {α : Type} {R : α → α → Prop}, (∀ a, R a a) → ∀ l, Pairs R l l := by
    intro α R hR l
    induction l with
    | nil => exact .nil
    | cons a l ih => exact .cons (hR a) ih
  have one : ∀ r, LikeAlone r r := fun r => ⟨rfl, rfl, rfl, rfl, rfl⟩
  have self : LikeRules rs rs := ⟨fun q => all (fun r => ⟨one r, all one _⟩) _, rfl⟩
  refine like_run self (r := r) (r' := { r with subRules := r.subRules.map fun s => { s with subRules := f s } }) ⟨⟨rfl, rfl, rfl, rfl, rfl⟩, ?_⟩ env n t
  show Pairs _ r.subRules (r.subRules.map _)
  generalize r.subRules = ss
  induction ss with
  | nil => exact .nil
  | cons s ss ih => exact .cons ⟨rfl, rfl, rfl, rfl, rfl⟩ ih

/-- C99.  The numbers, phases and metadata of the rules in a rule set, and what is below
their sub-rules, are never read: for every sequence of calls on a transaction. -/
theorem C99_inert (env : Env) {rs rs' : RuleSet} (h : LikeRules rs rs') (n : Nat) (ops : List Op) : ∀ t : Tx,
    t.steps env rs' n ops = t.steps env rs n ops := by
  induction ops with
  | nil => intro t; rfl
  | cons op ops ih => intro t; simp only [Tx.steps, like_step h, ih]

/-! ### The phase of a rule after it was added -/

/-- The rule with another phase. -/
def RuleObj.moved (q : Int) (o : RuleObj) : RuleObj := { o with phase := q }

/-- The same objects, but for the phase of rule `r`. -/
structure Moved (r : Nat) (s s' : Shop) : Prop where
  bases : s'.bases = s.bases
  vars : s'.vars = s.vars
  length : s'.objs.length = s.objs.length
  objs : ∃ q, ∀ i, s'.objs[i]? = (s.objs[i]?).map fun o => if i = r then o.moved q else o

theorem Moved.get {r : Nat} {s s' : Shop} (h : Moved r s s') (i : Nat) : ∃ q, s'.objs[i]? = (s.objs[i]?).map (RuleObj.moved q) ∨ s'.objs[i]? = s.objs[i]? := by
  obtain ⟨q, hq⟩ := h.objs
  refine ⟨q, ?_⟩
  by_cases e : i = r
  · left; rw [hq]; simp only [e, if_true]
  · right; rw [hq]; simp only [e, if_false]; exact Option.map_id'

theorem Moved.alone {r : Nat} {s s' : Shop} (h : Moved r s s') (o : RuleObj) (q : Int) : LikeAlone (s.alone o) (s'.alone (o.moved q)) ∧ LikeAlone (s.alone o) (s'.alone o) := by
  have : s'.var = s.var := funext fun v => by rw [Shop.var, Shop.var, h.bases]
  constructor <;> refine ⟨?_, rfl, rfl, rfl, rfl⟩
  · show o.vars.filterMap s'.var = o.vars.filterMap s.var
    rw [this]
  · show o.vars.filterMap s'.var = o.vars.filterMap s.var
    rw [this]

theorem Moved.rule {r : Nat} {s s' : Shop} (h : Moved r s s') (o : RuleObj) (q : Int) : LikeRule (s.rule o) (s'.rule (o.moved q)) ∧ LikeRule (s.rule o) (s'.rule o) := by
  have subs : Pairs LikeAlone (o.subs.filterMap fun i => (s.objs[i]?).map s.alone) (o.subs.filterMap fun i => (s'.objs[i]?).map s'.alone) := by
    refine pairs_filterMap (fun i => ?_) o.subs
    obtain ⟨q, hq⟩ := h.get i
    cases ho : s.objs[i]? with
    | none => rw [ho] at hq; exact .inl ⟨rfl, by rcases hq with e | e <;> rw [e] <;> rfl⟩
    | some x =>
      rw [ho] at hq
      rcases hq with e | e
      · exact .inr ⟨_, _, rfl, by rw [e]; rfl, (h.alone x q).1⟩
      · exact .inr ⟨_, _, rfl, by rw [e]; rfl, (h.alone x q).2⟩
  have k := h.alone o q
  exact ⟨⟨⟨k.1.1, k.1.2, k.1.3, k.1.4, k.1.5⟩, subs⟩, ⟨⟨k.2.1, k.2.2, k.2.3, k.2.4, k.2.5⟩, subs⟩⟩

theorem Moved.rules {r : Nat} {s s' : Shop} (h : Moved r s s') (k : Rack) : LikeRules (k.ruleSet s) (k.ruleSet s') := by
  refine ⟨fun p => ?_, rfl⟩
  refine pairs_filterMap (fun e => ?_) _
  cases he : e.2 with
  | loaded x =>
    refine .inr ⟨x, x, rfl, rfl, ⟨rfl, rfl, rfl, rfl, rfl⟩, ?_⟩
    generalize x.subRules = l
    induction l with
    | nil => exact .nil
    | cons a l ih => exact .cons ⟨rfl, rfl, rfl, rfl, rfl⟩ ih
  | obj i =>
    simp only [Shop.stored]
    obtain ⟨q, hq⟩ := h.get i
    cases ho : s.objs[i]? with
    | none => rw [ho] at hq; exact .inl ⟨rfl, by rcases hq with e | e <;> rw [e] <;> rfl⟩
    | some x =>
      rw [ho] at hq
      rcases hq with e | e
      · exact .inr ⟨_, _, rfl, by rw [e]; rfl, (h.rule x q).1⟩
      · exact .inr ⟨_, _, rfl, by rw [e]; rfl, (h.rule x q).2⟩

/-- A change that has nothing to do with the phase. -/
theorem Moved.change {r : Nat} {s s' : Shop} (h : Moved r s s') (j : Nat) {f : RuleObj → RuleObj} (hf : ∀ q o, f (o.moved q) = (f o).moved q) :
    (s.change j f = .panic ∧ s'.change j f = .panic) ∨ ∃ t t' o, s.change j f = .ok (t, o) ∧ s'.change j f = .ok (t', o) ∧ Moved r t t' := by
  obtain ⟨q, hq⟩ := h.objs
  have hj := hq j
  simp only [Shop.change]
  cases ho : s.objs[j]? with
  | none => rw [ho, Option.map_none] at hj; rw [hj]; exact .inl ⟨rfl, rfl⟩
  | some o =>
    rw [ho, Option.map_some] at hj
    rw [hj]
    refine .inr ⟨_, _, _, rfl, rfl, h.bases, h.vars, by simp [h.length], q, fun i => ?_⟩
    have hlt : j < s.objs.length := by
      rcases Nat.lt_or_ge j s.objs.length with h | h
      · exact h
      · rw [List.getElem?_eq_none h] at ho; cases ho
    by_cases e : j = i
    · subst e
      simp only [List.getElem?_set, h.length, hlt, if_true, Option.map_some]
      by_cases hr : j = r
      · simp only [hr, if_true, hf]
      · simp only [hr, if_false]
    · simp only [List.getElem?_set, e, if_false]
      exact hq i

theorem Moved.act {r : Nat} {s s' : Shop} (h : Moved r s s') (lib : Lib) (x : ShopAct) :
    (s.act lib x = .panic ∧ s'.act lib x = .panic) ∨ ∃ t t' o, s.act lib x = .ok (t, o) ∧ s'.act lib x = .ok (t', o) ∧ Moved r t t' := by
  have sel : ∀ (v : Nat) (f : Var → Option Var),
      (s.select v f = .panic ∧ s'.select v f = .panic) ∨ ∃ t t' o, s.select v f = .ok (t, o) ∧ s'.select v f = .ok (t', o) ∧ Moved r t t' := by
    intro v f
    simp only [Shop.select, h.vars, h.bases]
    cases s.vars[v]? with
    | none => exact .inl ⟨rfl, rfl⟩
    | some y =>
      simp only
      cases s.bases[y.base]? with
      | none => exact .inl ⟨rfl, rfl⟩
      | some z =>
        simp only
        cases f z with
        | none => exact .inr ⟨_, _, _, rfl, rfl, h⟩
        | some z' => exact .inr ⟨_, _, _, rfl, rfl, rfl, rfl, h.length, h.objs⟩
  cases x with
  | newVar tk =>
    simp only [Shop.act, h.vars, h.bases]
    cases variableFactory tk with
    | none => exact .inl ⟨rfl, rfl⟩
    | some y => exact .inr ⟨_, _, _, rfl, rfl, rfl, rfl, h.length, h.objs⟩
  | newCount v =>
    simp only [Shop.act, h.vars]
    cases s.vars[v]? with
    | none => exact .inl ⟨rfl, rfl⟩
    | some y => exact .inr ⟨_, _, _, rfl, rfl, h.bases, rfl, h.length, h.objs⟩
  | incl v t => exact sel v _
  | excl v t => exact sel v _
  | newRule =>
    obtain ⟨q, hq⟩ := h.objs
    by_cases hlt : r < s.objs.length
    · refine .inr ⟨{ s with objs := s.objs ++ [{}] }, { s' with objs := s'.objs ++ [{}] }, _, rfl, by rw [Shop.act, h.length], h.bases, h.vars, by simp [h.length], q, fun i => ?_⟩
      simp only [List.getElem?_append, h.length]
      by_cases hi : i < s.objs.length
      · simp only [hi, if_true]; exact hq i
      · simp only [hi, if_false]
        cases e : ([{}] : List RuleObj)[i - s.objs.length]? with
        | none => rfl
        | some o =>
          have : i ≠ r := by omega
          simp only [Option.map_some, this, if_false]
    · have same : s'.objs = s.objs := by
        apply List.ext_getElem?
        intro i
        rw [hq i]
        by_cases hi : i = r
        · subst hi; rw [List.getElem?_eq_none (by omega)]; rfl
        · simp only [hi, if_false]; exact Option.map_id'
      refine .inr ⟨{ s with objs := s.objs ++ [{}] }, { s' with objs := s'.objs ++ [{}] }, _, rfl, by rw [Shop.act, h.length], h.bases, h.vars, by simp [h.length], 0, fun i => ?_⟩
      simp only [same]
      by_cases hi : i = r
      · subst hi
        simp only [List.getElem?_append, hlt, if_false]
        cases e : ([{}] : List RuleObj)[i - s.objs.length]? with
        | none => rfl
        | some o =>
          simp only [Option.map_some, if_true]
          rw [List.getElem?_cons] at e
          split at e
          · cases e; rfl
          · cases e
      · simp only [hi, if_false]; exact Option.map_id'.symm
  | phase j p =>
    by_cases e : j = r
    · subst e
      obtain ⟨q, hq⟩ := h.objs
      have hj := hq j
      simp only [Shop.act, Shop.change]
      cases ho : s.objs[j]? with
      | none => rw [ho, Option.map_none] at hj; rw [hj]; exact .inl ⟨rfl, rfl⟩
      | some o =>
        rw [ho, Option.map_some, if_pos rfl] at hj
        rw [hj]
        refine .inr ⟨_, _, _, rfl, rfl, h.bases, h.vars, by simp [h.length], p, fun i => ?_⟩
        have hlt : j < s.objs.length := by
          rcases Nat.lt_or_ge j s.objs.length with h | h
          · exact h
          · rw [List.getElem?_eq_none h] at ho; cases ho
        by_cases hi : j = i
        · subst hi
          simp only [List.getElem?_set, h.length, hlt, if_true, Option.map_some]
          rfl
        · simp only [List.getElem?_set, hi, if_false, hq i]
          have : i ≠ j := fun e => hi e.symm
          simp only [this, if_false]
    · obtain ⟨q, hq⟩ := h.objs
      have hj := hq j
      simp only [Shop.act, Shop.change]
      cases ho : s.objs[j]? with
      | none => rw [ho, Option.map_none] at hj; rw [hj]; exact .inl ⟨rfl, rfl⟩
      | some o =>
        rw [ho, Option.map_some, if_neg e] at hj
        rw [hj]
        refine .inr ⟨_, _, _, rfl, rfl, h.bases, h.vars, by simp [h.length], q, fun i => ?_⟩
        have hlt : j < s.objs.length := by
          rcases Nat.lt_or_ge j s.objs.length with h | h
          · exact h
          · rw [List.getElem?_eq_none h] at ho; cases ho
        by_cases hi : j = i
        · subst hi
          simp only [List.getElem?_set, h.length, hlt, if_true, Option.map_some, e, if_false]
        · simp only [List.getElem?_set, hi, if_false, hq i]
  | negate j b => exact h.change j fun _ _ => rfl
  | vars j a vs =>
    simp only [Shop.act, h.vars]
    split
    · exact .inl ⟨rfl, rfl⟩
    · exact h.change j fun _ _ => rfl
  | trans j a ts => exact h.change j fun _ _ => rfl
  | operator j tk arg =>
    simp only [Shop.act]
    rcases h.change j (f := fun o => { o with op := hostOperator lib tk arg }) (fun _ _ => rfl) with ⟨h1, h2⟩ | ⟨t, t', o, h1, h2, h3⟩
    · rw [h1, h2]; exact .inl ⟨rfl, rfl⟩
    · rw [h1, h2]; exact .inr ⟨t, t', _, rfl, rfl, h3⟩
  | noOperator j => exact h.change j fun _ _ => rfl
  | actions j a as => exact h.change j fun _ _ => rfl
  | subs j a rs =>
    simp only [Shop.act]
    have : (rs.any fun i => (s'.objs[i]?).isNone) = rs.any fun i => (s.objs[i]?).isNone := by
      congr
      funext i
      obtain ⟨q, hq⟩ := h.get i
      rcases hq with e | e <;> rw [e]
      cases s.objs[i]? <;> rfl
    rw [this]
    split
    · exact .inl ⟨rfl, rfl⟩
    · exact h.change j fun _ _ => rfl

theorem filterMap_eq {α β : Type} {f g : α → Option β} {l : List α} (h : ∀ a ∈ l, f a = g a) : l.filterMap f = l.filterMap g := by
  induction l with
  | nil => rfl
  | cons a l ih => rw [List.filterMap_cons, List.filterMap_cons, h a List.mem_cons_self, ih fun a ha => h a (List.mem_cons_of_mem _ ha)]

/-- One step of hosts that differ in the phase of a rule. -/
theorem moved_act {r : Nat} {w : Plant} {s : Shop} (h : Moved r w.shop s) (lib : Lib) (n : Nat) (a : Act) (ha : ∀ i rs, a = .addRules i rs → r ∉ rs) :
    (w.act lib n a = .panic ∧ ({ w with shop := s } : Plant).act lib n a = .panic) ∨ (w.act lib n a = .fuel ∧ ({ w with shop := s } : Plant).act lib n a = .fuel) ∨
    ∃ v s' o, w.act lib n a = .ok (v, o) ∧ ({ w with shop := s } : Plant).act lib n a = .ok ({ v with shop := s' }, o) ∧ Moved r v.shop s' := by
  have same : ∀ (x : Res (Plant × ActOut)) (y : Res (Plant × ActOut)),
      (y = x.bind fun v => .ok ({ v.1 with shop := s }, v.2)) → (∀ v, x = .ok v → v.1.shop = w.shop) →
      (x = .panic ∧ y = .panic) ∨ (x = .fuel ∧ y = .fuel) ∨ ∃ v s' o, x = .ok (v, o) ∧ y = .ok ({ v with shop := s' }, o) ∧ Moved r v.shop s' := by
    rintro x _ rfl hx
    cases x with
    | panic => exact .inl ⟨rfl, rfl⟩
    | fuel => exact .inr (.inl ⟨rfl, rfl⟩)
    | ok v => exact .inr (.inr ⟨v.1, s, v.2, rfl, rfl, by rw [hx v rfl]; exact h⟩)
  cases a with
  | shop x =>
    simp only [Plant.act]
    rcases h.act lib x with ⟨h1, h2⟩ | ⟨t, t', o, h1, h2, h3⟩
    · rw [h1, h2]; exact .inl ⟨rfl, rfl⟩
    · rw [h1, h2]; exact .inr (.inr ⟨_, _, _, rfl, rfl, h3⟩)
  | addRules a rs =>
    have e : (rs.filterMap fun i => (s.objs[i]?).map fun o => (o.phase, Stored.obj i)) = rs.filterMap fun i => (w.shop.objs[i]?).map fun o => (o.phase, Stored.obj i) := by
      have : ∀ i ∈ rs, s.objs[i]? = w.shop.objs[i]? := by
        obtain ⟨q, hq⟩ := h.objs
        intro i hi
        have : i ≠ r := fun e => ha a rs rfl (e ▸ hi)
        rw [hq i]
        simp only [this, if_false]
        exact Option.map_id'
      exact filterMap_eq fun i hi => by rw [this i hi]
    have e' : (rs.any fun i => (s.objs[i]?).isNone) = rs.any fun i => (w.shop.objs[i]?).isNone := by
      congr
      funext i
      obtain ⟨q, hq⟩ := h.get i
      rcases hq with e | e <;> rw [e]
      cases w.shop.objs[i]? <;> rfl
    simp only [Plant.act, e, e']
    cases w.rules[a]? with
    | none => exact .inl ⟨rfl, rfl⟩
    | some k =>
      simp only
      split
      · exact .inl ⟨rfl, rfl⟩
      · exact .inr (.inr ⟨_, s, _, rfl, rfl, h⟩)
  | call i ord op =>
    refine same _ _ ?_ ?_
    · simp only [Plant.act]
      cases w.txs[i]? with
      | none => rfl
      | some x =>
        obtain ⟨e, a, t⟩ := x
        simp only
        cases engineAt w.engines w.limits e with
        | none => rfl
        | some y =>
          cases w.rules[a]? with
          | none => rfl
          | some k =>
            simp only [like_step (h.rules k)]
            cases t.step { lib, ord, limits := y.2 } (k.ruleSet w.shop) n op <;> rfl
    · intro v hv
      simp only [Plant.act] at hv
      split at hv
      · cases hv
      · split at hv
        · obtain ⟨z, _, hz⟩ := Res.bind_eq_ok.1 hv
          cases hz; rfl
        · cases hv
  | newEngine => exact same _ _ rfl (by intro v hv; cases hv; rfl)
  | newSet => exact same _ _ rfl (by intro v hv; cases hv; rfl)
  | newLimits => exact same _ _ rfl (by intro v hv; cases hv; rfl)
  | newRules => exact same _ _ rfl (by intro v hv; cases hv; rfl)
  | add i vo text =>
    refine same _ _ ?_ ?_
    · simp only [Plant.act]
      cases w.sets[i]? with
      | none => rfl
      | some set => simp only; cases set.addSecLangString lib vo text <;> rfl
    · intro v hv
      simp only [Plant.act] at hv
      split at hv
      · cases hv
      · obtain ⟨z, _, hz⟩ := Res.bind_eq_ok.1 hv
        cases hz; rfl
  | newTransaction e b =>
    simp only [Plant.act, Plant.newTransaction]
    cases engineAt w.engines w.limits e with
    | none => exact .inl ⟨rfl, rfl⟩
    | some x => cases b <;> exact .inr (.inr ⟨_, s, _, rfl, rfl, h⟩)
  | newTransactionWith e a b =>
    cases e with
    | none => exact .inr (.inr ⟨_, s, _, rfl, rfl, h⟩)
    | some e =>
      simp only [Plant.act, Plant.newTransaction]
      cases engineAt w.engines w.limits e with
      | none => exact .inl ⟨rfl, rfl⟩
      | some x =>
        cases a with
        | none => exact .inr (.inr ⟨_, s, _, rfl, rfl, h⟩)
        | some a =>
          simp only
          cases w.rules[a]? with
          | none => exact .inl ⟨rfl, rfl⟩
          | some k => cases b <;> exact .inr (.inr ⟨_, s, _, rfl, rfl, h⟩)
  | body i resp op =>
    simp only [Plant.act]
    cases w.txs[i]? with
    | none => exact .inl ⟨rfl, rfl⟩
    | some x =>
      obtain ⟨e, a, t⟩ := x
      cases resp
      · simp only [Bool.false_eq_true, if_false]
        cases t.reqBody.call op with
        | panic => exact .inl ⟨rfl, rfl⟩
        | fuel => exact .inr (.inl ⟨rfl, rfl⟩)
        | ok y => exact .inr (.inr ⟨_, s, _, rfl, rfl, h⟩)
      · simp only [if_true]
        cases t.respBody.call op with
        | panic => exact .inl ⟨rfl, rfl⟩
        | fuel => exact .inr (.inl ⟨rfl, rfl⟩)
        | ok y => exact .inr (.inr ⟨_, s, _, rfl, rfl, h⟩)
  | edit i ed =>
    simp only [Plant.act]
    cases w.txs[i]? with
    | none => exact .inl ⟨rfl, rfl⟩
    | some x =>
      obtain ⟨e, a, t⟩ := x
      cases ed with
      | engine e => simp only; cases w.engines[e]? with
        | none => exact .inl ⟨rfl, rfl⟩
        | some c => exact .inr (.inr ⟨_, s, _, rfl, rfl, h⟩)
      | rules a => simp only; cases w.rules[a]? with
        | none => exact .inl ⟨rfl, rfl⟩
        | some c => exact .inr (.inr ⟨_, s, _, rfl, rfl, h⟩)
      | _ => exact .inr (.inr ⟨_, s, _, rfl, rfl, h⟩)
  | _ =>
    simp only [Plant.act]
    repeat' split
    all_goals first | exact .inl ⟨rfl, rfl⟩ | exact .inr (.inr ⟨_, s, _, rfl, rfl, h⟩)

/-- What the host sees of a run. -/
def Plant.seen (lib : Lib) (n : Nat) (w : Plant) (as : List Act) : Res (List ActOut) := (w.acts lib n as).bind fun x => .ok x.2

theorem seen_cons (x : Res (Plant × List ActOut)) (o : ActOut) :
    ((x.bind fun y => .ok (y.1, o :: y.2)).bind fun y => .ok y.2) = (x.bind fun y => .ok y.2).bind fun os => .ok (o :: os) := by
  cases x <;> rfl

theorem moved_acts {lib : Lib} {n : Nat} {r : Nat} {as : List Act} : ∀ {w : Plant} {s : Shop}, Moved r w.shop s →
    (∀ i rs, Act.addRules i rs ∈ as → r ∉ rs) → ({ w with shop := s } : Plant).seen lib n as = w.seen lib n as := by
  induction as with
  | nil => intro w s _ _; rfl
  | cons a as ih =>
    intro w s h ha
    have k := moved_act h lib n a fun i rs e => ha i rs (e ▸ List.mem_cons_self)
    simp only [Plant.seen, Plant.acts]
    rcases k with ⟨h1, h2⟩ | ⟨h1, h2⟩ | ⟨v, s', o, h1, h2, h3⟩
    · rw [h1, h2]
    · rw [h1, h2]
    · rw [h1, h2]
      simp only [Res.bind_ok']
      have i := ih h3 fun i rs e => ha i rs (List.mem_cons_of_mem _ e)
      simp only [Plant.seen] at i
      rw [seen_cons, seen_cons, i]

/-- C99.  Assigning to the phase of a rule changes nothing for the rule sets it is in: from
any state, whatever the host does afterwards, it sees the same as without the assignment,
as long as it does not add the rule again. -/
theorem C99_phase_fixed (lib : Lib) (n : Nat) (w : Plant) (r : Nat) (q : Int) (hr : r < w.shop.objs.length) (as : List Act)
    (ha : ∀ i rs, Act.addRules i rs ∈ as → r ∉ rs) :
    w.seen lib n (.shop (.phase r q) :: as) = (w.seen lib n as).bind fun os => .ok (.shop (.ok true) :: os) := by
  have ho : w.shop.objs[r]? = some w.shop.objs[r] := List.getElem?_eq_getElem hr
  have h : Moved r w.shop { w.shop with objs := w.shop.objs.set r { w.shop.objs[r] with phase := q } } := by
    refine ⟨rfl, rfl, by simp, q, fun i => ?_⟩
    simp only [List.getElem?_set]
    by_cases e : r = i
    · subst e
      simp only [hr, if_true, ho, Option.map_some]
      rfl
    · have e' : i ≠ r := fun e' => e e'.symm
      simp only [e, e', if_false]
      exact Option.map_id'.symm
  have k := moved_acts (lib := lib) (n := n) h ha
  simp only [Plant.seen, Plant.acts, Plant.act, Shop.act, Shop.change, ho, Res.bind_ok'] at k ⊢
  rw [seen_cons, k]

/-! ### Everything else -/

/-- Making and changing objects leaves the rules there are in place, and their phases but
for an assignment. -/
theorem shop_phases {lib : Lib} {s s' : Shop} {x : ShopAct} {o : ShopOut} (h : s.act lib x = .ok (s', o)) {i : Nat} (hi : i < s.objs.length)
    (hx : ∀ q, x ≠ .phase i q) : ∃ y, s'.objs[i]? = some y ∧ y.phase = s.objs[i].phase := by
  have self : ∃ y, s.objs[i]? = some y ∧ y.phase = s.objs[i].phase := ⟨_, List.getElem?_eq_getElem hi, rfl⟩
  have ch : ∀ {j f o}, s.change j f = .ok (s', o) → (∀ o, j = i → (f o).phase = o.phase) → ∃ y, s'.objs[i]? = some y ∧ y.phase = s.objs[i].phase := by
    intro j f o h hf
    simp only [Shop.change] at h
    cases ho : s.objs[j]? with
    | none => rw [ho] at h; cases h
    | some z =>
      rw [ho] at h
      cases h
      simp only [List.getElem?_set]
      by_cases e : j = i
      · subst e
        simp only [hi, if_true]
        rw [List.getElem?_eq_getElem hi] at ho
        cases ho
        exact ⟨_, rfl, hf _ rfl⟩
      · simp only [e, if_false]; exact self
  have sel : ∀ {v f o}, s.select v f = .ok (s', o) → ∃ y, s'.objs[i]? = some y ∧ y.phase = s.objs[i].phase := by
    intro v f o h
    simp only [Shop.select] at h
    split at h
    · cases h
    · split at h
      · cases h
      · split at h <;> cases h <;> exact self
  cases x with
  | newVar tk => simp only [Shop.act] at h; split at h <;> cases h; exact self
  | newCount v => simp only [Shop.act] at h; split at h <;> cases h; exact self
  | incl v t => exact sel h
  | excl v t => exact sel h
  | newRule =>
    cases h
    refine ⟨_, ?_, rfl⟩
    show (s.objs ++ [({} : RuleObj)])[i]? = _
    rw [List.getElem?_append_left hi, List.getElem?_eq_getElem hi]
  | phase j q => exact ch h fun o e => absurd (by rw [e]) (hx q)
  | negate j b => exact ch h fun _ _ => rfl
  | vars j a vs =>
    simp only [Shop.act] at h
    split at h
    · cases h
    · exact ch h fun _ _ => rfl
  | trans j a ts => exact ch h fun _ _ => rfl
  | operator j tk arg =>
    obtain ⟨z, h1, h2⟩ := Res.bind_eq_ok.1 h
    cases h2
    exact ch h1 fun _ _ => rfl
  | noOperator j => exact ch h fun _ _ => rfl
  | actions j a as => exact ch h fun _ _ => rfl
  | subs j a rs =>
    simp only [Shop.act] at h
    split at h
    · cases h
    · exact ch h fun _ _ => rfl

/-- C99.  Apart from its phase, a rule may as well be built after it was added: adding
rules and then making or changing anything leaves everything in the state in which doing
it the other way round does. -/
theorem C99_built_later (lib : Lib) (n : Nat) (w v : Plant) (a : Nat) (rs : List Nat) (x : ShopAct) (o₁ o₂ : ActOut)
    (hx : ∀ r q, x = .phase r q → r ∉ rs) (h : w.acts lib n [.addRules a rs, .shop x] = .ok (v, [o₁, o₂])) :
    w.acts lib n [.shop x, .addRules a rs] = .ok (v, [o₂, o₁]) := by
  simp only [Plant.acts] at h ⊢
  obtain ⟨⟨w1, o⟩, h1, h2⟩ := Res.bind_eq_ok.1 h
  obtain ⟨⟨w3, os⟩, h3, h4⟩ := Res.bind_eq_ok.1 h2
  obtain ⟨⟨w2, o'⟩, h5, h6⟩ := Res.bind_eq_ok.1 h3
  cases h6
  cases h4
  simp only [Plant.act] at h1 h5 ⊢
  cases hk : w.rules[a]? with
  | none => rw [hk] at h1; cases h1
  | some k =>
    rw [hk] at h1
    simp only at h1
    split at h1
    · cases h1
    · rename_i hany
      cases h1
      obtain ⟨⟨s', z⟩, h6, h7⟩ := Res.bind_eq_ok.1 h5
      cases h7
      have h6 : w.shop.act lib x = .ok (s', z) := h6
      simp only [h6, Res.bind_ok', hk]
      have hin : ∀ i ∈ rs, i < w.shop.objs.length := Classical.byContradiction fun hn => hany ((any_isNone _ _).2 hn)
      have hph : ∀ i ∈ rs, ∃ y z, s'.objs[i]? = some y ∧ w.shop.objs[i]? = some z ∧ y.phase = z.phase := fun i hi => by
        obtain ⟨y, h1, h2⟩ := shop_phases h6 (hin i hi) (fun q e => hx i q e hi)
        exact ⟨y, _, h1, List.getElem?_eq_getElem (hin i hi), h2⟩
      have e1 : ¬ (rs.any fun i => (s'.objs[i]?).isNone) = true := by
        simp only [List.any_eq_true, not_exists, not_and]
        intro i hi
        obtain ⟨y, _, h, _⟩ := hph i hi
        rw [h]; simp
      have e2 : (rs.filterMap fun i => (s'.objs[i]?).map fun o => (o.phase, Stored.obj i)) = rs.filterMap fun i => (w.shop.objs[i]?).map fun o => (o.phase, Stored.obj i) := by
        refine filterMap_eq fun i hi => ?_
        obtain ⟨y, z, h1, h2, h3⟩ := hph i hi
        rw [h1, h2, Option.map_some, Option.map_some, h3]
      rw [if_neg e1, e2]
      rfl

/-! ### Cases -/

/-- A rule on the number of client addresses, added while it has no action yet, to two rule sets; each
has a transaction. -/
def sharedRule : List Act :=
  [.newEngine, .newRules, .newRules, .newTransactionWith (some 0) (some 1) false, .newTransactionWith (some 0) (some 2) false,
   .shop .newRule, .shop (.newVar .remoteAddr), .shop (.newCount 0), .shop (.vars 0 true [1]),
   .shop (.operator 0 .eq b!"1"), .shop (.phase 0 1), .addRules 1 [0], .addRules 2 [0]]

/-- A connection on a transaction, and its verdict. -/
def verdictOn (i : Nat) : List Act := [.call i ord (.processConnection b!"1.2.3.4" b!"5" [] []), .call i ord .result]

-- An action appended later takes effect in both rule sets.
example : (lastVerdict (sharedRule ++ verdictOn 0)).map (·.status) = some 200 ∧
    (lastVerdict (sharedRule ++ .shop (.actions 0 true [.deny]) :: verdictOn 0)).map (·.status) = some 403 ∧
    (lastVerdict (sharedRule ++ .shop (.actions 0 true [.deny]) :: verdictOn 1)).map (·.status) = some 403 := by
  decide +kernel
-- Another phase does not.
example : (lastVerdict (sharedRule ++ .shop (.actions 0 true [.deny]) :: .shop (.phase 0 3) :: verdictOn 0)).map (·.status) = some 403 := by
  decide +kernel
-- A rule may be its own sub-rule: its condition is tested twice and its actions are run twice.
example : (lastVerdict (sharedRule ++ .shop (.subs 0 true [0]) :: .shop (.actions 0 true [.log]) :: verdictOn 0)).map (·.log.length) = some 2 := by
  decide +kernel
-- A selector given to what is counted is given to the variable itself.
example : (Shop.act lib { bases := [.argsGet {}], vars := [⟨0, 0⟩, ⟨0, 1⟩] } (.excl 1 b!"a")) =
    .ok ({ bases := [.argsGet { excl := [b!"a"] }], vars := [⟨0, 0⟩, ⟨0, 1⟩] }, .ok true) := rfl
example := C99_phase_fixed lib 9 { shop := { objs := [{}] } } 0 3 (by decide) (verdictOn 0) (by simp [verdictOn])
-- Two rule sets that differ in what is not read.
example : LikeRules { phases := fun _ => [{ id := 1, actions := [.deny] }] } { phases := fun _ => [{ id := 2, phase := 4, actions := [.deny] }] } :=
  ⟨fun _ => .cons ⟨⟨rfl, rfl, rfl, rfl, rfl⟩, .nil⟩ .nil, rfl⟩
example : ∃ v o₁ o₂, ({ rules := [{}], shop := { objs := [{ phase := 1 }] } } : Plant).acts lib 9 [.addRules 0 [0], .shop (.actions 0 true [.deny])] = .ok (v, [o₁, o₂]) :=
  ⟨_, _, _, rfl⟩
example := C95_host lib (sharedRule ++ verdictOn 1)

end Verif
