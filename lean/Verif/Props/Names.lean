import Verif.Model.Names
import Verif.Props.View
/-!
C93: what a loaded rule says of itself (`Name`, `Args`, `Value`) against what was written.
-/
namespace Verif
open Sample Spec

/-- The loaded rule has the transformations, operator, actions and variables of the written
one, under their names.  A comparison gives its argument without the white space around it. -/
structure Spec.Named (p : PRule) (r : Rule) : Prop where
  trans : r.trans.map Trans.name = p.acts.trans.map fun k => some (transName k)
  op : ∃ op, r.op = some op ∧ op.name = some (opName p.op.tk) ∧
    ((p.op.tk = .rx ∧ op.args = some p.op.arg) ∨ (p.op.tk ≠ .rx ∧ ∃ a, op.args = some a ∧ Core p.op.arg a))
  actions : r.actions.map Action.name = (p.acts.action.filter fun a => (metaName a.tk).isNone).map fun a => some (actName a.tk)
  vars : ∀ s, (∃ x ∈ r.vars, x.name = some s) ↔ ∃ v ∈ p.vars, varName v.tk = s

/-- Each action has the argument that was written, without quotes. -/
def Spec.Valued (p : PRule) (r : Rule) : Prop :=
  Pairs (fun a x => ∃ u, Action.value x = some u ∧ Unquoted a.arg u) (p.acts.action.filter fun a => (metaName a.tk).isNone) r.actions

/-- Rule by rule for a chain. -/
def Spec.ChainIs (R : PRule → Rule → Prop) (c : List PRule) (r : Rule) : Prop := Pairs R c (r :: r.subRules)

theorem var_name {f : Filter} {tk : VarTok} {y : Var} (h : variableOf f tk = some y) : y.name = some (varName tk) := by
  cases tk <;> cases h <;> rfl

theorem carries_name {rx : Bytes → Option (Bytes → Bool)} {vs : List PVar} {k : VarTok × Bool} {x : Var} (h : Carries rx vs k x) :
    x.name = some (varName k.1) := by
  obtain ⟨f, y, _, hy, rfl⟩ := h
  have := var_name hy
  split
  · exact this
  · exact this

theorem act_name {a : PAct} {x : Action} (h : ActMeans a x) : x.name = some (actName a.tk) := by cases h <;> rfl

theorem Pairs.map_eq {α β γ : Type} {R : α → β → Prop} {f : α → γ} {g : β → γ} (hR : ∀ {a b}, R a b → g b = f a) {as : List α} {bs : List β}
    (h : Pairs R as bs) : bs.map g = as.map f := by
  induction h with
  | nil => rfl
  | cons h _ ih => rw [List.map_cons, List.map_cons, hR h, ih]

theorem Pairs.imp {α β : Type} {R S : α → β → Prop} (hR : ∀ {a b}, R a b → S a b) {as : List α} {bs : List β} (h : Pairs R as bs) : Pairs S as bs := by
  induction h with
  | nil => exact .nil
  | cons h _ ih => exact .cons (hR h) ih

theorem op_named {lib : Lib} {o : POp} {op : Operator} (h : OpMeans lib o op) :
    op.name = some (opName o.tk) ∧ ((o.tk = .rx ∧ op.args = some o.arg) ∨ (o.tk ≠ .rx ∧ ∃ a, op.args = some a ∧ Core o.arg a)) := by
  cases h with
  | rx h1 _ => rw [h1]; exact ⟨rfl, .inl ⟨rfl, rfl⟩⟩
  | @cmp c h1 _ h3 =>
    obtain ⟨tk, arg, nt⟩ := o
    obtain ⟨kind, n, src⟩ := c
    simp only at h1
    refine ⟨?_, .inr ⟨fun e => ?_, _, rfl, h3⟩⟩
    · cases tk <;> cases h1 <;> rfl
    · simp only at e; subst e; cases h1

theorem rule_named {lib : Lib} {p : PRule} {r : Rule} (h : RuleMeans lib p r) : Named p r where
  trans := by
    rw [h.trans, List.map_map]
    refine List.map_congr_left fun k _ => ?_
    cases k <;> rfl
  op := by
    obtain ⟨op, h1, h2⟩ := h.op
    exact ⟨op, h1, op_named h2⟩
  actions := h.actions.map_eq fun h => act_name h
  vars := by
    intro s
    obtain ⟨ks, _, hk, hp⟩ := h.vars
    constructor
    · rintro ⟨x, hx, e⟩
      obtain ⟨k, hkm, hc⟩ := hp.right _ hx
      obtain ⟨v, hv, e'⟩ := (hk k).1 hkm
      have := (carries_name hc).symm.trans e
      rw [← e'] at this
      exact ⟨v, hv, Option.some.inj this⟩
    · rintro ⟨v, hv, e⟩
      obtain ⟨x, hx, hc⟩ := hp.left _ ((hk _).2 ⟨v, hv, rfl⟩)
      exact ⟨x, hx, by rw [← e]; exact carries_name hc⟩

/-- C93, full statement: a loaded rule says of itself what was written of it. -/
def C93_statement : Prop := ∀ {lib : Lib} {vo : VarOrd} {text : Bytes} {dirs : List PDir}, Program text dirs → (∀ d ∈ dirs, DirOk lib d) →
  ∃ set, DireSet.addSecLangString lib vo [] text = .ok (set, none) ∧
    Pairs (ChainIs fun p r => Named p r ∧ Valued p r) (chainsOf (rulesIn dirs)) (rulesOf set)

/-- C93 without the values of actions: names of all parts and the argument of the operator
are as written, rule by rule in each chain.  Missing: the arguments of actions, see
`C93_values`. -/
theorem C93_names_partial {lib : Lib} {vo : VarOrd} {text : Bytes} {dirs : List PDir} (ht : Program text dirs) (hok : ∀ d ∈ dirs, DirOk lib d) :
    ∃ set, DireSet.addSecLangString lib vo [] text = .ok (set, none) ∧ Pairs (ChainIs Named) (chainsOf (rulesIn dirs)) (rulesOf set) := by
  obtain ⟨ds, hds, hload⟩ := C57_chains (vo := vo) ht hok []
  refine ⟨group ds, hload, (group_means _ (Nat.le_refl _) hds).imp ?_⟩
  rintro c r ⟨p, ps, r0, rs, rfl, h1, h2, rfl⟩
  exact .cons { trans := (rule_named h1).trans, op := (rule_named h1).op, actions := (rule_named h1).actions, vars := (rule_named h1).vars }
    (h2.imp fun h => rule_named h)

/-- The values: `allow` gives its argument without quotes, `status` its number in plain
decimal, all others nothing, whatever was written. -/
theorem C93_values {lib : Lib} {vo : VarOrd} {text : Bytes} {dirs : List PDir} (ht : Program text dirs) (hok : ∀ d ∈ dirs, DirOk lib d) :
    ∃ set, DireSet.addSecLangString lib vo [] text = .ok (set, none) ∧
      Pairs (ChainIs fun p r => Pairs (fun a x => ∃ u, Action.value x = some u ∧
          match a.tk with
          | .allow => Unquoted a.arg u
          | .status => ∃ n w, u = number n ∧ Unquoted a.arg w ∧ Int64 w n
          | _ => u = [])
        (p.acts.action.filter fun a => (metaName a.tk).isNone) r.actions) (chainsOf (rulesIn dirs)) (rulesOf set) := by
  obtain ⟨ds, hds, hload⟩ := C57_chains (vo := vo) ht hok []
  refine ⟨group ds, hload, (group_means _ (Nat.le_refl _) hds).imp ?_⟩
  have one : ∀ {p : PRule} {r : Rule}, RuleMeans lib p r → Pairs (fun a x => ∃ u, Action.value x = some u ∧
      match a.tk with
      | .allow => Unquoted a.arg u
      | .status => ∃ n w, u = number n ∧ Unquoted a.arg w ∧ Int64 w n
      | _ => u = []) (p.acts.action.filter fun a => (metaName a.tk).isNone) r.actions := by
    intro p r h
    refine h.actions.imp ?_
    intro a x hx
    cases hx with
    | deny => exact ⟨_, rfl, rfl⟩
    | skip => exact ⟨_, rfl, rfl⟩
    | log => exact ⟨_, rfl, rfl⟩
    | block => exact ⟨_, rfl, rfl⟩
    | status h1 h2 => exact ⟨_, rfl, _, _, (number_eq _).symm, h1, h2⟩
    | allow h1 => exact ⟨_, rfl, h1⟩
  rintro c r ⟨p, ps, r0, rs, rfl, h1, h2, rfl⟩
  have first := one h1
  exact .cons first (h2.imp fun h => one h)

/-- A rule that skips two rules. -/
def skipTwo : PRule where
  vars := [{ tk := .requestMethod }]
  op := { tk := .rx, arg := b!"GET" }
  acts := { id := 1, phase := 2, action := [⟨.skip, b!"2"⟩] }

theorem skipTwo_program : Program b!"SecRule REQUEST_METHOD \"@rx GET\" \"id:1,phase:2,skip:2\"\n" [.rule skipTwo] :=
  (C53_exact id _ _).1 (by decide +kernel)

theorem skipTwo_ok : ∀ d ∈ [PDir.rule skipTwo], DirOk lib d := by
  intro d hd
  rw [List.mem_singleton.1 hd]
  exact {
    vars := by intro v hv; rw [List.mem_singleton.1 hv]; exact ⟨by simp, fun h => by cases h⟩
    op := ⟨_, .rx rfl rfl⟩
    acts := by intro a ha; rw [List.mem_singleton.1 ha]; exact .inl ⟨_, .skip⟩ }

/-- What was written after `skip` is gone. -/
theorem C93_refuted : ¬ C93_statement := by
  intro h
  obtain ⟨set, h1, h2⟩ := h (vo := varOrd) skipTwo_program skipTwo_ok
  obtain ⟨set', h3, h4⟩ := C93_values (vo := varOrd) skipTwo_program skipTwo_ok
  rw [h1] at h3
  cases h3
  have e : chainsOf (rulesIn [PDir.rule skipTwo]) = [[skipTwo]] := rfl
  rw [e] at h2 h4
  generalize rulesOf set = rs at h2 h4
  cases h2 with
  | cons k1 _ =>
    cases h4 with
    | cons k2 _ =>
      cases k1 with
      | cons k1 _ =>
        cases k2 with
        | cons k2 _ =>
          have k1 := k1.2
          have f : (skipTwo.acts.action.filter fun a => (metaName a.tk).isNone) = [⟨.skip, b!"2"⟩] := rfl
          simp only [Valued] at k1
          rw [f] at k1 k2
          generalize Rule.actions _ = as at k1 k2
          cases k1 with
          | cons k1 _ =>
            cases k2 with
            | cons k2 _ =>
              obtain ⟨u, g1, g2⟩ := k1
              obtain ⟨u', g3, g4⟩ := k2
              rw [g1] at g3
              cases g3
              simp only at g4
              rw [g4] at g2
              exact absurd ((trimQuote_iff _ _).2 g2) (by decide)

/-- A rule with every kind of part. -/
def manyParts : PRule where
  vars := [{ tk := .args, count := true }, { tk := .requestUri }]
  op := { tk := .gt, arg := b!" +7 " }
  acts := { id := 1, phase := 2, trans := [.lowercase, .removeNulls], action := [⟨.status, b!"'404'"⟩, ⟨.msg, b!"m"⟩, ⟨.deny, []⟩] }

/-- It calls itself what it was called. -/
example {r : Rule} (h : RuleMeans lib manyParts r) : r.trans.map Trans.name = [some b!"lowercase", some b!"removeNulls"] ∧
    (∃ op, r.op = some op ∧ op.name = some b!"gt" ∧ op.args = some b!"+7") ∧ r.actions.map Action.name = [some b!"status", some b!"deny"] ∧
    (∃ x ∈ r.vars, x.name = some b!"ARGS") ∧ ¬ ∃ x ∈ r.vars, x.name = some b!"ARGS_GET" := by
  have hn := rule_named h
  refine ⟨hn.trans, ?_, hn.actions, (hn.vars _).2 ⟨_, .head _, rfl⟩, fun h => ?_⟩
  · obtain ⟨op, h1, h2, h3⟩ := hn.op
    refine ⟨op, h1, h2, ?_⟩
    rcases h3 with ⟨h3, _⟩ | ⟨_, a, h3, h4, l, r, h5, h6, h7⟩
    · cases h3
    · have : trimSpace (l ++ a ++ r) = a := trimSpace_of_trimmed h6 h7 h4
      rw [h3, ← this, ← h5]
      decide
  · obtain ⟨v, hv, e⟩ := (hn.vars _).1 h
    simp only [manyParts, List.mem_cons, List.not_mem_nil, or_false] at hv
    rcases hv with rfl | rfl <;> revert e <;> decide

end Verif
