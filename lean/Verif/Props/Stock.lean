import Verif.Props.Built
import Verif.Props.Site
/-!
Rules and variables as objects that a host makes and goes on changing, and what they are
for the reference: notes of what was asked for.
-/
namespace Verif
open Spec

namespace Spec

/-- A rule, as the host has made it so far. -/
structure Note where
  phase : Int := 0
  vars : List VarRef := []
  trans : List TransTok := []
  op : Option (OpTok × Bytes) := none
  not : Bool := false
  acts : List HostAct := []
  subs : List Nat := []

/-- What the host has made: variables with the selectors given to them so far, the
references to them, and rules. -/
structure Stock where
  bases : List (VarTok × List Selector) := []
  vars : List VarRef := []
  notes : List Note := []

/-- What a reference asks for now. -/
def Stock.ask (s : Stock) (v : VarRef) : Option Ask := (s.bases[v.base]?).map fun b => { name := b.1, sels := b.2, counts := v.counts }

/-- What a rule is now. -/
def Stock.part (s : Stock) (n : Note) : Part where
  asks := n.vars.filterMap s.ask
  trans := n.trans
  op := n.op.map fun o => { tk := o.1, not := n.not, arg := o.2 }
  acts := n.acts

/-- What it is with its sub-rules; theirs count for nothing. -/
def Stock.parts (s : Stock) (n : Note) : List Part := s.part n :: n.subs.filterMap fun i => (s.notes[i]?).map s.part

/-- Change a note. -/
def Stock.change (s : Stock) (r : Nat) (ok : Bool) (f : Note → Note) : Ending (Stock × ShopOut) :=
  match s.notes[r]? with
  | none => .panics
  | some n => .returns ({ s with notes := s.notes.set r (f n) }, .ok ok)

open Classical in
/-- Give a variable another selector.  One that is unfit is rejected, if the variable takes
any. -/
noncomputable def Stock.give (rx : Bytes → Option (Bytes → Bool)) (s : Stock) (v : Nat) (t : Bytes) (sel : Selector) : Ending (Stock × ShopOut) :=
  match s.vars[v]? with
  | none => .panics
  | some r => match s.bases[r.base]? with
    | none => .panics
    | some (tk, sels) =>
      if Selectable tk = true ∧ Unfit rx t then .returns (s, .ok false)
      else .returns ({ s with bases := s.bases.set r.base (tk, sels ++ [sel]) }, .ok true)

/-- Some are added or these are all. -/
def more {α : Type} (append : Bool) (old new : List α) : List α := (if append then old else []) ++ new

open Classical in
/-- One step. -/
noncomputable def Stock.act (lib : Lib) (s : Stock) : ShopAct → Ending (Stock × ShopOut)
  | .newVar tk => if tk = .xml then .panics
    else .returns ({ s with bases := s.bases ++ [(tk, [])], vars := s.vars ++ [{ base := s.bases.length }] }, .made s.vars.length)
  | .newCount v => match s.vars[v]? with
    | none => .panics
    | some r => .returns ({ s with vars := s.vars ++ [{ r with counts := r.counts + 1 }] }, .made s.vars.length)
  | .incl v t => s.give lib.rx v t (.incl t)
  | .excl v t => s.give lib.rx v t (.excl t)
  | .newRule => .returns ({ s with notes := s.notes ++ [{}] }, .made s.notes.length)
  | .phase r q => s.change r true fun n => { n with phase := q }
  | .negate r b => s.change r true fun n => { n with not := b }
  | .vars r a vs => if ∀ v ∈ vs, v < s.vars.length then s.change r true fun n => { n with vars := more a n.vars (vs.filterMap fun v => s.vars[v]?) }
    else .panics
  | .trans r a ts => s.change r true fun n => { n with trans := more a n.trans ts }
  | .operator r tk arg => s.change r (decide (OpOk lib { tk := tk, not := false, arg := arg })) fun n => { n with op := some (tk, arg) }
  | .noOperator r => s.change r true fun n => { n with op := none }
  | .actions r a as => s.change r true fun n => { n with acts := more a n.acts as }
  | .subs r a rs => if ∀ i ∈ rs, i < s.notes.length then s.change r true fun n => { n with subs := more a n.subs rs } else .panics

end Spec

/-- The variable has the selectors. -/
def BaseMeans (rx : Bytes → Option (Bytes → Bool)) (b : VarTok × List Selector) (x : Var) : Prop := AskMeans rx { name := b.1, sels := b.2 } x

/-- The rule is the one noted. -/
structure NoteMeans (lib : Lib) (n : Note) (o : RuleObj) : Prop where
  phase : o.phase = n.phase
  vars : o.vars = n.vars
  trans : o.trans = n.trans.map transOf
  op : o.op = n.op.bind fun x => hostOperator lib x.1 x.2
  not : o.not = n.not
  acts : o.actions = n.acts.map HostAct.make
  subs : o.subs = n.subs

/-- The objects are as the notes say. -/
structure StockMeans (lib : Lib) (s : Stock) (w : Shop) : Prop where
  bases : Pairs (BaseMeans lib.rx) s.bases w.bases
  vars : w.vars = s.vars
  notes : Pairs (NoteMeans lib) s.notes w.objs

theorem pairs_filterMap {α β γ : Type} {R : β → γ → Prop} {f : α → Option β} {g : α → Option γ} (h : ∀ a, (f a = none ∧ g a = none) ∨ ∃ b c, f a = some b ∧ g a = some c ∧ R b c)
    (l : List α) : Pairs R (l.filterMap f) (l.filterMap g) := by
  induction l with
  | nil => exact .nil
  | cons a l ih =>
    rw [List.filterMap_cons, List.filterMap_cons]
    rcases h a with ⟨h1, h2⟩ | ⟨b, c, h1, h2, h3⟩
    · rw [h1, h2]; exact ih
    · rw [h1, h2]; exact .cons h3 ih

theorem StockMeans.ask {lib : Lib} {s : Stock} {w : Shop} (h : StockMeans lib s w) (v : VarRef) :
    (s.ask v = none ∧ w.var v = none) ∨ ∃ a x, s.ask v = some a ∧ w.var v = some x ∧ AskMeans lib.rx a x := by
  rcases h.bases.get v.base with ⟨h1, h2⟩ | ⟨b, x, h1, h2, f, y, h3, h4, h5⟩
  · exact .inl ⟨by rw [Stock.ask, h1]; rfl, by rw [Shop.var, h2]; rfl⟩
  · refine .inr ⟨{ name := b.1, sels := b.2, counts := v.counts }, v.counts.repeat Var.count x, by rw [Stock.ask, h1]; rfl, by rw [Shop.var, h2]; rfl, f, y, h3, h4, ?_⟩
    rw [show x = y from h5]

/-- A rule without its sub-rules. -/
theorem StockMeans.part {lib : Lib} {s : Stock} {w : Shop} (h : StockMeans lib s w) {n : Note} {o : RuleObj} (hn : NoteMeans lib n o) :
    PartMeans lib (s.part n) (w.alone o) := by
  refine ⟨?_, hn.trans, ?_, hn.acts⟩
  · show Pairs _ (n.vars.filterMap s.ask) (o.vars.filterMap w.var)
    rw [hn.vars]
    exact pairs_filterMap h.ask n.vars
  · show (∃ o' op, n.op.map _ = some o' ∧ o.op = some op ∧ _ ∧ o.not = _) ∨ _ ∧ o.op = none
    rw [hn.op, hn.not]
    cases ho : n.op with
    | none => exact .inr ⟨(fun ⟨o, h, _⟩ => by simp only [Stock.part, ho] at h; cases h), rfl⟩
    | some x =>
      have hs := applyOperator_spec lib { tk := x.1, not := n.not, arg := x.2 }
      have he := hostOperator_eq lib { tk := x.1, not := n.not, arg := x.2 }
      rcases hs with ⟨op, h1, h2⟩ | ⟨h1, e, h2⟩
      · rw [h1] at he
        exact .inl ⟨_, op, rfl, he, h2, rfl⟩
      · rw [h2] at he
        exact .inr ⟨(fun ⟨o', h, h'⟩ => by simp only [Stock.part, ho] at h; cases h; exact h1 h'), he⟩

/-- A rule. -/
theorem StockMeans.rule {lib : Lib} {s : Stock} {w : Shop} (h : StockMeans lib s w) {n : Note} {o : RuleObj} (hn : NoteMeans lib n o) (q : Int) :
    PartsAre lib ⟨q, s.parts n⟩ (w.rule o) := by
  have hp := h.part hn
  refine ⟨s.part n, _, rfl, ⟨hp.1, hp.2, hp.3, hp.4⟩, ?_⟩
  show Pairs _ _ (o.subs.filterMap _)
  rw [hn.subs]
  refine pairs_filterMap (fun i => ?_) n.subs
  rcases h.notes.get i with ⟨h1, h2⟩ | ⟨m, x, h1, h2, h3⟩
  · exact .inl ⟨by rw [h1]; rfl, by rw [h2]; rfl⟩
  · exact .inr ⟨_, _, by rw [h1]; rfl, by rw [h2]; rfl, h.part h3⟩

theorem added_more {α β : Type} (g : α → β) (a : Bool) (old new : List α) : added a (old.map g) (new.map g) = (more a old new).map g := by
  cases a <;> simp [added, more]

theorem added_same {α : Type} (a : Bool) (old new : List α) : added a old new = more a old new := by
  cases a <;> simp [added, more]

theorem change_means {lib : Lib} {s : Stock} {w : Shop} (h : StockMeans lib s w) (r : Nat) {f : Note → Note} {g : RuleObj → RuleObj}
    (hfg : ∀ n o, NoteMeans lib n o → NoteMeans lib (f n) (g o)) :
    match s.change r true f with
    | .returns x => ∃ w', w.change r g = .ok (w', x.2) ∧ StockMeans lib x.1 w'
    | .panics => w.change r g = .panic
    | .hangs => False := by
  rcases h.notes.get r with ⟨h1, h2⟩ | ⟨n, o, h1, h2, h3⟩
  · simp only [Stock.change, h1, Shop.change, h2]
  · simp only [Stock.change, h1, Shop.change, h2]
    exact ⟨_, rfl, h.bases, h.vars, h.notes.set r (hfg n o h3)⟩

theorem give_means {lib : Lib} {s : Stock} {w : Shop} (h : StockMeans lib s w) (v : Nat) {t : Bytes} {sel : Selector} (hs : sel = .incl t ∨ sel = .excl t) :
    match s.give lib.rx v t sel with
    | .returns x => ∃ w', w.select v (fun y => y.select (selUpd lib.rx sel)) = .ok (w', x.2) ∧ StockMeans lib x.1 w'
    | .panics => w.select v (fun y => y.select (selUpd lib.rx sel)) = .panic
    | .hangs => False := by
  simp only [Stock.give, Shop.select, h.vars]
  cases hv : s.vars[v]? with
  | none => rfl
  | some r =>
    simp only
    rcases h.bases.get r.base with ⟨h1, h2⟩ | ⟨⟨tk, sels⟩, x, h1, h2, h3⟩
    · simp only [h1, h2]
    · simp only [h1, h2]
      have hm := select_means h3 sel t hs
      obtain ⟨f, y, g1, g2, g3⟩ := h3
      have g3 : x = y := g3
      subst g3
      have hsel := select_variableOf (selUpd lib.rx sel) g2
      by_cases hc : Selectable tk = true ∧ Unfit lib.rx t
      · have e : x.select (selUpd lib.rx sel) = none := by
          rw [hsel, if_pos hc.1, (selUpd_unfit lib.rx sel t hs f).2 hc.2]; rfl
        simp only [e, if_pos hc]
        exact ⟨w, rfl, h⟩
      · have : ∃ z, x.select (selUpd lib.rx sel) = some z := by
          rw [hsel]
          by_cases ht : Selectable tk = true
          · cases hu : selUpd lib.rx sel f with
            | none => exact absurd ⟨ht, (selUpd_unfit lib.rx sel t hs f).1 hu⟩ hc
            | some g =>
              have hx : tk ≠ .xml := by intro hx; subst hx; cases g2
              obtain ⟨z, hz⟩ := variableOf_isSome (f := g) hx
              exact ⟨z, by rw [if_pos ht]; exact hz⟩
          · exact ⟨x, by rw [if_neg ht]⟩
        obtain ⟨z, hz⟩ := this
        simp only [hz, if_neg hc]
        refine ⟨_, rfl, h.bases.set r.base ?_, rfl, h.notes⟩
        rw [hz] at hm
        by_cases hu : Unfit lib.rx t
        · have hns : ¬ Selectable tk = true := fun ht => hc ⟨ht, hu⟩
          rw [hsel, if_neg hns] at hz
          cases hz
          exact ⟨f, x, fun ht => absurd ht hns, g2, rfl⟩
        · exact hm.2 hu

theorem any_isNone {α : Type} (l : List α) (vs : List Nat) : (vs.any fun v => (l[v]?).isNone) = true ↔ ¬ ∀ v ∈ vs, v < l.length := by
  simp only [List.any_eq_true, Option.isNone_iff_eq_none, List.getElem?_eq_none_iff]
  constructor
  · rintro ⟨v, h1, h2⟩ h; have := h v h1; omega
  · intro h
    refine Classical.byContradiction fun hn => h fun v hv => ?_
    exact Nat.lt_of_not_le fun hle => hn ⟨v, hv, hle⟩

open Classical in
/-- One step. -/
theorem shop_act {lib : Lib} {s : Stock} {w : Shop} (h : StockMeans lib s w) (x : ShopAct) :
    match s.act lib x with
    | .returns x' => ∃ w', w.act lib x = .ok (w', x'.2) ∧ StockMeans lib x'.1 w'
    | .panics => w.act lib x = .panic
    | .hangs => False := by
  cases x with
  | newVar tk =>
    rw [Stock.act]
    by_cases hx : tk = .xml
    · subst hx; rw [if_pos rfl]; rfl
    · rw [if_neg hx]
      obtain ⟨y, hy⟩ := variableOf_isSome (f := {}) hx
      simp only [Shop.act, (variableFactory_eq tk).trans hy, h.vars, h.bases.length_eq]
      exact ⟨_, rfl, h.bases.append (.cons ⟨{}, y, (fun _ => rfl), hy, rfl⟩ .nil), rfl, h.notes⟩
  | newCount v =>
    simp only [Stock.act, Shop.act, h.vars]
    cases s.vars[v]? with
    | none => rfl
    | some r => exact ⟨_, rfl, h.bases, rfl, h.notes⟩
  | incl v t => exact give_means h v (.inl rfl)
  | excl v t => exact give_means h v (.inr rfl)
  | newRule =>
    refine ⟨{ w with objs := w.objs ++ [{}] }, by rw [Shop.act, ← h.notes.length_eq], h.bases, h.vars, h.notes.append (.cons ⟨rfl, rfl, rfl, rfl, rfl, rfl, rfl⟩ .nil)⟩
  | phase r q => exact change_means h r fun n o hn => ⟨rfl, hn.2, hn.3, hn.4, hn.5, hn.6, hn.7⟩
  | negate r b => exact change_means h r fun n o hn => ⟨hn.1, hn.2, hn.3, hn.4, rfl, hn.6, hn.7⟩
  | vars r a vs =>
    simp only [Stock.act, Shop.act, h.vars]
    by_cases hv : ∀ v ∈ vs, v < s.vars.length
    · rw [if_pos hv, if_neg (fun e => (any_isNone _ _).1 e hv)]
      exact change_means h r fun n o hn => ⟨hn.1, by rw [hn.vars, added_same], hn.3, hn.4, hn.5, hn.6, hn.7⟩
    · rw [if_neg hv, if_pos ((any_isNone _ _).2 hv)]
  | trans r a ts =>
    refine change_means h r fun n o hn => ⟨hn.1, hn.2, ?_, hn.4, hn.5, hn.6, hn.7⟩
    show added a o.trans (ts.map transFactory) = _
    rw [hn.trans, ← added_more]
    exact congrArg (added a (n.trans.map transOf)) (List.map_congr_left fun x _ => by cases x <;> rfl)
  | operator r tk arg =>
    simp only [Stock.act, Shop.act, Stock.change, Shop.change]
    rcases h.notes.get r with ⟨h1, h2⟩ | ⟨n, o, h1, h2, hn⟩
    · simp only [h1, h2]; rfl
    · simp only [h1, h2]
      refine ⟨{ w with objs := w.objs.set r { o with op := hostOperator lib tk arg } }, ?_, h.bases, h.vars, h.notes.set r ⟨hn.1, hn.2, hn.3, rfl, hn.5, hn.6, hn.7⟩⟩
      show Res.ok (_, ShopOut.ok _) = Res.ok (_, ShopOut.ok _)
      congr 3
      have hs := applyOperator_spec lib { tk := tk, not := false, arg := arg }
      have he := hostOperator_eq lib { tk := tk, not := false, arg := arg }
      rcases hs with ⟨op, h1, h2⟩ | ⟨h1, e, h2⟩
      · rw [h1] at he
        rw [show hostOperator lib tk arg = some op from he]
        exact (decide_eq_true (show OpOk lib { tk := tk, not := false, arg := arg } from ⟨op, h2⟩)).symm
      · rw [h2] at he
        rw [show hostOperator lib tk arg = none from he]
        exact (decide_eq_false h1).symm
  | noOperator r => exact change_means h r fun n o hn => ⟨hn.1, hn.2, hn.3, rfl, hn.5, hn.6, hn.7⟩
  | actions r a as => exact change_means h r fun n o hn => ⟨hn.1, hn.2, hn.3, hn.4, hn.5, by rw [hn.acts, added_more], hn.7⟩
  | subs r a rs =>
    simp only [Stock.act, Shop.act, h.notes.length_eq]
    by_cases hv : ∀ i ∈ rs, i < w.objs.length
    · rw [if_pos hv, if_neg (fun e => (any_isNone _ _).1 e hv)]
      exact change_means h r fun n o hn => ⟨hn.1, hn.2, hn.3, hn.4, hn.5, hn.6, by rw [hn.subs, added_same]⟩
    · rw [if_neg hv, if_pos ((any_isNone _ _).2 hv)]

end Verif
