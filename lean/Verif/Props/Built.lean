import Verif.Model.Build
import Verif.Props.Reader
/-!
Rules from texts and rules built in Go, in one form: what a rule asks for, what it accepts,
and what it does.
-/
namespace Verif
open Sample Spec

namespace Spec

/-! ### Rules -/

/-- What a rule asks for: a variable, restricted by selectors, counted so many times. -/
structure Ask where
  name : VarTok
  sels : List Selector := []
  counts : Nat := 0

/-- One rule of a chain.  The operator may be missing. -/
structure Part where
  asks : List Ask
  trans : List TransTok := []
  op : Option POp
  acts : List HostAct

/-- A rule with the rules chained to it. -/
structure Chain where
  phase : Int
  parts : List Part

/-! ### Conditions -/

/-- `y` is tested, when a variable counted `n` times shows `vals`.  What is counted again
is one value. -/
def counted (n : Nat) (vals : List Bytes) (y : Bytes) : Prop :=
  match n with
  | 0 => y ∈ vals
  | 1 => y = itoa vals.length
  | _ => y = b!"1"

/-- Ask for variables one after the other. -/
noncomputable def askEach (lib : Lib) (sw : Switches) : List Ask → Held → Ending ((Bytes → Prop) × Held × List Bytes)
  | [], k => .returns (fun _ => False, k, [])
  | v :: rest, k => (ask lib sw k v.name).bind fun a => (askEach lib sw rest a.2.1).bind fun b =>
    .returns (fun y => (∃ vals, a.1 (Picked lib.rx v.sels) vals ∧ counted v.counts vals y) ∨ b.1 y, b.2.1, a.2.2 ++ b.2.2)

/-- The operator that a rule has. -/
def Works (lib : Lib) (p : Part) (o : POp) : Prop := p.op = some o ∧ OpOk lib o

open Classical in
/-- Evaluate the condition of a rule: the machine afterwards, and whether it holds.  Without
an operator a value is fatal. -/
noncomputable def tryPart (lib : Lib) (sw : Switches) (p : Part) (m : Mach Held) : Ending (Mach Held × Prop) :=
  (askEach lib sw p.asks m.known).bind fun a =>
    if a.2.2 = [] ∧ (∃ y, a.1 y) ∧ ¬ ∃ o, Works lib p o then .panics
    else .returns (refuse a.2.2 { m with known := a.2.1 },
      a.2.2 = [] ∧ ∃ o y, Works lib p o ∧ a.1 y ∧
        (Accepts lib o (pipe lib (newTransaction newDefaultLimits) (p.trans.map transOf) y) ↔ o.not = false))

open Classical in
/-- Evaluate the conditions of the rules of a chain, up to the first that does not hold. -/
noncomputable def tryParts (lib : Lib) (sw : Switches) : List Part → Mach Held → Ending (Mach Held × Prop)
  | [], m => .returns (m, True)
  | p :: ps, m => (tryPart lib sw p m).bind fun a => if a.2 then tryParts lib sw ps a.1 else .returns (a.1, False)

/-! ### Actions -/

/-- What an action other than `block` does to the machine and to the number of the chain to
go on with. -/
def does {K : Type} (S : Sight K) (x : Mach K × Nat) : HostAct → Mach K × Nat
  | .deny => (say S b!"ModSecurity: Access denied with code 403"
      { x.1 with verdict := { x.1.verdict with status := denialStatus x.1, disruptive := true } }, x.2)
  | .log => (say S (b!"ModSecurity: running action in phase " ++ itoa x.1.phase ++ b!" rule " ++ itoa x.1.rule) x.1, x.2)
  | .pass => ({ x.1 with verdict := { status := 200 } }, x.2)
  | .skip => (x.1, (x.1.rule + 2).toNat)
  | .status n => ({ x.1 with chosen := some n }, x.2)
  | .allow arg =>
    if arg = [] then (goto 6 x.1, 0)
    else if arg = b!"phase" then (goto (x.1.phase + 1) x.1, 0)
    else if arg = b!"request" then (goto 4 x.1, 0)
    else x
  | .block => x

/-- When an action has its turn. -/
def turnOf : HostAct → Nat
  | .status _ => 1
  | .log => 2
  | .skip => 4
  | _ => 3

/-- Actions in the order in which they have their turn. -/
def inTurn (as : List HostAct) : List HostAct := [1, 2, 3, 4].flatMap fun n => as.filter fun a => turnOf a = n

/-- The actions of a rule in order, with the default actions in place of `block`. -/
def unfolded (defaults acts : List HostAct) : List HostAct :=
  (inTurn acts).flatMap fun a => if a = .block then inTurn defaults else [a]

/-- What a chain does when it fires.  It does not come to an end when it has `block` and so do
the default actions. -/
def firesParts {K : Type} (S : Sight K) (defaults : List HostAct) (ps : List Part) (x : Mach K × Nat) : Ending (Mach K × Nat) :=
  if HostAct.block ∈ defaults ∧ ∃ p ∈ ps, HostAct.block ∈ p.acts then .hangs
  else .returns ((ps.flatMap fun p => unfolded defaults p.acts).foldl (does S) x)

open Classical in
/-- Evaluate chain number `j`. -/
noncomputable def evalChain (lib : Lib) (sw : Switches) (defaults : List HostAct) (j : Nat) (c : Chain) (m : Mach Held) : Ending (Mach Held × Nat) :=
  (tryParts lib sw c.parts { m with rule := j }).bind fun a =>
    if a.2 then firesParts heldSight defaults c.parts (a.1, j + 1) else .returns (a.1, j + 1)

/-! ### Rules built in Go -/

/-- A selector that is rejected. -/
def Unfit (rx : Bytes → Option (Bytes → Bool)) (s : Bytes) : Prop := ∃ re, IsRegex s re ∧ rx re = none

open Classical in
/-- What a variable made by the host asks for: rejected selectors count for nothing. -/
noncomputable def askOf (rx : Bytes → Option (Bytes → Bool)) : HostVar → Ask
  | .new tk => { name := tk }
  | .include v s => if Unfit rx s then askOf rx v else { askOf rx v with sels := (askOf rx v).sels ++ [.incl s] }
  | .exclude v s => if Unfit rx s then askOf rx v else { askOf rx v with sels := (askOf rx v).sels ++ [.excl s] }
  | .count v => { askOf rx v with counts := (askOf rx v).counts + 1 }

/-- One rule made by the host. -/
noncomputable def partOf (rx : Bytes → Option (Bytes → Bool)) : HostRule → Part
  | .mk _ _ vars trans op not acts _ =>
    { asks := (vars.map (askOf rx)).filter fun a => a.name ≠ .xml
      trans := trans
      op := op.map fun o => { tk := o.1, not := not, arg := o.2 }
      acts := acts }

/-- A rule made by the host, with its sub-rules; those of the sub-rules count for nothing. -/
noncomputable def chainOf (rx : Bytes → Option (Bytes → Bool)) : HostRule → Chain
  | .mk id phase vars trans op not acts subs =>
    { phase := phase, parts := partOf rx (.mk id phase vars trans op not acts subs) :: subs.map (partOf rx) }

/-! ### Rules from texts -/

open Classical in
/-- The action written. -/
noncomputable def actOf (a : PAct) : Option HostAct :=
  match a.tk with
  | .deny => some .deny
  | .skip => some .skip
  | .log => some .log
  | .block => some .block
  | .status => (numberIn a.arg).map .status
  | .allow => if h : ∃ u, Unquoted a.arg u then some (.allow h.choose) else none
  | _ => none

/-- One rule written. -/
noncomputable def partIn (l : Link) : Part where
  asks := l.order.map fun k => { name := k.1, sels := selectors l.rule.vars k.1 k.2, counts := if k.2 then 1 else 0 }
  trans := l.rule.acts.trans
  op := some l.rule.op
  acts := l.rule.acts.action.filterMap actOf

/-- A chain written. -/
noncomputable def chainIn (c : List Link) : Chain where
  phase := chainPhase (c.map Link.rule)
  parts := c.map partIn

end Spec

/-! ### What the rules are -/

/-- The variable is what is asked for. -/
def AskMeans (rx : Bytes → Option (Bytes → Bool)) (a : Ask) (x : Var) : Prop :=
  ∃ f y, (Selectable a.name = true → applySelectors rx {} a.sels = some f) ∧ variableOf f a.name = some y ∧ x = a.counts.repeat Var.count y

/-- The rule is the one described; its sub-rules are left open. -/
structure PartMeans (lib : Lib) (p : Part) (r : Rule) : Prop where
  vars : Pairs (AskMeans lib.rx) p.asks r.vars
  trans : r.trans = p.trans.map transOf
  op : (∃ o op, p.op = some o ∧ r.op = some op ∧ OpMeans lib o op ∧ r.not = o.not) ∨ ((¬ ∃ o, Works lib p o) ∧ r.op = none)
  acts : r.actions = p.acts.map HostAct.make

/-- The rule with its sub-rules has the parts described. -/
def PartsAre (lib : Lib) (c : Chain) (r : Rule) : Prop :=
  ∃ p ps, c.parts = p :: ps ∧ PartMeans lib p r ∧ Pairs (PartMeans lib) ps r.subRules

/-- The rule with its sub-rules is the chain described. -/
structure ChainIs (lib : Lib) (c : Chain) (r : Rule) : Prop where
  phase : r.phase = c.phase
  parts : PartsAre lib c r

theorem repeat_select (upd : Filter → Option Filter) (n : Nat) (y : Var) :
    (n.repeat Var.count y).select upd = (y.select upd).map fun y => n.repeat Var.count y := by
  induction n with
  | zero => simp [Nat.repeat]
  | succ n ih => simp only [Nat.repeat, count_select, ih, Option.map_map]; rfl

theorem selUpd_unfit (rx : Bytes → Option (Bytes → Bool)) (s : Selector) (t : Bytes) (hs : s = .incl t ∨ s = .excl t) (f : Filter) :
    selUpd rx s f = none ↔ Unfit rx t := by
  obtain ⟨v, e, hv⟩ : ∃ v : PVar, selectorOf v = s ∧ v.index = t := by
    rcases hs with rfl | rfl
    · exact ⟨{ tk := .args, index := t }, rfl, rfl⟩
    · exact ⟨{ tk := .args, index := t, exclusion := true }, rfl, rfl⟩
  have key := selUpd_some rx v f
  rw [e, hv] at key
  cases hu : selUpd rx s f with
  | none =>
    refine ⟨fun _ => ?_, fun _ => rfl⟩
    refine Classical.byContradiction fun hn => ?_
    obtain ⟨g, hg⟩ := key.2 fun re hre => by
      cases hr : rx re with
      | none => exact absurd ⟨re, hre, hr⟩ hn
      | some g => exact ⟨g, rfl⟩
    rw [hu] at hg; cases hg
  | some g =>
    refine ⟨(fun h => by cases h), fun ⟨re, h1, h2⟩ => ?_⟩
    obtain ⟨g', hg⟩ := key.1 ⟨g, hu⟩ re h1
    rw [h2] at hg; cases hg

theorem select_means {lib : Lib} {a : Ask} {x : Var} (h : AskMeans lib.rx a x) (s : Selector) (t : Bytes) (hs : s = .incl t ∨ s = .excl t) :
    (Unfit lib.rx t → AskMeans lib.rx a ((x.select (selUpd lib.rx s)).getD x)) ∧
    (¬ Unfit lib.rx t → AskMeans lib.rx { a with sels := a.sels ++ [s] } ((x.select (selUpd lib.rx s)).getD x)) := by
  obtain ⟨f, y, h1, h2, rfl⟩ := h
  rw [repeat_select, select_variableOf _ h2]
  by_cases hsel : Selectable a.name = true
  · rw [if_pos hsel]
    cases hu : selUpd lib.rx s f with
    | none =>
      have hr := (selUpd_unfit lib.rx s t hs f).1 hu
      exact ⟨fun _ => ⟨f, y, h1, h2, rfl⟩, fun hn => absurd hr hn⟩
    | some g =>
      have hr : ¬ Unfit lib.rx t := fun hr => by rw [(selUpd_unfit lib.rx s t hs f).2 hr] at hu; cases hu
      refine ⟨fun h => absurd h hr, fun _ => ?_⟩
      have hx : a.name ≠ .xml := by intro hx; simp only [hx, variableOf] at h2; cases h2
      obtain ⟨z, hz⟩ := variableOf_isSome (f := g) hx
      refine ⟨g, z, fun _ => ?_, hz, by simp [hz]⟩
      show applySelectors lib.rx {} (a.sels ++ [s]) = some g
      rw [applySelectors_concat, h1 hsel]
      exact hu
  · rw [if_neg hsel]
    refine ⟨fun _ => ⟨f, y, h1, h2, rfl⟩, fun _ => ⟨f, y, fun h => absurd h hsel, h2, rfl⟩⟩

/-- Variables made by the host. -/
theorem askOf_means (lib : Lib) (v : HostVar) :
    ((askOf lib.rx v).name = .xml ∧ v.make lib = none) ∨
    ((askOf lib.rx v).name ≠ .xml ∧ ∃ x, v.make lib = some x ∧ AskMeans lib.rx (askOf lib.rx v) x) := by
  induction v with
  | new tk =>
    by_cases hx : tk = .xml
    · subst hx; exact .inl ⟨rfl, rfl⟩
    · obtain ⟨y, hy⟩ := variableOf_isSome (f := {}) hx
      exact .inr ⟨hx, y, (variableFactory_eq tk).trans hy, {}, y, (fun _ => rfl), hy, rfl⟩
  | «include» v s ih =>
    by_cases hr : Unfit lib.rx s
    · have e : askOf lib.rx (.«include» v s) = askOf lib.rx v := by rw [askOf, if_pos hr]
      rw [e]
      rcases ih with ⟨h1, h2⟩ | ⟨h1, x, h2, h3⟩
      · exact .inl ⟨h1, by simp only [HostVar.make, h2]; rfl⟩
      · exact .inr ⟨h1, _, by simp only [HostVar.make, h2]; rfl, (select_means h3 (.incl s) s (.inl rfl)).1 hr⟩
    · have e : askOf lib.rx (.«include» v s) = { askOf lib.rx v with sels := (askOf lib.rx v).sels ++ [.incl s] } := by rw [askOf, if_neg hr]
      rw [e]
      rcases ih with ⟨h1, h2⟩ | ⟨h1, x, h2, h3⟩
      · exact .inl ⟨h1, by simp only [HostVar.make, h2]; rfl⟩
      · exact .inr ⟨h1, _, by simp only [HostVar.make, h2]; rfl, (select_means h3 (.incl s) s (.inl rfl)).2 hr⟩
  | exclude v s ih =>
    by_cases hr : Unfit lib.rx s
    · have e : askOf lib.rx (.exclude v s) = askOf lib.rx v := by rw [askOf, if_pos hr]
      rw [e]
      rcases ih with ⟨h1, h2⟩ | ⟨h1, x, h2, h3⟩
      · exact .inl ⟨h1, by simp only [HostVar.make, h2]; rfl⟩
      · exact .inr ⟨h1, _, by simp only [HostVar.make, h2]; rfl, (select_means h3 (.excl s) s (.inr rfl)).1 hr⟩
    · have e : askOf lib.rx (.exclude v s) = { askOf lib.rx v with sels := (askOf lib.rx v).sels ++ [.excl s] } := by rw [askOf, if_neg hr]
      rw [e]
      rcases ih with ⟨h1, h2⟩ | ⟨h1, x, h2, h3⟩
      · exact .inl ⟨h1, by simp only [HostVar.make, h2]; rfl⟩
      · exact .inr ⟨h1, _, by simp only [HostVar.make, h2]; rfl, (select_means h3 (.excl s) s (.inr rfl)).2 hr⟩
  | count v ih =>
    rcases ih with ⟨h1, h2⟩ | ⟨h1, x, h2, f, y, h3, h4, rfl⟩
    · exact .inl ⟨h1, by simp only [HostVar.make, h2]; rfl⟩
    · exact .inr ⟨h1, _, by simp only [HostVar.make, h2]; rfl, f, y, h3, h4, rfl⟩

theorem asksOf_means (lib : Lib) (vs : List HostVar) :
    Pairs (AskMeans lib.rx) ((vs.map (askOf lib.rx)).filter fun a => a.name ≠ .xml) (vs.filterMap (HostVar.make lib)) := by
  induction vs with
  | nil => exact .nil
  | cons v vs ih =>
    rw [List.map_cons, List.filter_cons, List.filterMap_cons]
    rcases askOf_means lib v with ⟨h1, h2⟩ | ⟨h1, x, h2, h3⟩
    · rw [h2, if_neg (by simp [h1])]; exact ih
    · rw [h2, if_pos (by simp [h1])]; exact .cons h3 ih

theorem hostOperator_eq (lib : Lib) (o : POp) : hostOperator lib o.tk o.arg = (match applyOperator lib o with | .ok op => some op | .error _ => none) := by
  obtain ⟨tk, no, arg⟩ := o
  cases tk <;> simp only [hostOperator, applyOperator]
  case rx => cases newOperatorRx lib arg <;> rfl
  all_goals cases newOperatorCompare _ arg <;> rfl


/-- Rules made by the host. -/
theorem partOf_means (lib : Lib) (r : HostRule) : PartMeans lib (partOf lib.rx r) (r.make lib) := by
  obtain ⟨id, phase, vars, trans, op, no, acts, subs⟩ := r
  rw [HostRule.make]
  refine ⟨asksOf_means lib vars, ?_, ?_, rfl⟩
  · show trans.map transFactory = trans.map transOf
    exact List.map_congr_left fun x _ => by cases x <;> rfl
  · cases op with
    | none => exact .inr ⟨(fun ⟨o, h, _⟩ => by cases h), rfl⟩
    | some o =>
      have hs := applyOperator_spec lib { tk := o.1, not := no, arg := o.2 }
      have he := hostOperator_eq lib { tk := o.1, not := no, arg := o.2 }
      rcases hs with ⟨op, h1, h2⟩ | ⟨h1, e, h2⟩
      · rw [h1] at he
        exact .inl ⟨_, op, rfl, he, h2, rfl⟩
      · rw [h2] at he
        exact .inr ⟨fun ⟨o', h, h'⟩ => by cases h; exact h1 h', he⟩

theorem makeAll_eq (lib : Lib) (rs : List HostRule) : HostRule.makeAll lib rs = rs.map (HostRule.make lib) := by
  induction rs with
  | nil => rfl
  | cons r rs ih => rw [HostRule.makeAll, ih]; rfl

theorem pairs_maps {α β γ : Type} {R : β → γ → Prop} {f : α → β} {g : α → γ} (h : ∀ a, R (f a) (g a)) (l : List α) : Pairs R (l.map f) (l.map g) := by
  induction l with
  | nil => exact .nil
  | cons a l ih => exact .cons (h a) ih

theorem chainOf_is (lib : Lib) (r : HostRule) : ChainIs lib (chainOf lib.rx r) (r.make lib) := by
  have hp := partOf_means lib r
  obtain ⟨id, phase, vars, trans, op, no, acts, subs⟩ := r
  refine ⟨by rw [HostRule.make]; rfl, _, _, rfl, hp, ?_⟩
  rw [HostRule.make]
  show Pairs _ _ (HostRule.makeAll lib subs)
  rw [makeAll_eq]
  exact pairs_maps (partOf_means lib) subs

/-! ### Rules from texts -/

theorem actOf_means {a : PAct} {y : Action} (h : ActMeans a y) : ∃ d, actOf a = some d ∧ y = d.make := by
  cases h with
  | deny => exact ⟨.deny, rfl, rfl⟩
  | skip => exact ⟨.skip, rfl, rfl⟩
  | log => exact ⟨.log, rfl, rfl⟩
  | block => exact ⟨.block, rfl, rfl⟩
  | @status arg u n hu hn => exact ⟨.status n, by simp only [actOf, numberIn_eq hu hn]; rfl, rfl⟩
  | @allow arg u hu =>
    have hex : ∃ u, Unquoted arg u := ⟨u, hu⟩
    refine ⟨.allow hex.choose, by simp only [actOf]; rw [dif_pos hex], ?_⟩
    rw [hex.choose_spec.unique hu]; rfl

theorem actsOf_means {as : List PAct} {ys : List Action} (h : Pairs ActMeans (as.filter fun a => (metaName a.tk).isNone) ys) :
    ys = (as.filterMap actOf).map HostAct.make := by
  induction as generalizing ys with
  | nil => cases h; rfl
  | cons a as ih =>
    rw [List.filter_cons] at h
    split at h
    · cases h with
      | @cons _ y _ ys ha h =>
        obtain ⟨d, h1, h2⟩ := actOf_means ha
        rw [List.filterMap_cons, h1, ih h, h2]; rfl
    · rename_i hm
      have : actOf a = none := by
        obtain ⟨tk, arg⟩ := a
        cases tk <;> first | rfl | exact absurd rfl hm
      rw [List.filterMap_cons, this, ih h]

theorem partIn_means {lib : Lib} {l : Link} {r : Rule} (h : LinkMeans lib l r) : PartMeans lib (partIn l) r := by
  refine ⟨?_, h.rule.trans, ?_, actsOf_means h.rule.actions⟩
  · have : ∀ {ks : List (VarTok × Bool)} {xs : List Var}, Pairs (Carries lib.rx l.rule.vars) ks xs →
        Pairs (AskMeans lib.rx) (ks.map fun k => ({ name := k.1, sels := selectors l.rule.vars k.1 k.2, counts := if k.2 then 1 else 0 } : Ask)) xs := by
      intro ks xs hp
      induction hp with
      | nil => exact .nil
      | @cons k x _ _ hc _ ih =>
        refine .cons ?_ ih
        obtain ⟨f, y, h1, h2, h3⟩ := hc
        refine ⟨f, y, h1, h2, ?_⟩
        rw [h3]
        obtain ⟨v, b⟩ := k
        cases b <;> simp [Nat.repeat]
    exact this h.order
  · obtain ⟨op, h1, h2⟩ := h.rule.op
    exact .inl ⟨_, op, rfl, h1, h2, h.rule.not⟩

theorem chainIn_is {lib : Lib} {c : List Link} {r : Rule} (h : LinksMean lib c r) : ChainIs lib (chainIn c) r := by
  obtain ⟨l, ls, r0, ss, rfl, hl, hls, rfl⟩ := h
  refine ⟨by simpa [chainIn, chainPhase] using hl.rule.phase, _, _, rfl, ?_, ?_⟩
  · obtain ⟨h1, h2, h3, h4⟩ := partIn_means hl
    exact ⟨h1, h2, h3, h4⟩
  · induction hls with
    | nil => exact .nil
    | cons h _ ih => exact .cons (partIn_means h) ih

/-! ### Conditions -/

theorem askEach_facts {lib : Lib} {sw : Switches} {o : List Ask} : ∀ {k : Held} {a}, askEach lib sw o k = .returns a → a.2.1.facts = k.facts := by
  induction o with
  | nil => intro k a h; cases h; rfl
  | cons v o ih =>
    intro k a h
    obtain ⟨b, h1, h2⟩ := bind_returns (x := ask lib sw k v.name) h
    obtain ⟨c, h3, h4⟩ := bind_returns (x := askEach lib sw o b.2.1) h2
    cases h4
    exact (ih h3).trans (ask_facts h1)

section
variable {env : Env} {G : Int → Int → Prop} {h : List Op}

/-- The values of a variable that is counted. -/
def tallied (n : Nat) (vals : List Bytes) : List Bytes :=
  match n with
  | 0 => vals
  | 1 => [itoa vals.length]
  | _ => [b!"1"]

theorem fetch_tallied (n : Nat) (y : Var) (t : Tx) :
    (n.repeat Var.count y).fetch env t = (y.fetch env t).bind fun p => .ok (tallied n p.1, p.2) := by
  induction n with
  | zero => simp only [Nat.repeat, tallied]; cases y.fetch env t <;> rfl
  | succ n ih =>
    simp only [Nat.repeat, Var.fetch, ih]
    cases y.fetch env t with
    | ok p =>
      simp only [Res.bind_ok']
      match n with
      | 0 => rfl
      | 1 => exact congrArg (fun a => Res.ok ([a], p.2)) (by decide +kernel : itoa ((1 : Nat) : Int) = b!"1")
      | n + 2 => exact congrArg (fun a => Res.ok ([a], p.2)) (by decide +kernel : itoa ((1 : Nat) : Int) = b!"1")
    | panic => rfl
    | fuel => rfl

/-- Asking for the variables of a rule. -/
theorem built_fetches {as : List Ask} {xs : List Var} (hp : Pairs (AskMeans env.lib.rx) as xs) :
    ∀ {m : Mach Held} {t : Tx}, Agree (heldView env G) h m t →
    match askEach env.lib env.limits.switches as m.known with
    | .returns a => ∃ ys u, FetchedValues env xs t ys u ∧ SameCursor t u ∧ (∀ y, (∃ s, (s, y) ∈ ys) ↔ a.1 y) ∧
        Agree (heldView env G) h (refuse a.2.2 { m with known := a.2.1 }) u
    | .panics => ∀ r, fetchVars env r xs t = .panic
    | .hangs => ∀ r, fetchVars env r xs t = .fuel := by
  induction hp with
  | nil => intro m t ha; exact ⟨[], t, .nil, .refl t, fun y => ⟨(fun ⟨_, h⟩ => by cases h), fun h => False.elim h⟩, ha⟩
  | @cons k x ks xs hc _ ih =>
    intro m t ha
    obtain ⟨f, y, hsel, hy, hxy⟩ := hc
    have hfe := held_fetch ha hy (P := Picked env.lib.rx k.sels) (fun hs => keep_picked (hsel hs))
    have hval : ∀ r : Res (List Bytes × Tx), y.fetch env t = r →
        x.fetch env t = r.bind fun p => .ok (tallied k.counts p.1, p.2) := by
      rintro _ rfl
      rw [hxy, fetch_tallied]
    rw [askEach]
    cases ea : ask env.lib env.limits.switches m.known k.name with
    | panics =>
      rw [ea] at hfe
      have hfe : y.fetch env t = .panic := hfe
      intro r
      simp only [fetchVars, Rule.transformVariable, hval _ hfe]; rfl
    | hangs =>
      rw [ea] at hfe
      have hfe : y.fetch env t = .fuel := hfe
      intro r
      simp only [fetchVars, Rule.transformVariable, hval _ hfe]; rfl
    | returns a =>
      rw [ea] at hfe
      obtain ⟨vals, u, h1, h2, h3, h4⟩ := hfe
      have hval := hval _ h1
      have hkn : (refuse a.2.2 { m with known := a.2.1 }).known = a.2.1 := (refuse_keeps _ _).1
      have i := ih h4
      rw [hkn] at i
      simp only [Ending.bind]
      cases eb : askEach env.lib env.limits.switches ks a.2.1 with
      | panics =>
        rw [eb] at i
        intro r
        simp only [fetchVars, Rule.transformVariable, hval, Res.bind_ok', i r]; rfl
      | hangs =>
        rw [eb] at i
        intro r
        simp only [fetchVars, Rule.transformVariable, hval, Res.bind_ok', i r]; rfl
      | returns b =>
        rw [eb] at i
        obtain ⟨ys, t', i1, i2, i3, i4⟩ := i
        have hfk : b.2.1.facts = a.2.1.facts := askEach_facts eb
        refine ⟨_, t', .cons hval i1, h2.trans i2, fun y => ?_, ?_⟩
        · have : y ∈ tallied k.counts vals ↔ ∃ vals, a.1 (Picked env.lib.rx k.sels) vals ∧ counted k.counts vals y := by
            have perm : ∀ {vals'}, a.1 (Picked env.lib.rx k.sels) vals' → vals'.Perm vals := fun g3 => ask_perm ea g3 h3
            match hk : k.counts with
            | 0 =>
              refine ⟨fun hy => ⟨vals, h3, hy⟩, fun ⟨vals', g3, g4⟩ => (perm g3).mem_iff.1 g4⟩
            | 1 =>
              refine ⟨fun hy => ⟨vals, h3, List.mem_singleton.1 hy⟩, fun ⟨vals', g3, g4⟩ => ?_⟩
              have g4 : y = itoa vals'.length := g4
              rw [(perm g3).length_eq] at g4
              exact List.mem_singleton.2 g4
            | n + 2 =>
              exact ⟨fun hy => ⟨vals, h3, List.mem_singleton.1 hy⟩, fun ⟨vals', g3, g4⟩ => List.mem_singleton.2 g4⟩
          show _ ↔ _ ∨ _
          rw [← this, ← i3]
          simp only [List.mem_append, List.mem_map, Prod.mk.injEq]
          constructor
          · rintro ⟨s, ⟨z, h, _, rfl⟩ | h⟩
            · exact .inl h
            · exact .inr ⟨s, h⟩
          · rintro (h | ⟨s, h⟩)
            · exact ⟨u, .inl ⟨y, h, rfl, rfl⟩⟩
            · exact ⟨s, .inr h⟩
        · show Agree (heldView env G) h (refuse (a.2.2 ++ b.2.2) { m with known := b.2.1 }) t'
          have e : refuse b.2.2 { refuse a.2.2 { m with known := a.2.1 } with known := b.2.1 } = refuse (a.2.2 ++ b.2.2) { m with known := b.2.1 } := by
            rw [← refuse_append, ← refuse_known a.2.2 { m with known := a.2.1 } (k := b.2.1) hfk]
          rw [← e]
          exact i4

theorem fetched_some {r : Rule} {xs : List Var} {t u : Tx} {ys : List (Tx × Bytes)} (hys : FetchedValues env xs t ys u) :
    ∀ {out v}, fetchVars env r xs t = .ok (out, v) → (out = [] ↔ ys = []) := by
  induction hys with
  | nil => intro out v hout; cases hout; simp
  | cons h _ ih =>
    intro out v hout
    simp only [fetchVars, Rule.transformVariable, h, Res.bind_ok'] at hout
    obtain ⟨⟨out', v'⟩, g1, g2⟩ := Res.bind_eq_ok.1 hout
    cases g2
    simp [ih g1]

/-- The condition of a rule. -/
theorem built_test {p : Part} {r : Rule} (hp : PartMeans env.lib p r) {m : Mach Held} {t : Tx}
    (ha : Agree (heldView env G) h m t) (hab : m.aborted = false) :
    match tryPart env.lib env.limits.switches p m with
    | .returns a => ∃ b u, r.matches env t = .ok (b, u) ∧ SameCursor t u ∧ Agree (heldView env G) h a.1 u ∧ (b = true ↔ a.2)
    | .panics => r.matches env t = .panic
    | .hangs => r.matches env t = .fuel := by
  have hh := built_fetches hp.vars ha
  rw [tryPart]
  cases ea : askEach env.lib env.limits.switches p.asks m.known with
  | panics =>
    rw [ea] at hh
    exact (by simp only [Rule.matches, hh r]; rfl : r.matches env t = .panic)
  | hangs =>
    rw [ea] at hh
    exact (by simp only [Rule.matches, hh r]; rfl : r.matches env t = .fuel)
  | returns a =>
    rw [ea] at hh
    obtain ⟨ys, u, hys, hcu, hval, hag⟩ := hh
    obtain ⟨out, hout⟩ := fetchVars_total (r := r) hys
    have hzero : u.abort = false ↔ a.2.2 = [] := by
      rw [hag.aborted]
      constructor
      · intro h0
        rcases refuse_nil_or a.2.2 { m with known := a.2.1 } with ⟨e, _⟩ | ⟨e, _⟩
        · exact e
        · rw [e] at h0; cases h0
      · intro h0
        rw [h0]
        exact hab
    simp only [Ending.bind]
    rcases hp.op with ⟨o, op, hpo, ho, hom, hnot⟩ | ⟨hno, ho⟩
    · have hw : Works env.lib p o := ⟨hpo, op, hom⟩
      rw [if_neg (fun hc => hc.2.2 ⟨o, hw⟩)]
      obtain ⟨b, hm⟩ : ∃ b, r.matches env t = .ok (b, u) := by
        simp only [Rule.matches, hout, Res.bind_ok', matchLoop_iff ho]
        exact ⟨_, rfl⟩
      refine ⟨b, u, hm, hcu, hag, ?_⟩
      obtain ⟨ys', hys', hb⟩ := C09_condition ho hm
      obtain ⟨rfl, _⟩ := fetchedValues_unique hys hys'
      have eqv : ∀ s y, (op.run u (pipe env.lib s r.trans y) ≠ r.not) ↔
          (Accepts env.lib o (pipe env.lib (newTransaction newDefaultLimits) (p.trans.map transOf) y) ↔ o.not = false) := by
        intro s y
        rw [hp.trans, hnot, pipe_builtin env.lib _ s (newTransaction newDefaultLimits), ← accepts_iff hom u]
        cases op.run u _ <;> cases o.not <;> simp
      rw [hb, hzero]
      show _ ↔ _ ∧ _
      refine and_congr_right fun _ => ⟨?_, ?_⟩
      · rintro ⟨⟨s, y⟩, hy, hne⟩
        exact ⟨o, y, hw, (hval y).1 ⟨s, hy⟩, (eqv s y).1 hne⟩
      · rintro ⟨o', y, hw', hy, hne⟩
        have : o' = o := Option.some.inj (hw'.1.symm.trans hpo)
        subst this
        obtain ⟨s, hs⟩ := (hval y).2 hy
        exact ⟨(s, y), hs, (eqv s y).2 hne⟩
    · have hm : r.matches env t = (matchLoop r u out).bind fun b => .ok (b, u) := by
        simp only [Rule.matches, hout, Res.bind_ok']
      have hsome : (∃ y, a.1 y) ↔ out ≠ [] := by
        rw [Ne, fetched_some hys hout]
        constructor
        · rintro ⟨y, hy⟩ e
          obtain ⟨s, hs⟩ := (hval y).2 hy
          rw [e] at hs; cases hs
        · intro hne
          cases ys with
          | nil => exact absurd rfl hne
          | cons z ys => exact ⟨z.2, (hval z.2).1 ⟨z.1, List.mem_cons_self⟩⟩
      by_cases hc : a.2.2 = [] ∧ (∃ y, a.1 y) ∧ ¬ ∃ o, Works env.lib p o
      · rw [if_pos hc]
        show r.matches env t = .panic
        obtain ⟨h0, hy, _⟩ := hc
        rw [hm]
        cases out with
        | nil => exact absurd rfl (hsome.1 hy)
        | cons v out => simp only [matchLoop, hzero.2 h0, ho]; rfl
      · rw [if_neg hc]
        refine ⟨false, u, ?_, hcu, hag, (fun h => by cases h), fun hh => ?_⟩
        · rw [hm]
          cases out with
          | nil => rfl
          | cons v out =>
            have : u.abort = true := by
              cases hu : u.abort with
              | true => rfl
              | false => exact absurd ⟨hzero.1 hu, hsome.2 (by simp), hno⟩ hc
            simp only [matchLoop, this]; rfl
        · obtain ⟨_, o, _, hw, _⟩ := hh
          exact absurd ⟨o, hw⟩ hno

end

theorem tryPart_keeps {lib : Lib} {sw : Switches} {p : Part} {m : Mach Held} {a} (hab : m.aborted = false) (ht : tryPart lib sw p m = .returns a) :
    a.1.rule = m.rule ∧ (a.2 → a.1.aborted = false) ∧ (a.1.aborted = false ∨ a.1.verdict.disruptive = true) := by
  obtain ⟨b, h1, h2⟩ := bind_returns (x := askEach lib sw p.asks m.known) ht
  split at h2
  · cases h2
  cases h2
  refine ⟨(refuse_keeps _ _).2, fun hh => ?_, ?_⟩
  · have e : b.2.2 = [] := hh.1
    show (refuse b.2.2 _).aborted = false
    rw [e]; exact hab
  · rcases refuse_nil_or b.2.2 { m with known := b.2.1 } with ⟨_, e⟩ | e
    · refine .inl ?_
      show (refuse b.2.2 _).aborted = false
      rw [e]; exact hab
    · exact .inr e.2

theorem tryParts_keep {lib : Lib} {sw : Switches} {c : List Part} : ∀ {m : Mach Held} {a}, m.aborted = false → tryParts lib sw c m = .returns a →
    a.1.rule = m.rule ∧ (a.2 → a.1.aborted = false) ∧ (a.1.aborted = false ∨ a.1.verdict.disruptive = true) := by
  induction c with
  | nil => intro m a hab h; cases h; exact ⟨rfl, fun _ => hab, .inl hab⟩
  | cons l c ih =>
    intro m a hab h
    obtain ⟨b, h1, h2⟩ := bind_returns (x := tryPart lib sw l m) h
    obtain ⟨k1, k2, k3⟩ := tryPart_keeps hab h1
    split at h2
    · rename_i ht
      obtain ⟨i1, i2, i3⟩ := ih (k2 ht) h2
      exact ⟨i1.trans k1, i2, i3⟩
    · cases h2
      exact ⟨k1, fun h => h.elim, k3⟩

section
variable {env : Env} {G : Int → Int → Prop} {h : List Op}

/-- The conditions of the rules of a chain after its first. -/
theorem built_subs {ps : List Part} {ss : List Rule} (hp : Pairs (PartMeans env.lib) ps ss) : ∀ {m : Mach Held} {t : Tx},
    Agree (heldView env G) h m t → m.aborted = false →
    match tryParts env.lib env.limits.switches ps m with
    | .returns a => ∃ b u, matchSubs env ss t = .ok (b, u) ∧ SameCursor t u ∧ Agree (heldView env G) h a.1 u ∧ (b = true ↔ a.2)
    | .panics => matchSubs env ss t = .panic
    | .hangs => matchSubs env ss t = .fuel := by
  induction hp with
  | nil => intro m t ha _; exact ⟨true, t, rfl, .refl t, ha, by simp⟩
  | @cons p r ps ss hl _ ih =>
    intro m t ha hab
    have hh := built_test hl ha hab
    rw [tryParts]
    cases ea : tryPart env.lib env.limits.switches p m with
    | panics => rw [ea] at hh; exact (by simp only [matchSubs, show r.matches env t = .panic from hh]; rfl : matchSubs env (r :: ss) t = .panic)
    | hangs => rw [ea] at hh; exact (by simp only [matchSubs, show r.matches env t = .fuel from hh]; rfl : matchSubs env (r :: ss) t = .fuel)
    | returns a =>
      rw [ea] at hh
      obtain ⟨b, u, g1, g2, g3, g4⟩ := hh
      simp only [Ending.bind]
      cases b with
      | false =>
        have hno : ¬ a.2 := fun hh => by cases g4.2 hh
        rw [if_neg hno]
        exact ⟨false, u, by simp only [matchSubs, g1, Res.bind_ok']; rfl, g2, g3, ⟨(fun h => by cases h), fun h => False.elim h⟩⟩
      | true =>
        have hyes := g4.1 rfl
        rw [if_pos hyes]
        have hsub : ∀ x, matchSubs env ss u = x → matchSubs env (r :: ss) t = x := by
          rintro _ rfl
          simp only [matchSubs, g1, Res.bind_ok']
          rfl
        have i := ih g3 ((tryPart_keeps hab ea).2.1 hyes)
        cases em : tryParts env.lib env.limits.switches ps a.1 with
        | panics => rw [em] at i; exact hsub _ i
        | hangs => rw [em] at i; exact hsub _ i
        | returns a' =>
          rw [em] at i
          obtain ⟨b, u', i1, i2, i3, i4⟩ := i
          exact ⟨b, u', hsub _ i1, g2.trans i2, i3, i4⟩

/-- The conditions of a chain. -/
theorem built_run {p : Part} {ps : List Part} {r : Rule} (hp : PartMeans env.lib p r) (hps : Pairs (PartMeans env.lib) ps r.subRules) {m : Mach Held}
    {t : Tx} (ha : Agree (heldView env G) h m t) (hab : m.aborted = false) (rs : RuleSet) :
    match tryParts env.lib env.limits.switches (p :: ps) m with
    | .returns a => ∃ b u, (∀ n, Rule.run env rs n r t = if b = true then
          (actionsExecute (Action.run rs n) r.actions u).bind fun t => subActions rs n r.subRules t else .ok u) ∧
        SameCursor t u ∧ Agree (heldView env G) h a.1 u ∧ (b = true ↔ a.2)
    | .panics => ∀ n, Rule.run env rs n r t = .panic
    | .hangs => ∀ n, Rule.run env rs n r t = .fuel := by
  have hh := built_test hp ha hab
  rw [tryParts]
  cases ea : tryPart env.lib env.limits.switches p m with
  | panics =>
    rw [ea] at hh
    have hh : Rule.matches env r t = .panic := hh
    intro n
    simp only [Rule.run, hh]; rfl
  | hangs =>
    rw [ea] at hh
    have hh : Rule.matches env r t = .fuel := hh
    intro n
    simp only [Rule.run, hh]; rfl
  | returns a =>
    rw [ea] at hh
    obtain ⟨b, u, g1, g2, g3, g4⟩ := hh
    simp only [Ending.bind]
    cases b with
    | false =>
      have hno : ¬ a.2 := fun hh => by cases g4.2 hh
      rw [if_neg hno]
      exact ⟨false, u, (fun n => by simp only [Rule.run, g1, Res.bind_ok']; rfl), g2, g3, ⟨(fun h => by cases h), fun h => False.elim h⟩⟩
    | true =>
      have hyes := g4.1 rfl
      rw [if_pos hyes]
      have i := built_subs hps g3 ((tryPart_keeps hab ea).2.1 hyes)
      cases em : tryParts env.lib env.limits.switches ps a.1 with
      | panics =>
        rw [em] at i
        have i : matchSubs env r.subRules u = .panic := i
        intro n
        simp only [Rule.run, g1, Res.bind_ok', Bool.not_true, Bool.false_eq_true, if_false, i]; rfl
      | hangs =>
        rw [em] at i
        have i : matchSubs env r.subRules u = .fuel := i
        intro n
        simp only [Rule.run, g1, Res.bind_ok', Bool.not_true, Bool.false_eq_true, if_false, i]; rfl
      | returns a' =>
        rw [em] at i
        obtain ⟨b, u', i1, i2, i3, i4⟩ := i
        refine ⟨b, u', (fun n => ?_), g2.trans i2, i3, i4⟩
        simp only [Rule.run, g1, Res.bind_ok', Bool.not_true, Bool.false_eq_true, if_false, i1]
        cases b <;> rfl

end

/-! ### Actions -/

section
variable {env : Env} {V : View env} {S : Sight V.K} {h : List Op} {t : Tx}

/-- An action other than `block`. -/
theorem does_at {rs : RuleSet} (hs : Sees V S) {q : Int} (hlen : 0 < (rs.phases q).length) 
    {x : Mach V.K × Nat} (hb : Acting V h q (rs.phases q).length x t) {a : HostAct} (hnb : a ≠ .block) :
    ∃ t', (∀ n, Action.run rs n a.make t = .ok t') ∧ Acting V h q (rs.phases q).length (does S x a) t' := by
  obtain ⟨m, j⟩ := x
  obtain ⟨ha, hcur, hlow, hnext⟩ := hb
  simp only at ha hcur hlow hnext
  cases a with
  | block => exact absurd rfl hnb
  | deny =>
    obtain ⟨_, _, _, _, _, _, d7⟩ := C26_deny t
    have e : ∀ {α : Type} (f : Tx → α), f { denyDo t with interv := t.interv } = f t := fun f => by rw [d7]
    have hd := fun a htk => ha.deny hs a htk
    refine ⟨denyDo t, fun n => by simp only [HostAct.make, Action.run], hd ⟨.deny, []⟩ rfl, hcur, hlow, fun hph => ?_⟩
    rw [show (denyDo t).nextRule = _ from e Tx.nextRule]
    exact hnext ((e Tx.phase).symm.trans hph)
  | log =>
    refine ⟨logDo t, fun n => by simp only [HostAct.make, Action.run], ?_, hcur, hlow, hnext⟩
    have := ha.say hs (b!"ModSecurity: running action in phase " ++ itoa t.phase ++ b!" rule " ++ itoa t.currentRule)
    rw [ha.phase, hcur] at this
    simp only [logDo, ha.phase, hcur]
    exact this
  | pass =>
    refine ⟨t.resetIntervention, fun n => by simp only [HostAct.make, Action.run], ?_, hcur, hlow, hnext⟩
    exact ha.congr rfl rfl ha.phase rfl ha.chosen ha.aborted ha.low ha.high
  | skip =>
    have e1 : (skipDo rs t).phase = t.phase := by simp only [skipDo, Tx.jumpTo]; split <;> rfl
    have e2 : (skipDo rs t).currentRule = t.currentRule := by simp only [skipDo, Tx.jumpTo]; split <;> rfl
    refine ⟨skipDo rs t, fun n => by simp only [HostAct.make, Action.run], ?_, e2.trans hcur, hlow, fun hph => ?_⟩
    · refine ha.congr ?_ rfl ?_ ?_ ?_ ?_ ?_ ?_ <;> simp only [skipDo, Tx.jumpTo] <;> split <;>
        first | rfl | exact ha.phase | exact ha.verdict | exact ha.chosen | exact ha.aborted | exact ha.low | exact ha.high
    · rw [e1] at hph
      show (skipDo rs t).nextRule = slot _ (m.rule + 2).toNat
      simp only [skipDo, Tx.jumpTo, slot, statusEndOfRules, hcur, hph]
      by_cases hl : (rs.phases q).length ≤ (m.rule + 2).toNat
      · rw [if_pos (by omega), if_pos hl]
      · rw [if_neg (by omega), if_neg hl]; simp; omega
  | status k =>
    refine ⟨t.setData b!"status" (.int k), fun n => by simp only [HostAct.make, Action.run], ?_, hcur, hlow, hnext⟩
    refine ha.congr rfl rfl ha.phase ha.verdict ?_ ha.aborted ha.low ha.high
    simp [Tx.getData, Tx.setData, does]
  | allow u =>
    have s0 : slot (rs.phases q).length 0 = 0 := if_neg (by omega)
    have go : ∀ (p : Int), does S (m, j) (.allow u) = (goto p m, 0) → allowDo u t = t.jumpToPhase p →
        ∃ t', (∀ n, Action.run rs n (.allow u) t = .ok t') ∧ Acting V h q (rs.phases q).length (does S (m, j) (.allow u)) t' := by
      intro p e1 e2
      refine ⟨allowDo u t, fun n => by simp only [Action.run], ?_⟩
      rw [e2, e1]
      exact ⟨ha.goto p, rfl, by show (-1 : Int) ≤ -1; omega, fun _ => s0.symm⟩
    by_cases h1 : u = []
    · exact go 6 (if_pos h1) (by simp [allowDo, phaseLogging, h1])
    · by_cases h2 : u = b!"phase"
      · refine go (t.phase + 1) ((if_neg h1).trans ((if_pos h2).trans ?_)) ((if_neg h1).trans (if_pos h2))
        rw [ha.phase]
      · by_cases h3 : u = b!"request"
        · exact go 4 ((if_neg h1).trans ((if_neg h2).trans (if_pos h3))) ((if_neg h1).trans ((if_neg h2).trans (if_pos h3)))
        · have e1 : does S (m, j) (.allow u) = (m, j) := (if_neg h1).trans ((if_neg h2).trans (if_neg h3))
          have e2 : allowDo u t = t := (if_neg h1).trans ((if_neg h2).trans (if_neg h3))
          refine ⟨t, fun n => by simp only [HostAct.make, Action.run, e2], ?_⟩
          rw [e1]
          exact ⟨ha, hcur, hlow, hnext⟩

theorem turn_of_group (a : HostAct) : a.make.group = turnOf a := by cases a <;> rfl

theorem grouped_make (as : List HostAct) : grouped (as.map HostAct.make) = (inTurn as).map HostAct.make := by
  have key : ∀ n : Nat, inGroup n (as.map HostAct.make) = (as.filter fun a => turnOf a = n).map HostAct.make := by
    intro n
    rw [inGroup, List.filter_map]
    congr 2
    funext a
    show decide (a.make.group = (n : Int)) = _
    rw [turn_of_group]
    exact decide_eq_decide.2 (by omega)
  have h0 : (as.filter fun a => turnOf a = 0) = [] := by
    rw [List.filter_eq_nil_iff]
    intro a _
    cases a <;> simp [turnOf]
  have k0 : inGroup 0 (as.map HostAct.make) = [] := (key 0).trans (by rw [h0]; rfl)
  have k1 : inGroup 1 _ = _ := key 1
  have k2 : inGroup 2 _ = _ := key 2
  have k3 : inGroup 3 _ = _ := key 3
  have k4 : inGroup 4 _ = _ := key 4
  simp only [grouped, inTurn, List.flatMap_cons, List.flatMap_nil, List.append_nil, List.map_append, List.append_assoc, k0, k1, k2, k3, k4, List.nil_append]

theorem exec_make (f : Action → Tx → Res Tx) (as : List HostAct) (t : Tx) :
    actionsExecute f (as.map HostAct.make) t = doAll f ((inTurn as).map HostAct.make) t := by
  simp only [actionsExecute]
  cases hx : actionMap (as.map HostAct.make) (List.replicate groupCount []) with
  | none =>
    obtain ⟨x, hx, hg⟩ := actionMap_none.1 hx
    obtain ⟨a, _, rfl⟩ := List.mem_map.1 hx
    cases a <;> simp [HostAct.make, Action.group, groupData, groupNonDisruptive, groupDisruptive, groupFlow, groupCount] at hg
  | some mm => simp only [actionMap_grouped hx, grouped_make]

theorem mem_inTurn {as : List HostAct} {a : HostAct} : a ∈ inTurn as ↔ a ∈ as := by
  simp only [inTurn, List.mem_flatMap, List.mem_filter]
  constructor
  · rintro ⟨_, _, h, _⟩; exact h
  · intro h
    refine ⟨turnOf a, ?_, h, by simp⟩
    cases a <;> simp [turnOf]

/-- Actions without `block`. -/
theorem dos_at {rs : RuleSet} (hs : Sees V S) {q : Int} (hlen : 0 < (rs.phases q).length) {as : List HostAct} (hnb : HostAct.block ∉ as) :
    ∀ {x : Mach V.K × Nat} {t : Tx}, Acting V h q (rs.phases q).length x t →
    ∃ t', (∀ n, doAll (Action.run rs n) (as.map HostAct.make) t = .ok t') ∧ Acting V h q (rs.phases q).length (as.foldl (does S) x) t' := by
  induction as with
  | nil => intro x t hb; exact ⟨t, fun _ => rfl, hb⟩
  | cons a as ih =>
    intro x t hb
    obtain ⟨t1, g1, g2⟩ := does_at hs hlen hb (a := a) (fun e => hnb (e ▸ List.mem_cons_self))
    obtain ⟨t2, k1, k2⟩ := ih (fun h => hnb (List.mem_cons_of_mem _ h)) g2
    exact ⟨t2, fun n => by simp only [List.map_cons, doAll, g1 n, Res.bind_ok']; exact k1 n, k2⟩

/-- Actions in order, with `block`, when the default actions are without. -/
theorem unfolded_at {rs : RuleSet} {defaults : List HostAct} (hdef : rs.defaultActions = defaults.map HostAct.make) (hs : Sees V S) {q : Int}
    (hlen : 0 < (rs.phases q).length) {as : List HostAct} (hok : ¬ (HostAct.block ∈ defaults ∧ HostAct.block ∈ as)) :
    ∀ {x : Mach V.K × Nat} {t : Tx}, Acting V h q (rs.phases q).length x t →
    ∃ t', (∀ n ≥ 1, doAll (Action.run rs n) (as.map HostAct.make) t = .ok t') ∧
      Acting V h q (rs.phases q).length ((as.flatMap fun a => if a = .block then inTurn defaults else [a]).foldl (does S) x) t' := by
  induction as with
  | nil => intro x t hb; exact ⟨t, fun _ _ => rfl, hb⟩
  | cons a as ih =>
    intro x t hb
    have step : ∃ t', (∀ n ≥ 1, Action.run rs n a.make t = .ok t') ∧
        Acting V h q (rs.phases q).length ((if a = .block then inTurn defaults else [a]).foldl (does S) x) t' := by
      by_cases ha : a = .block
      · subst ha
        rw [if_pos rfl]
        have hnd : HostAct.block ∉ inTurn defaults := fun hd => hok ⟨mem_inTurn.1 hd, List.mem_cons_self⟩
        obtain ⟨t1, g1, g2⟩ := dos_at hs hlen hnd hb
        refine ⟨t1, fun n hn => ?_, g2⟩
        obtain ⟨n, rfl⟩ : ∃ k, n = k + 1 := ⟨n - 1, by omega⟩
        simp only [HostAct.make, Action.run, hdef, exec_make]
        exact g1 n
      · rw [if_neg ha]
        obtain ⟨t1, g1, g2⟩ := does_at hs hlen hb ha
        exact ⟨t1, fun n _ => g1 n, g2⟩
    obtain ⟨t1, g1, g2⟩ := step
    obtain ⟨t2, k1, k2⟩ := ih (fun h => hok ⟨h.1, List.mem_cons_of_mem _ h.2⟩) g2
    refine ⟨t2, fun n hn => by simp only [List.map_cons, doAll, g1 n hn, Res.bind_ok']; exact k1 n hn, ?_⟩
    rw [List.flatMap_cons, List.foldl_append]
    exact k2

/-- The actions of the rules of a chain. -/
theorem parts_at {rs : RuleSet} {defaults : List HostAct} (hdef : rs.defaultActions = defaults.map HostAct.make) (hs : Sees V S) {q : Int}
    (hlen : 0 < (rs.phases q).length) {ps : List Part} {ss : List Rule} (hm : Pairs (fun p r => r.actions = p.acts.map HostAct.make) ps ss) :
    (¬ (HostAct.block ∈ defaults ∧ ∃ p ∈ ps, HostAct.block ∈ p.acts)) → ∀ {x : Mach V.K × Nat} {t : Tx}, Acting V h q (rs.phases q).length x t →
    ∃ t', (∀ n ≥ 1, subActions rs n ss t = .ok t') ∧
      Acting V h q (rs.phases q).length ((ps.flatMap fun p => unfolded defaults p.acts).foldl (does S) x) t' := by
  induction hm with
  | nil => intro _ x t hb; exact ⟨t, fun _ _ => rfl, hb⟩
  | @cons p r ps ss hr _ ih =>
    intro hok x t hb
    obtain ⟨t1, g1, g2⟩ := unfolded_at hdef hs hlen (as := inTurn p.acts) (fun h => hok ⟨h.1, p, List.mem_cons_self, mem_inTurn.1 h.2⟩) hb
    obtain ⟨t2, k1, k2⟩ := ih (fun ⟨h, p, hp, hb⟩ => hok ⟨h, p, List.mem_cons_of_mem _ hp, hb⟩) g2
    refine ⟨t2, fun n hn => ?_, ?_⟩
    · simp only [subActions, hr, exec_make, g1 n hn, Res.bind_ok']; exact k1 n hn
    · rw [List.flatMap_cons, List.foldl_append]
      exact k2

/-- Actions of the stock do not panic. -/
theorem stock_ok (rs : RuleSet) (n : Nat) {a : HostAct} (ha : a ≠ .block) (t : Tx) : ∃ u, Action.run rs n a.make t = .ok u := by
  cases a
  case block => exact absurd rfl ha
  all_goals
    simp only [HostAct.make, Action.run]
    exact ⟨_, rfl⟩

theorem doAll_hangs {rs : RuleSet} {n : Nat} (hb : ∀ t, Action.run rs n .block t = .fuel) {as : List HostAct} (ha : HostAct.block ∈ as) :
    ∀ t, doAll (Action.run rs n) (as.map HostAct.make) t = .fuel := by
  induction as with
  | nil => cases ha
  | cons a as ih =>
    intro t
    rw [List.map_cons, doAll]
    by_cases e : a = .block
    · subst e
      rw [show HostAct.make .block = .block from rfl, hb]; rfl
    · obtain ⟨u, hu⟩ := stock_ok rs n e t
      rw [hu]
      rcases List.mem_cons.1 ha with h | h
      · exact absurd h.symm e
      · exact ih h u

/-- `block` among the default actions never ends. -/
theorem block_hangs {rs : RuleSet} {defaults : List HostAct} (hdef : rs.defaultActions = defaults.map HostAct.make) (hb : HostAct.block ∈ defaults) :
    ∀ n t, Action.run rs n .block t = .fuel := by
  intro n
  induction n with
  | zero => intro t; simp only [Action.run]
  | succ n ih =>
    intro t
    simp only [Action.run, hdef, exec_make]
    exact doAll_hangs ih (mem_inTurn.2 hb) t

theorem doAll_comes {rs : RuleSet} (n : Nat) {as : List HostAct} (ha : HostAct.block ∉ as) :
    ∀ t, ∃ u, doAll (Action.run rs n) (as.map HostAct.make) t = .ok u := by
  induction as with
  | nil => intro t; exact ⟨t, rfl⟩
  | cons a as ih =>
    intro t
    obtain ⟨u, hu⟩ := stock_ok rs n (a := a) (fun e => ha (e ▸ List.mem_cons_self)) t
    obtain ⟨v, hv⟩ := ih (fun h => ha (List.mem_cons_of_mem _ h)) u
    exact ⟨v, by rw [List.map_cons, doAll, hu]; exact hv⟩

theorem parts_hang {rs : RuleSet} {defaults : List HostAct} (hdef : rs.defaultActions = defaults.map HostAct.make) (hb : HostAct.block ∈ defaults)
    {ps : List Part} {ss : List Rule} (hm : Pairs (fun p r => r.actions = p.acts.map HostAct.make) ps ss) :
    (∃ p ∈ ps, HostAct.block ∈ p.acts) → ∀ n t, subActions rs n ss t = .fuel := by
  induction hm with
  | nil => rintro ⟨p, hp, _⟩; cases hp
  | @cons p r ps ss hr _ ih =>
    intro hex n t
    simp only [subActions, hr, exec_make]
    by_cases hp : HostAct.block ∈ p.acts
    · rw [doAll_hangs (fun t => block_hangs hdef hb n t) (mem_inTurn.2 hp)]; rfl
    · obtain ⟨u, hu⟩ := doAll_comes (rs := rs) n (fun h => hp (mem_inTurn.1 h)) t
      rw [hu]
      refine ih ?_ n u
      obtain ⟨p', h1, h2⟩ := hex
      rcases List.mem_cons.1 h1 with rfl | h1
      · exact absurd h2 hp
      · exact ⟨p', h1, h2⟩

theorem does_aborted {K : Type} (S : Sight K) (as : List HostAct) (x : Mach K × Nat) : (as.foldl (does S) x).1.aborted = x.1.aborted := by
  induction as generalizing x with
  | nil => rfl
  | cons a as ih =>
    rw [List.foldl_cons, ih]
    cases a with
    | allow arg => simp only [does]; repeat' split
                   all_goals rfl
    | _ => rfl

end

/-! ### Chains -/

section
variable {env : Env} {G : Int → Int → Prop}

theorem chains_evaluate {rs : RuleSet} {defaults : List HostAct} (hdef : rs.defaultActions = defaults.map HostAct.make) :
    Evaluates (heldView env G) (evalChain env.lib env.limits.switches defaults) (PartsAre env.lib) rs where
  eval := by
    intro h q j c r m t hr hc hst
    have hi : j < (rs.phases q).length := by
      rcases Nat.lt_or_ge j (rs.phases q).length with h | h
      · exact h
      · rw [List.getElem?_eq_none h] at hr; cases hr
    have hsl : slot (rs.phases q).length j = j := if_neg (by omega)
    obtain ⟨p, ps, hcp, hp, hps⟩ := hc
    obtain ⟨m0, hm0⟩ : ∃ m0 : Mach Held, m0 = { m with rule := (j : Int) } := ⟨_, rfl⟩
    have ha : Agree (heldView env G) h m0 t := by
      rw [hm0]
      exact ⟨hst.agree.know, hst.agree.fine, hst.agree.phase, hst.agree.verdict, hst.agree.chosen, hst.agree.aborted, hst.agree.low, hst.agree.high⟩
    have hrun : m0.aborted = false := by rw [hm0]; exact hst.running
    have hj : m0.rule = (j : Int) := by rw [hm0]
    have hh := built_run hp hps ha hrun rs
    rw [← hcp] at hh
    classical
    have eE : evalChain env.lib env.limits.switches defaults j c m = (tryParts env.lib env.limits.switches c.parts m0).bind fun a =>
        if a.2 then firesParts heldSight defaults c.parts (a.1, j + 1) else .returns (a.1, j + 1) := by rw [hm0]; rfl
    rw [eE]
    cases em : tryParts env.lib env.limits.switches c.parts m0 with
    | panics => rw [em] at hh; exact hh
    | hangs => rw [em] at hh; exact hh
    | returns a =>
      rw [em] at hh
      obtain ⟨b, u, g1, g2, g3, g4⟩ := hh
      obtain ⟨hk1, hk2, hk3⟩ := tryParts_keep hrun em
      have still : Acting (heldView env G) h q (rs.phases q).length (a.1, j + 1) u := by
        refine ⟨g3, ?_, ?_, fun _ => g2.next.trans (hst.next hi)⟩
        · rw [g2.cur, hst.cur, hsl]; exact (hk1.trans hj).symm
        · rw [show a.1.rule = (j : Int) from hk1.trans hj]; omega
      simp only [Ending.bind]
      cases b with
      | false =>
        have hno : ¬ a.2 := fun hh => by cases g4.2 hh
        rw [if_neg hno]
        exact ⟨u, (fun n _ => g1 n), still, fun hnd => hk3.elim id fun hd => absurd hd hnd⟩
      | true =>
        have hall := g4.1 rfl
        rw [if_pos hall]
        have hpr : Pairs (fun p r => r.actions = p.acts.map HostAct.make) c.parts (r :: r.subRules) := by
          rw [hcp]
          refine .cons hp.acts ?_
          have : ∀ {ps : List Part} {ss : List Rule}, Pairs (PartMeans env.lib) ps ss → Pairs (fun p r => r.actions = p.acts.map HostAct.make) ps ss := by
            intro ps ss hp
            induction hp with
            | nil => exact .nil
            | cons hx _ ih => exact .cons hx.acts ih
          exact this hps
        rw [firesParts]
        by_cases hbl : HostAct.block ∈ defaults ∧ ∃ p ∈ c.parts, HostAct.block ∈ p.acts
        · rw [if_pos hbl]
          intro n
          exact (g1 n).trans (parts_hang hdef hbl.1 hpr hbl.2 n u)
        · rw [if_neg hbl]
          obtain ⟨t3, c1, c2⟩ := parts_at (S := heldSight) hdef (held_sees env G) (by omega) hpr hbl still
          refine ⟨t3, fun n hn => (g1 n).trans (c1 n hn), c2, fun _ => ?_⟩
          exact (does_aborted _ _ _).trans (hk2 hall)

end

end Verif
