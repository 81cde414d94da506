import Verif.Model.Site
import Verif.Props.Loop
/-!
C91: a whole site.  The engine, its rule sets and any number of interleaved
transactions, configured from texts while in use, against a reference in which a rule
set is a list of chains and a transaction a reference machine.
-/
namespace Verif
open Sample Spec

/-! ### The reference -/

/-- A site: the chains in each rule set, the set in use, and the transactions, each
with the set it belongs to. -/
structure Spec.Site where
  sets : Nat → List (List PRule) := fun _ => []
  fresh : Nat := 1
  cur : Nat := 0
  txs : List (Nat × Mach Facts) := []

open Classical in
/-- The directives in a text, if it is a rule file and all of them are valid. -/
noncomputable def Spec.reading (lib : Lib) (text : Bytes) : Option (List PDir) :=
  if h : ∃ dirs, Program text dirs ∧ ∀ d ∈ dirs, DirOk lib d then some h.choose else none

/-- How something the host does comes out: it returns, or goes wrong, or never returns. -/
inductive Spec.Fate (α : Type) where
  | ends (a : α)
  | wrong
  | endless

open Classical in
/-- Reading texts one after the other: the chains in them, or nothing if one of them is not
valid; never done if one before that hangs the reader. -/
noncomputable def Spec.chainsIn (lib : Lib) : List Bytes → Fate (Option (List (List PRule)))
  | [] => .ends (some [])
  | t :: ts =>
    if Hangs t then .endless
    else match reading lib t with
      | none => .ends none
      | some ds =>
        match chainsIn lib ts with
        | .ends (some cs) => .ends (some (chainsOf (rulesIn ds) ++ cs))
        | o => o

/-- What the host sees of a step. -/
inductive Spec.Seen where
  | done
  | loaded (ok : Bool)
  | created (i : Option Nat)
  | verdicts (is : List Intervention)

/-- One step; wrong only for a call on a transaction that does not exist. -/
noncomputable def Spec.Site.step (lib : Lib) (s : Site) : Deed → Fate (Site × Seen)
  | .load texts =>
    match chainsIn lib texts with
    | .ends (some cs) => .ends ({ s with sets := fun a => if a = s.cur then s.sets a ++ cs else s.sets a }, .loaded true)
    | .ends none => .ends (s, .loaded false)
    | .wrong => .wrong
    | .endless => .endless
  | .enable _ => .ends (s, .done)
  | .setLimits _ => .ends (s, .done)
  | .newRuleSet => .ends ({ s with sets := fun a => if a = s.fresh then [] else s.sets a, fresh := s.fresh + 1 }, .done)
  | .useRuleSet a => .ends ({ s with cur := a }, .done)
  | .newTransaction true => .ends (s, .created none)
  | .newTransaction false => .ends ({ s with txs := s.txs ++ [(s.cur, { known := {} })] }, .created (some s.txs.length))
  | .call i op =>
    match s.txs[i]? with
    | none => .wrong
    | some (a, m) =>
      match Spec.callOr (toldSight lib) (s.sets a) m op with
      | none => .endless
      | some (m, is) => .ends ({ s with txs := s.txs.set i (a, m) }, .verdicts is)

/-- A run. -/
noncomputable def Spec.Site.run (lib : Lib) : Site → List Deed → Fate (Site × List Seen)
  | s, [] => .ends (s, [])
  | s, d :: ds =>
    match s.step lib d with
    | .wrong => .wrong
    | .endless => .endless
    | .ends (s, o) =>
      match Site.run lib s ds with
      | .wrong => .wrong
      | .endless => .endless
      | .ends (s, os) => .ends (s, o :: os)

/-- What is seen of a returned value. -/
def Spec.seen : DeedOut → Seen
  | .done => .done
  | .loaded b => .loaded b
  | .created i => .created i
  | .returned o => .verdicts (shown [o])

/-- Texts whose rules read no body; limits that are not negative. -/
def Spec.Sane : Deed → Prop
  | .load texts => ∀ t ∈ texts, ∀ dirs, Program t dirs → ∀ p ∈ rulesIn dirs, ∀ v ∈ p.vars, readsBody v.tk = false
  | .setLimits l => 0 ≤ l.requestBodyInMem ∧ 0 ≤ l.responseBody
  | _ => True

/-! ### Loading -/

theorem reading_some {lib : Lib} {text : Bytes} {dirs : List PDir} (h : reading lib text = some dirs) :
    Program text dirs ∧ ∀ d ∈ dirs, DirOk lib d := by
  simp only [reading] at h
  split at h
  · rename_i hex
    simp only [Option.some.injEq] at h
    rw [← h]; exact hex.choose_spec
  · cases h

theorem reading_none {lib : Lib} {text : Bytes} (h : reading lib text = none) : ¬ ∃ dirs, Program text dirs ∧ ∀ d ∈ dirs, DirOk lib d := by
  simp only [reading] at h
  split at h
  · cases h
  · assumption

theorem reading_eq {lib : Lib} {text : Bytes} {dirs : List PDir} (h : Program text dirs) (hok : ∀ d ∈ dirs, DirOk lib d) :
    reading lib text = some dirs := by
  cases hr : reading lib text with
  | none => exact absurd ⟨dirs, h, hok⟩ (reading_none hr)
  | some dirs' =>
    have h1 := (C53_exact lib.lowerHi _ _).2 h
    have h2 := (C53_exact lib.lowerHi _ _).2 (reading_some hr).1
    rw [h1] at h2
    cases h2; rfl

/-- The rules of the set on top of those of the engine are the chains. -/
def Adds (lib : Lib) (set : DireSet) (cs : List (List PRule)) : Prop :=
  Pairs (ChainMeans lib) cs (rulesOf set) ∧ ∀ c ∈ cs, chainPhase c ≤ 5

theorem Adds.carried {lib : Lib} {set : DireSet} {cs cs' : List (List PRule)} {e : Engine} (ha : Adds lib set cs')
    (h : Carried lib cs e.ruleSet) : Carried lib (cs ++ cs') (set.execute e).ruleSet := by
  refine ⟨((C58_switches set e).2.2).trans h.defaults, fun q hq => ?_, ?_⟩
  · rw [C58_rules, List.filter_append]
    refine (h.rules q hq).append ?_
    have hphase : ∀ {c r}, ChainMeans lib c r → r.phase = chainPhase c := by
      rintro c r ⟨p, ps, r0, rs, rfl, h1, _, rfl⟩
      simpa [chainPhase] using h1.phase
    split
    · exact ha.1.filter fun c r hcr => by rw [hphase hcr]
    · have : (cs'.filter fun c => chainPhase c = q) = [] := by
        rw [List.filter_eq_nil_iff]
        intro c hcm
        have := ha.2 c hcm
        simp; omega
      rw [this]; exact .nil
  · intro c hc
    rcases List.mem_append.1 hc with hc | hc
    · exact h.five c hc
    · exact ha.2 c hc

theorem addAll_chains {lib : Lib} {vo : VarOrd} : ∀ {texts : List Bytes} {set : DireSet} {cs : List (List PRule)}, Adds lib set cs →
    (∃ set' cs', chainsIn lib texts = .ends (some cs') ∧ DireSet.addAll lib vo set texts = .ok (set', true) ∧ Adds lib set' (cs ++ cs')) ∨
    (chainsIn lib texts = .ends none ∧ ∃ set', DireSet.addAll lib vo set texts = .ok (set', false)) ∨
    (chainsIn lib texts = .endless ∧ DireSet.addAll lib vo set texts = .fuel) := by
  intro texts
  induction texts with
  | nil => intro set cs ha; exact .inl ⟨set, [], rfl, rfl, by rwa [List.append_nil]⟩
  | cons t ts ih =>
    intro set cs ha
    by_cases hh : Hangs t
    · refine .inr (.inr ⟨by simp only [chainsIn]; rw [if_pos hh], ?_⟩)
      have : set.addSecLangString lib vo t = .fuel := by
        simp only [DireSet.addSecLangString, (C51_hangs_iff lib.lowerHi _).2 hh]; rfl
      simp only [DireSet.addAll, this]; rfl
    · cases hr : reading lib t with
      | none =>
        refine .inr (.inl ⟨by simp only [chainsIn]; rw [if_neg hh, hr], ?_⟩)
        have hno : ∀ set' : DireSet, set.addSecLangString lib vo t ≠ .ok (set', none) := fun set' e =>
          reading_none hr (C59_loads_iff.1 ⟨set', e⟩)
        cases hl : set.addSecLangString lib vo t with
        | ok r =>
          obtain ⟨set', e⟩ := r
          cases e with
          | none => exact absurd hl (hno set')
          | some e => exact ⟨set', by simp only [DireSet.addAll, hl, Res.bind_ok']⟩
        | panic =>
          exfalso
          simp only [DireSet.addSecLangString] at hl
          cases hp : parse lib.lowerHi t with
          | ok r => rw [hp] at hl; cases r <;> cases hl
          | panic => exact C52_no_panic _ _ hp
          | fuel => rw [hp] at hl; cases hl
        | fuel =>
          exfalso
          simp only [DireSet.addSecLangString] at hl
          cases hp : parse lib.lowerHi t with
          | ok r => rw [hp] at hl; cases r <;> cases hl
          | panic => rw [hp] at hl; cases hl
          | fuel => exact hh ((C51_hangs_iff _ _).1 hp)
      | some dirs =>
        obtain ⟨hp, hok⟩ := reading_some hr
        obtain ⟨ds, hds, hload⟩ := C57_chains (vo := vo) hp hok set
        have ha' : Adds lib (set ++ group ds) (cs ++ chainsOf (rulesIn dirs)) := by
          refine ⟨?_, ?_⟩
          · have e : rulesOf (set ++ group ds) = rulesOf set ++ rulesOf (group ds) := by simp only [rulesOf, List.filterMap_append]
            rw [e]
            exact ha.1.append (group_means _ (Nat.le_refl _) hds)
          · intro c hc
            rcases List.mem_append.1 hc with hc | hc
            · exact ha.2 c hc
            · exact chain_five hp hc
        have e : DireSet.addAll lib vo set (t :: ts) = DireSet.addAll lib vo (set ++ group ds) ts := by
          simp only [DireSet.addAll, hload, Res.bind_ok']
        have e' : chainsIn lib (t :: ts) = match chainsIn lib ts with
            | .ends (some cs) => .ends (some (chainsOf (rulesIn dirs) ++ cs))
            | o => o := by simp only [chainsIn]; rw [if_neg hh, hr]
        rcases ih ha' with ⟨set', cs', k1, k2, k3⟩ | ⟨k1, set', k2⟩ | ⟨k1, k2⟩
        · refine .inl ⟨set', chainsOf (rulesIn dirs) ++ cs', by rw [e', k1], e.trans k2, ?_⟩
          rw [← List.append_assoc]; exact k3
        · exact .inr (.inl ⟨by rw [e', k1], set', e.trans k2⟩)
        · exact .inr (.inr ⟨by rw [e', k1], e.trans k2⟩)

/-! ### The simulation -/

/-- The chains read no body. -/
def Tame (cs : List (List PRule)) : Prop := ∀ c ∈ cs, ∀ p ∈ c, ∀ v ∈ p.vars, readsBody v.tk = false

theorem Tame.append {a b : List (List PRule)} (h : Tame a) (h' : Tame b) : Tame (a ++ b) :=
  fun c hc => (List.mem_append.1 hc).elim (h c) (h' c)

theorem chainsIn_tame {lib : Lib} : ∀ {texts : List Bytes} {cs : List (List PRule)}, Sane (.load texts) → chainsIn lib texts = .ends (some cs) → Tame cs := by
  intro texts
  induction texts with
  | nil => intro cs _ h; cases h; intro c hc; cases hc
  | cons t ts ih =>
    intro cs hs h
    simp only [chainsIn] at h
    split at h
    · cases h
    · split at h
      · cases h
      · rename_i ds h1
        split at h
        · rename_i cs' h2
          cases h
          exact Tame.append (fun c hc p hp => hs t List.mem_cons_self ds (reading_some h1).1 p (mem_chainsOf hc hp)) (ih (fun t ht => hs t (List.mem_cons_of_mem _ ht)) h2)
        · rename_i h2
          exact absurd h (h2 cs)

/-- The transaction is in the state of the machine. -/
def Twin (m : Mach Facts) (t : Tx) : Prop :=
  ∃ l : Limits, (0 ≤ l.requestBodyInMem ∧ 0 ≤ l.responseBody) ∧
    ∀ (env : Env) (h : List Op), Agree (toldView env l) h m t

/-- The world is in the state of the site. -/
structure Mirrors (lib : Lib) (s : Site) (w : World) : Prop where
  sets : ∀ a, Carried lib (s.sets a) (w.heap.sets a)
  tame : ∀ a, Tame (s.sets a)
  fresh : w.heap.fresh = s.fresh
  cur : w.heap.cur = s.cur
  limits : 0 ≤ w.heap.limits.requestBodyInMem ∧ 0 ≤ w.heap.limits.responseBody
  txs : Pairs (fun x y => x.1 = y.1 ∧ Twin x.2 y.2) s.txs w.txs

theorem Pairs.get {α β : Type} {R : α → β → Prop} {as : List α} {bs : List β} (h : Pairs R as bs) (i : Nat) :
    (as[i]? = none ∧ bs[i]? = none) ∨ ∃ a b, as[i]? = some a ∧ bs[i]? = some b ∧ R a b := by
  induction h generalizing i with
  | nil => exact .inl ⟨rfl, rfl⟩
  | cons hr _ ih =>
    cases i with
    | zero => exact .inr ⟨_, _, rfl, rfl, hr⟩
    | succ i => simpa only [List.getElem?_cons_succ] using ih i

theorem Pairs.set {α β : Type} {R : α → β → Prop} {as : List α} {bs : List β} (h : Pairs R as bs) (i : Nat) {a : α} {b : β} (hr : R a b) :
    Pairs R (as.set i a) (bs.set i b) := by
  induction h generalizing i with
  | nil => exact .nil
  | cons hr' ht ih =>
    cases i with
    | zero => exact .cons hr ht
    | succ i => exact .cons hr' (ih i)

theorem Carried.empty (lib : Lib) : Carried lib [] {} := ⟨rfl, fun _ _ => .nil, by simp⟩

theorem enable_limits (e : Engine) (s : Int) : (e.enable s).limits = e.limits ∧ (e.enable s).ruleSet = e.ruleSet := by
  simp only [Engine.enable]
  repeat' split
  all_goals exact ⟨rfl, rfl⟩

theorem setEngine_sets (h : Heap) (e : Engine) (a : Nat) : (h.setEngine e).sets a = if a = h.cur then e.ruleSet else h.sets a := rfl

/-- A new transaction. -/
theorem twin_new {l : Limits} (hl : 0 ≤ l.requestBodyInMem ∧ 0 ≤ l.responseBody) : Twin { known := {} } (newTransaction l) :=
  ⟨l, hl, fun _ _ => {
    know := rfl, fine := ⟨Buf.Lim.new _ _, Buf.Lim.new _ _⟩, phase := rfl, verdict := rfl, chosen := rfl, aborted := rfl
    low := Int.le_refl 0
    high := by show (0 : Int) ≤ 7; omega }⟩

/-- A call. -/
theorem twin_call {lib : Lib} {ord : IterOrd} {lim : Limits} {rs : RuleSet} {cs : List (List PRule)} {m : Mach Facts} {t : Tx} (op : Op)
    (hc : Carried lib cs rs) (ht : Tame cs) (h : Twin m t) :
    (∀ m' is, Spec.callOr (toldSight lib) cs m op = some (m', is) → ∀ n ≥ cs.length + 2,
      ∃ t' o tr, t.step { lib, ord, limits := lim } rs n op = .ok (t', o, tr) ∧ Twin m' t' ∧ shown [o] = is) ∧
    (Spec.callOr (toldSight lib) cs m op = none → ∀ n, t.step { lib, ord, limits := lim } rs n op = .fuel) := by
  obtain ⟨l, hl, ha⟩ := h
  let env : Env := { lib, ord, limits := lim }
  obtain ⟨k1, k2⟩ := step_or (env := env) (V := toldView env l) (S := toldSight lib) (h := []) (rs := rs)
    ⟨rfl, fun k p => .rfl⟩ hc (fun c hcm _ p hp => ht c hcm p hp) (told_follows env hl.1 hl.2 [] op) (ha env [])
  refine ⟨fun m' is e n hn => ?_, k2⟩
  obtain ⟨t', o, tr, g1, g2, g3⟩ := k1 m' is e n hn
  exact ⟨t', o, tr, g1, ⟨l, hl, fun env' h' => ⟨g2.know, g2.fine, g2.phase, g2.verdict, g2.chosen, g2.aborted, g2.low, g2.high⟩⟩, g3⟩

/-- One step of the host. -/
theorem deed_mirrors {lib : Lib} (vo : VarOrd) (ord : IterOrd) {d : Deed} (hd : Sane d) (s : Site) :
    ∃ N, ∀ n ≥ N, ∀ w, Mirrors lib s w →
      match s.step lib d with
      | .wrong => w.deed lib vo ord n d = .panic
      | .endless => w.deed lib vo ord n d = .fuel
      | .ends (s', o) => ∃ w' o', w.deed lib vo ord n d = .ok (w', o') ∧ Mirrors lib s' w' ∧ seen o' = o := by
  cases d with
  | load texts =>
    refine ⟨0, fun n _ w hm => ?_⟩
    rcases addAll_chains (lib := lib) (vo := vo) (texts := texts) (set := []) (cs := []) ⟨.nil, by simp⟩ with
      ⟨set, cs, h1, h2, h3⟩ | ⟨h1, set, h2⟩ | ⟨h1, h2⟩
    · simp only [Site.step, h1]
      refine ⟨_, _, by simp only [World.deed, h2, Res.bind_ok', if_true, World.step]; rfl, ?_, rfl⟩
      have hlim := (C58_switches set w.heap.engine).2.1
      refine ⟨fun a => ?_, fun a => ?_, hm.fresh, hm.cur, ?_, hm.txs⟩
      · show Carried lib (if a = s.cur then s.sets a ++ cs else s.sets a) ((w.heap.setEngine (set.execute w.heap.engine)).sets a)
        rw [setEngine_sets, hm.cur]
        by_cases e : a = s.cur
        · rw [if_pos e, if_pos e, e]
          have := hm.sets s.cur
          refine Adds.carried h3 ?_
          show Carried lib (s.sets s.cur) (w.heap.sets w.heap.cur)
          rw [hm.cur]; exact this
        · rw [if_neg e, if_neg e]; exact hm.sets a
      · show Tame (if a = s.cur then s.sets a ++ cs else s.sets a)
        split
        · exact (hm.tame a).append (chainsIn_tame hd h1)
        · exact hm.tame a
      · show 0 ≤ (set.execute w.heap.engine).limits.requestBodyInMem ∧ 0 ≤ (set.execute w.heap.engine).limits.responseBody
        rw [hlim]; exact hm.limits
    · simp only [Site.step, h1]
      exact ⟨w, .loaded false, by simp only [World.deed, h2, Res.bind_ok']; rfl, hm, rfl⟩
    · simp only [Site.step, h1]
      simp only [World.deed, h2]; rfl
  | enable st =>
    refine ⟨0, fun n _ w hm => ?_⟩
    obtain ⟨e1, e2⟩ := enable_limits w.heap.engine st
    refine ⟨_, _, rfl, ⟨fun a => ?_, hm.tame, hm.fresh, hm.cur, ?_, hm.txs⟩, rfl⟩
    · show Carried lib (s.sets a) ((w.heap.setEngine (w.heap.engine.enable st)).sets a)
      rw [setEngine_sets, e2]
      split
      · rename_i e; rw [e]; exact hm.sets _
      · exact hm.sets a
    · show 0 ≤ (w.heap.engine.enable st).limits.requestBodyInMem ∧ 0 ≤ (w.heap.engine.enable st).limits.responseBody
      rw [e1]; exact hm.limits
  | setLimits l => exact ⟨0, fun n _ w hm => ⟨_, _, rfl, ⟨hm.sets, hm.tame, hm.fresh, hm.cur, hd, hm.txs⟩, rfl⟩⟩
  | newRuleSet =>
    refine ⟨0, fun n _ w hm => ⟨_, _, rfl, ⟨fun a => ?_, fun a => ?_, ?_, hm.cur, hm.limits, hm.txs⟩, rfl⟩⟩
    · show Carried lib (if a = s.fresh then [] else s.sets a) (if a = w.heap.fresh then {} else w.heap.sets a)
      rw [hm.fresh]
      split
      · exact .empty lib
      · exact hm.sets a
    · show Tame (if a = s.fresh then [] else s.sets a)
      split
      · intro c hc; cases hc
      · exact hm.tame a
    · show w.heap.fresh + 1 = s.fresh + 1
      rw [hm.fresh]
  | useRuleSet a => exact ⟨0, fun n _ w hm => ⟨_, _, rfl, ⟨hm.sets, hm.tame, hm.fresh, rfl, hm.limits, hm.txs⟩, rfl⟩⟩
  | newTransaction b =>
    refine ⟨0, fun n _ w hm => ?_⟩
    cases b with
    | true => exact ⟨_, _, rfl, hm, rfl⟩
    | false =>
      refine ⟨_, _, rfl, ⟨hm.sets, hm.tame, hm.fresh, hm.cur, hm.limits, hm.txs.append (.cons ⟨hm.cur.symm, twin_new hm.limits⟩ .nil)⟩, ?_⟩
      simp only [HostOut.out, seen, hm.txs.length_eq]
  | call i op =>
    simp only [Site.step]
    cases hi : s.txs[i]? with
    | none =>
      refine ⟨0, fun n _ w hm => ?_⟩
      rcases hm.txs.get i with ⟨_, h⟩ | ⟨a, b, h, _⟩
      · simp only [World.deed, World.step, h]; rfl
      · rw [hi] at h; cases h
    | some x =>
      obtain ⟨a, m⟩ := x
      refine ⟨(s.sets a).length + 2, fun n hn w hm => ?_⟩
      rcases hm.txs.get i with ⟨h, _⟩ | ⟨x, ⟨b, t⟩, h1, h2, h3, h4⟩
      · rw [hi] at h; cases h
      · rw [hi] at h1
        simp only [Option.some.injEq] at h1
        subst h1
        simp only at h3 h4
        subst h3
        obtain ⟨k1, k2⟩ := twin_call (ord := ord) (lim := w.heap.limits) op (hm.sets a) (hm.tame a) h4
        cases hc : callOr (toldSight lib) (s.sets a) m op with
        | none =>
          have g1 : t.step (w.heap.engine.env lib ord) (w.heap.sets a) n op = .fuel := k2 hc n
          simp only [World.deed, World.step, h2, g1, hc]; rfl
        | some y =>
          obtain ⟨m', is⟩ := y
          obtain ⟨t', o, tr, g1, g2, g3⟩ := k1 m' is hc n hn
          simp only [hc]
          have g1' : t.step (w.heap.engine.env lib ord) (w.heap.sets a) n op = .ok (t', o, tr) := g1
          refine ⟨{ w with txs := w.txs.set i (a, t') }, .returned o, ?_, ⟨hm.sets, hm.tame, hm.fresh, hm.cur, hm.limits, hm.txs.set i ⟨rfl, g2⟩⟩, ?_⟩
          · simp only [World.deed, World.step, h2, g1', Res.bind_ok', HostOut.out]
          · simp only [seen, g3]

/-- A run of the host. -/
theorem deeds_mirror {lib : Lib} (vo : VarOrd) (ord : IterOrd) : ∀ {ds : List Deed}, (∀ d ∈ ds, Sane d) → ∀ s : Site,
    ∃ N, ∀ n ≥ N, ∀ w, Mirrors lib s w →
      match s.run lib ds with
      | .wrong => w.deeds lib vo ord n ds = .panic
      | .endless => w.deeds lib vo ord n ds = .fuel
      | .ends (s', os) => ∃ w' os', w.deeds lib vo ord n ds = .ok (w', os') ∧ Mirrors lib s' w' ∧ os'.map seen = os := by
  intro ds
  induction ds with
  | nil => intro _ s; exact ⟨0, fun n _ w hm => ⟨w, [], rfl, hm, rfl⟩⟩
  | cons d ds ih =>
    intro hd s
    obtain ⟨N, hN⟩ := deed_mirrors vo ord (hd d List.mem_cons_self) s
    simp only [Site.run]
    cases hs : s.step lib d with
    | wrong =>
      refine ⟨N, fun n hn w hm => ?_⟩
      have := hN n hn w hm
      rw [hs] at this
      simp only [World.deeds, this]; rfl
    | endless =>
      refine ⟨N, fun n hn w hm => ?_⟩
      have := hN n hn w hm
      rw [hs] at this
      simp only [World.deeds, this]; rfl
    | ends x =>
      obtain ⟨s1, o⟩ := x
      obtain ⟨M, hM⟩ := ih (fun d h => hd d (List.mem_cons_of_mem _ h)) s1
      refine ⟨max N M, fun n hn w hm => ?_⟩
      have := hN n (by omega) w hm
      rw [hs] at this
      obtain ⟨w1, o1, k1, k2, k3⟩ := this
      have := hM n (by omega) w1 k2
      cases hr : s1.run lib ds with
      | wrong =>
        simp only [hr] at this ⊢
        simp only [World.deeds, k1, Res.bind_ok', this]; rfl
      | endless =>
        simp only [hr] at this ⊢
        simp only [World.deeds, k1, Res.bind_ok', this]; rfl
      | ends x =>
        obtain ⟨s2, os⟩ := x
        simp only [hr] at this ⊢
        obtain ⟨w2, os', j1, j2, j3⟩ := this
        exact ⟨w2, o1 :: os', by simp only [World.deeds, k1, j1, Res.bind_ok'], j2, by rw [List.map_cons, k3, j3]⟩

/-- C91.  A host starts with a new engine and reads rule texts into it, changes limits and
modes, starts new rule sets, opens transactions and makes any calls on them, all in any
order.  With texts whose rules read no body, everything the host sees — which texts were
accepted, and each verdict of each transaction — is what the reference site shows.  A
step never returns exactly if it does not on the reference: it loads a text that hangs
the reader, or processes a phase on which the reference machine goes round for ever.
Nothing panics unless the host calls a transaction that was never created. -/
theorem C91_site {lib : Lib} (vo : VarOrd) (ord : IterOrd) {ds : List Deed} (hd : ∀ d ∈ ds, Sane d) :
    ∃ N, ∀ n ≥ N,
      match Site.run lib {} ds with
      | .wrong => World.deeds lib vo ord n {} ds = .panic
      | .endless => World.deeds lib vo ord n {} ds = .fuel
      | .ends (_, os) => ∃ w' os', World.deeds lib vo ord n {} ds = .ok (w', os') ∧ os'.map seen = os := by
  obtain ⟨N, hN⟩ := deeds_mirror (lib := lib) vo ord hd {}
  refine ⟨N, fun n hn => ?_⟩
  have := hN n hn {} ⟨fun _ => .empty lib, (fun _ c hc => by cases hc), rfl, rfl,
    by show (0 : Int) ≤ 131072 ∧ (0 : Int) ≤ 524228; omega, .nil⟩
  cases hr : Site.run lib {} ds with
  | wrong => rw [hr] at this; exact this
  | endless => rw [hr] at this; exact this
  | ends x =>
    rw [hr] at this
    obtain ⟨w', os', h1, _, h3⟩ := this
    exact ⟨w', os', h1, h3⟩

/-! ### An example -/

/-- A transaction is opened, a text loaded, a broken text refused; then both the old
transaction and a new one are judged by the text. -/
def siteDeeds (m m' : Bytes) : List Deed :=
  [.newTransaction false, .load [flowText], .load [b!"SecRule"], .newTransaction false] ++
    (flowOps m).map (.call 0) ++ (flowOps m').map (.call 1)

theorem flow_dirOk : ∀ d ∈ flowRules.map PDir.rule, DirOk lib d := by
  intro d hd
  simp only [flowRules, List.map_cons, List.map_nil, List.mem_cons, List.not_mem_nil, or_false] at hd
  rcases hd with rfl | rfl | rfl <;> refine methodIs_ok fun a ha => .inl ?_ <;>
    simp only [List.mem_cons, List.not_mem_nil, or_false] at ha
  · rcases ha with rfl | rfl | rfl
    · exact ⟨_, .deny⟩
    · exact ⟨_, .log⟩
    · exact ⟨_, .status (u := b!"429") (n := 429) ((trimQuote_iff _ _).1 (by decide)) ((parseInt_iff _ _).1 (by decide))⟩
  · rw [ha]; exact ⟨_, .skip⟩
  · rw [ha]; exact ⟨_, .deny⟩

theorem broken_program : (∀ dirs, ¬ Program b!"SecRule" dirs) ∧ ¬ Hangs b!"SecRule" := by
  have hb : (match parse id b!"SecRule" with | .ok (.error _) => true | _ => false) = true := by decide +kernel
  refine ⟨fun dirs h => ?_, fun h => ?_⟩
  · rw [(C53_exact id _ _).2 h] at hb; cases hb
  · rw [(C51_hangs_iff id _).2 h] at hb; cases hb

theorem siteDeeds_sane (m m' : Bytes) : ∀ d ∈ siteDeeds m m', Sane d := by
  intro d hd
  have hcall : ∀ (i : Nat) (ops : List Op), ∀ d ∈ ops.map (Deed.call i), Sane d := by
    intro i ops d hd
    obtain ⟨op, _, rfl⟩ := List.mem_map.1 hd
    trivial
  rcases List.mem_append.1 hd with hd | hd
  · rcases List.mem_append.1 hd with hd | hd
    · simp only [List.mem_cons, List.not_mem_nil, or_false] at hd
      rcases hd with rfl | rfl | rfl | rfl
      · trivial
      · intro t ht
        rw [List.mem_singleton.1 ht]
        intro dirs h
        have h1 := (C53_exact id _ _).2 h
        rw [(C53_exact id _ _).2 flowText_program] at h1
        cases h1
        intro p hp v hv
        have hp : p ∈ flowRules := hp
        simp only [flowRules, List.mem_cons, List.not_mem_nil, or_false] at hp
        rcases hp with rfl | rfl | rfl <;> rw [List.mem_singleton.1 hv] <;> rfl
      · intro t ht
        rw [List.mem_singleton.1 ht]
        exact fun dirs h => absurd h (broken_program.1 dirs)
      · trivial
    · exact hcall _ _ d hd
  · exact hcall _ _ d hd

theorem program_noHang {text : Bytes} {dirs : List PDir} (h : Program text dirs) : ¬ Hangs text := by
  intro h'
  have h1 := (C51_hangs_iff id _).2 h'
  rw [(C53_exact id _ _).2 h] at h1; cases h1

def Spec.Fate.map {α β : Type} (f : α → β) : Fate α → Fate β
  | .ends a => .ends (f a)
  | .wrong => .wrong
  | .endless => .endless

theorem Fate.map_map {α β γ : Type} (g : β → γ) (f : α → β) (x : Fate α) : (x.map f).map g = x.map (g ∘ f) := by cases x <;> rfl

theorem flow_noReturn : NoReturn (flowRules.map fun p => [p]) := by
  intro c hc h4
  simp only [flowRules, List.map_cons, List.map_nil, List.mem_cons, List.not_mem_nil, or_false] at hc
  rcases hc with rfl | rfl | rfl <;> exact absurd h4 (by decide)

theorem flow_five : ∀ c ∈ flowRules.map (fun p => [p]), chainPhase c ≤ 5 := by
  intro c hc
  simp only [flowRules, List.map_cons, List.map_nil, List.mem_cons, List.not_mem_nil, or_false] at hc
  rcases hc with rfl | rfl | rfl <;> decide

/-- The calls of `flowOps` on one transaction of a site with the flow rules. -/
theorem site_flow {sets : Nat → List (List PRule)} {f c : Nat} {txs : List (Nat × Mach Facts)} {i a : Nat} (m : Bytes)
    (hi : txs[i]? = some (a, { known := {} })) (hs : sets a = flowRules.map fun p => [p]) (ds : List Deed) :
    ∃ x, Site.run lib { sets := sets, fresh := f, cur := c, txs := txs } ((flowOps m).map (.call i) ++ ds) =
      (Site.run lib { sets := sets, fresh := f, cur := c, txs := txs.set i (a, x) } ds).map fun p =>
        (p.1, [.verdicts [], .verdicts [], .verdicts [], .verdicts [flowVerdict m], .verdicts [], .verdicts [{ status := 200 }]] ++ p.2) := by
  obtain ⟨r, ch, hw⟩ := flow_walk (k := { srcIp := b!"1.2.3.4", srcPort := b!"5", method := m, headers := some [] }) rfl rfl rfl
  have f1 : ((flowRules.map fun p => [p]).filter fun c => decide (chainPhase c = 1)) = [] := rfl
  have f2 : ((flowRules.map fun p => [p]).filter fun c => decide (chainPhase c = 2)) = flowRules.map fun p => [p] := rfl
  have c1 : call (toldSight lib) (flowRules.map fun p => [p]) { known := {} } (.processConnection b!"1.2.3.4" b!"5" [] []) =
      ({ known := { srcIp := b!"1.2.3.4", srcPort := b!"5" }, phase := 1 }, []) := by
    simp only [call, phaseOf, f1, walk]; rfl
  have c3 : call (toldSight lib) (flowRules.map fun p => [p]) { known := { srcIp := b!"1.2.3.4", srcPort := b!"5", method := m }, phase := 1 }
      (.processRequestHeader none) = ({ known := { srcIp := b!"1.2.3.4", srcPort := b!"5", method := m, headers := some [] }, phase := 2, rule := r, verdict := flowVerdict m, chosen := ch }, []) := by
    rw [← hw]
    simp only [call, phaseOf, f2]; rfl
  have hlen : i < txs.length := by
    rcases Nat.lt_or_ge i txs.length with h | h
    · exact h
    · rw [List.getElem?_eq_none h] at hi; cases hi
  have hget : ∀ y : Nat × Mach Facts, (txs.set i y)[i]? = some y := fun y => List.getElem?_set_self hlen
  have hset : ∀ y z : Nat × Mach Facts, (txs.set i y).set i z = txs.set i z := fun y z => List.set_set ..
  have step : ∀ (y : Mach Facts) (op : Op) (txs' : List (Nat × Mach Facts)) (ds : List Deed), txs'[i]? = some (a, y) → 0 ≤ y.phase →
      Site.run lib { sets := sets, fresh := f, cur := c, txs := txs' } (.call i op :: ds) =
        (Site.run lib { sets := sets, fresh := f, cur := c, txs := txs'.set i (a, (call (toldSight lib) (flowRules.map fun p => [p]) y op).1) } ds).map
          fun p => (p.1, .verdicts (call (toldSight lib) (flowRules.map fun p => [p]) y op).2 :: p.2) := by
    intro y op txs' ds h hy
    simp only [Site.run, Site.step, h, hs, callOr_call flow_five flow_noReturn hy]
    split <;> rename_i e <;> rw [e] <;> rfl
  simp only [flowOps, List.map_cons, List.map_nil, List.cons_append, List.nil_append]
  rw [step _ _ _ _ hi (by simp), c1, step _ _ _ _ (hget _) (by simp), hset]
  rw [show call (toldSight lib) (flowRules.map fun p => [p]) { known := { srcIp := b!"1.2.3.4", srcPort := b!"5" }, phase := 1 } (.processRequestURL none m []) =
    ({ known := { srcIp := b!"1.2.3.4", srcPort := b!"5", method := m }, phase := 1 }, []) from rfl]
  rw [step _ _ _ _ (hget _) (by simp), hset, c3, step _ _ _ _ (hget _) (by simp), hset, step _ _ _ _ (hget _) (call_low (by simp) _), hset,
    step _ _ _ _ (hget _) (call_low (call_low (by simp) _) _), hset]
  simp only [Fate.map_map]
  exact ⟨_, rfl⟩

example (m m' : Bytes) : ∃ N, ∀ n ≥ N, ∃ w os, World.deeds lib varOrd Sample.ord n {} (siteDeeds m m') = .ok (w, os) ∧
    os.map seen = [.created (some 0), .loaded true, .loaded false, .created (some 1),
      .verdicts [], .verdicts [], .verdicts [], .verdicts [flowVerdict m], .verdicts [], .verdicts [{ status := 200 }],
      .verdicts [], .verdicts [], .verdicts [], .verdicts [flowVerdict m'], .verdicts [], .verdicts [{ status := 200 }]] := by
  obtain ⟨N, hN⟩ := C91_site (lib := lib) varOrd Sample.ord (siteDeeds_sane m m')
  refine ⟨N, fun n hn => ?_⟩
  have := hN n hn
  have e1 : chainsIn lib [flowText] = .ends (some (flowRules.map fun p => [p])) := by
    simp only [chainsIn, reading_eq flowText_program flow_dirOk]
    rw [if_neg (program_noHang flowText_program)]; rfl
  have e2 : chainsIn lib [b!"SecRule"] = .ends none := by
    have : reading lib b!"SecRule" = none := by
      cases hr : reading lib b!"SecRule" with
      | none => rfl
      | some ds => exact absurd (reading_some hr).1 (broken_program.1 ds)
    simp only [chainsIn, this]
    rw [if_neg broken_program.2]
  have hr : ∃ s, Site.run lib {} (siteDeeds m m') = .ends (s, [.created (some 0), .loaded true, .loaded false, .created (some 1),
      .verdicts [], .verdicts [], .verdicts [], .verdicts [flowVerdict m], .verdicts [], .verdicts [{ status := 200 }],
      .verdicts [], .verdicts [], .verdicts [], .verdicts [flowVerdict m'], .verdicts [], .verdicts [{ status := 200 }]]) := by
    simp only [siteDeeds, List.cons_append, List.nil_append]
    rw [Site.run, Site.step]
    simp only
    rw [Site.run, Site.step, e1]
    simp only
    rw [Site.run, Site.step, e2]
    simp only
    rw [Site.run, Site.step]
    simp only [List.nil_append, List.cons_append]
    obtain ⟨x, hx⟩ := site_flow (i := 0) (a := 0) (sets := fun a => if a = 0 then flowRules.map fun p => [p] else []) (f := 1) (c := 0)
      (txs := [(0, { known := {} }), (0, { known := {} })]) m rfl rfl ((flowOps m').map (.call 1))
    obtain ⟨x', hx'⟩ := site_flow (i := 1) (a := 0) (sets := fun a => if a = 0 then flowRules.map fun p => [p] else []) (f := 1) (c := 0)
      (txs := [(0, x), (0, { known := {} })]) m' rfl rfl []
    rw [List.append_nil] at hx'
    refine ⟨{ sets := fun a => if a = 0 then flowRules.map fun p => [p] else [], fresh := 1, cur := 0, txs := [(0, x), (0, x')] }, ?_⟩
    have e : ([(0, ({ known := {} } : Mach Facts)), (0, { known := {} })] : List (Nat × Mach Facts)).set 0 (0, x) = [(0, x), (0, { known := {} })] := rfl
    rw [e, hx'] at hx
    simp only [hx, Site.run]
    rfl
  obtain ⟨s, hr⟩ := hr
  rw [hr] at this
  exact this

/-- Under the text of `backText`, a GET request is never done with. -/
example : ∃ N, ∀ n ≥ N, World.deeds lib varOrd Sample.ord n {} [.load [backText], .newTransaction false,
    .call 0 (.processRequestURL none b!"GET" []), .call 0 (.processResponseHeaders 200 [] none)] = .fuel := by
  obtain ⟨N, hN⟩ := C91_site (lib := lib) varOrd Sample.ord (ds := [.load [backText], .newTransaction false,
    .call 0 (.processRequestURL none b!"GET" []), .call 0 (.processResponseHeaders 200 [] none)]) (by
      intro d hd
      simp only [List.mem_cons, List.not_mem_nil, or_false] at hd
      rcases hd with rfl | rfl | rfl | rfl <;> try trivial
      intro t ht dirs h
      rw [List.mem_singleton.1 ht] at h
      have h1 := (C53_exact id _ _).2 h
      rw [(C53_exact id _ _).2 backText_program] at h1
      cases h1
      intro p hp v hv
      have hp : p ∈ backRules := hp
      simp only [backRules, List.mem_cons, List.not_mem_nil, or_false] at hp
      rcases hp with rfl | rfl <;> rw [List.mem_singleton.1 hv] <;> rfl)
  refine ⟨N, fun n hn => ?_⟩
  have := hN n hn
  have e1 : chainsIn lib [backText] = .ends (some (backRules.map fun p => [p])) := by
    simp only [chainsIn, reading_eq backText_program back_dirOk]
    rw [if_neg (program_noHang backText_program)]; rfl
  have c1 : callOr (toldSight lib) (backRules.map fun p => [p]) { known := {} } (.processRequestURL none b!"GET" []) =
    some ({ known := { method := b!"GET" } }, []) := rfl
  have c2 : callOr (toldSight lib) (backRules.map fun p => [p]) { known := { method := b!"GET" } } (.processResponseHeaders 200 [] none) = none := by
    simp only [callOr, phaseOf]
    rw [if_neg (by simp)]
    have : endOf (toldSight lib) 4 (backRules.map fun p => [p]) { known := told { method := b!"GET" } (.processResponseHeaders 200 [] none), phase := 4 } = none :=
      endOf_none (fun ⟨m', h⟩ => back_endless h (by decide) _ _ rfl rfl)
    show Option.map _ (endOf (toldSight lib) 4 (backRules.map fun p => [p]) { known := told { method := b!"GET" } (.processResponseHeaders 200 [] none), phase := 4 }) = none
    rw [this]; rfl
  have hr : Site.run lib {} [.load [backText], .newTransaction false,
      .call 0 (.processRequestURL none b!"GET" []), .call 0 (.processResponseHeaders 200 [] none)] = .endless := by
    rw [Site.run, Site.step, e1]
    simp only
    rw [Site.run, Site.step]
    simp only
    rw [Site.run, Site.step]
    simp only [List.nil_append, List.getElem?_cons_zero, if_true, c1]
    rw [Site.run, Site.step]
    simp only [List.set_cons_zero, List.getElem?_cons_zero, if_true, List.nil_append, c2]
  rw [hr] at this
  exact this

end Verif
