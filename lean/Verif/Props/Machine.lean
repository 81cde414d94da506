import Verif.Props.View
import Verif.Props.Log
/-!
A reference machine for rule texts: what the chains of a text do, written on the text
itself, for every action a text can have and every call a host can make.
-/
namespace Verif
open Sample Spec

/-! ### The machine -/

/-- What the machine needs to know of the outside: how a call adds to what is known,
what the host has told according to it, and when a rule's condition holds. -/
structure Spec.Sight (K : Type) where
  learn : K → Op → K
  facts : K → Facts
  holds : K → PRule → Prop

/-- A transaction as the rules see it. -/
structure Spec.Mach (K : Type) where
  known : K
  phase : Int := 0
  rule : Int := -1
  verdict : Intervention := { status := 200 }
  chosen : Option Int := none
  aborted : Bool := false

namespace Spec
variable {K : Type}

/-- Add a line to the log. -/
def say (S : Sight K) (msg : Bytes) (m : Mach K) : Mach K :=
  { m with verdict := { m.verdict with log := m.verdict.log ++
      [b!"[client " ++ (S.facts m.known).srcIp ++ b!":" ++ (S.facts m.known).srcPort ++ b!"] (phase " ++ itoa m.phase ++ b!") " ++ msg] } }

/-- Go to the start of a phase (0 to 7). -/
def goto (p : Int) (m : Mach K) : Mach K := { m with phase := max 0 (min p 7), rule := -1 }

/-- The status of a denial: the one already set, or the one chosen, or 403. -/
def denialStatus (m : Mach K) : Int :=
  if m.verdict.status ≠ 200 then m.verdict.status
  else match m.chosen with
    | some n => if 100 ≤ n ∧ n ≤ 599 then n else 403
    | none => 403

open Classical in
/-- The number written in an argument. -/
noncomputable def numberIn (arg : Bytes) : Option Int :=
  if h : ∃ n u, Unquoted arg u ∧ Int64 u n then some h.choose else none

open Classical in
/-- What an action does. -/
noncomputable def act (S : Sight K) (m : Mach K) (a : PAct) : Mach K :=
  match a.tk with
  | .deny => say S b!"ModSecurity: Access denied with code 403"
      { m with verdict := { m.verdict with status := denialStatus m, disruptive := true } }
  | .log => say S (b!"ModSecurity: running action in phase " ++ itoa m.phase ++ b!" rule " ++ itoa m.rule) m
  | .status => { m with chosen := numberIn a.arg }
  | .allow =>
    if Unquoted a.arg [] then goto 6 m
    else if Unquoted a.arg b!"phase" then goto (m.phase + 1) m
    else if Unquoted a.arg b!"request" then goto 4 m
    else m
  | _ => m

/-- When an action has its turn: data first, then logging, then verdicts, then flow. -/
def turn : ActTok → Nat
  | .status => 1
  | .log => 2
  | .deny | .block | .allow => 3
  | .skip => 4
  | _ => 0

/-- The actions of a rule in the order in which they take effect. -/
def inOrder (as : List PAct) : List PAct := [1, 2, 3, 4].flatMap fun n => as.filter fun a => turn a.tk = n

/-- What a chain does when it fires: its rules' actions, rule by rule. -/
noncomputable def fire (S : Sight K) (m : Mach K) (c : List PRule) : Mach K :=
  c.foldl (fun m p => (inOrder p.acts.action).foldl (act S) m) m

/-- The chain skips the next one when it fires. -/
def skips (c : List PRule) : Bool := c.any fun p => p.acts.action.any fun a => a.tk = .skip

open Classical in
/-- Evaluate the chains of phase `q`, the first of which has number `i`; `skip` says
whether it is skipped.  A disruptive verdict or leaving the phase ends it. -/
noncomputable def walk (S : Sight K) (q : Int) : Nat → Bool → List (List PRule) → Mach K → Mach K
  | _, _, [], m => m
  | i, true, _ :: cs, m => walk S q (i + 1) false cs m
  | i, false, c :: cs, m =>
    let m := { m with rule := i }
    if ∀ p ∈ c, S.holds m.known p then
      let m := fire S m c
      if m.verdict.disruptive ∨ m.phase ≠ q then m else walk S q (i + 1) (skips c) cs m
    else if m.verdict.disruptive then m else walk S q (i + 1) false cs m

/-- One call: the machine afterwards and the verdict shown, if any. -/
noncomputable def call (S : Sight K) (chains : List (List PRule)) (m : Mach K) (op : Op) : Mach K × List Intervention :=
  let m := { m with known := S.learn m.known op }
  match phaseOf op with
  | some q =>
    if q ≤ m.phase then (m, [])
    else if m.aborted then (goto q m, [])
    else (walk S q 0 false (chains.filter fun c => chainPhase c = q) (goto q m), [])
  | none =>
    match op with
    | .result => (if m.aborted then m else { m with verdict := { status := 200 } }, [m.verdict])
    | .intervention => (m, [m.verdict])
    | .resetIntervention => ({ m with verdict := { status := 200 } }, [])
    | .abortWithStatus c => ({ m with aborted := true, verdict := { m.verdict with status := c, disruptive := true } }, [])
    | .abortWithError c e =>
      (say S (b!"abort process with error " ++ e) { m with aborted := true, verdict := { m.verdict with status := c, disruptive := true } }, [])
    | .logf msg => (say S msg m, [])
    | .jumpToPhase i => (goto i m, [])
    | .nextPhase => (goto (m.phase + 1) m, [])
    | _ => (m, [])

/-- A sequence of calls: the machine afterwards and the verdicts shown. -/
noncomputable def run (S : Sight K) (chains : List (List PRule)) : Mach K → List Op → Mach K × List Intervention
  | m, [] => (m, [])
  | m, op :: ops =>
    let (m, is) := call S chains m op
    let (m, js) := run S chains m ops
    (m, is ++ js)

/-- The verdicts among the values returned. -/
def shown (os : List Out) : List Intervention := os.filterMap fun | .intervention i => some i | _ => none

/-- No chain of a response phase goes back to it by `allow:request`. -/
def NoReturn (chains : List (List PRule)) : Prop :=
  ∀ c ∈ chains, 4 ≤ chainPhase c → ∀ p ∈ c, ∀ a ∈ p.acts.action, a.tk = .allow → ¬ Unquoted a.arg b!"request"

end Spec

/-! ### Actions -/

theorem Spec.Unquoted.unique {s t u : Bytes} (h : Unquoted s t) (h' : Unquoted s u) : t = u :=
  ((trimQuote_iff s t).2 h).symm.trans ((trimQuote_iff s u).2 h')

theorem numberIn_eq {arg u : Bytes} {n : Int} (h : Unquoted arg u) (h' : Int64 u n) : numberIn arg = some n := by
  have hex : ∃ n u, Unquoted arg u ∧ Int64 u n := ⟨n, u, h, h'⟩
  rw [numberIn, dif_pos hex]
  obtain ⟨u', h1, h2⟩ := hex.choose_spec
  rw [h.unique h1] at h'
  have := ((parseInt_iff _ _).2 h').symm.trans ((parseInt_iff _ _).2 h2)
  exact this.symm

theorem denyDo_chosen {K : Type} (m : Mach K) (t : Tx) (hv : t.intervention = m.verdict) (hk : t.getData b!"status" = m.chosen.map DataVal.int) :
    denyDo t = (t.setIntervention { t.intervention with status := denialStatus m, disruptive := true }).log
      b!"ModSecurity: Access denied with code 403" := by
  rw [denialStatus, ← hv]
  by_cases h200 : t.intervention.status = 200
  · cases hc : m.chosen with
    | none => simp [denyDo, hk, h200, hc]
    | some n => by_cases hn : 100 ≤ n ∧ n ≤ 599 <;> simp [denyDo, hk, h200, hc, hn]
  · simp [denyDo, h200]

/-- The transaction is in the state of the machine, up to the rule cursor. -/
structure Agree {env : Env} (V : View env) (h : List Op) (m : Mach V.K) (t : Tx) : Prop where
  know : V.know t = m.known
  fine : V.fine h t
  phase : t.phase = m.phase
  verdict : t.intervention = m.verdict
  chosen : t.getData b!"status" = m.chosen.map DataVal.int
  aborted : t.abort = m.aborted
  low : 0 ≤ t.phase
  high : t.phase ≤ 7

/-- The value of `nextRule` that leads to rule `j` of a phase with `len` rules. -/
def slot (len j : Nat) : Int := if len ≤ j then -2 else j

/-- The position of a transaction that evaluates rule `i` of phase `q`: it is not
before the phase, and if it is still in it, it goes on at `j`. -/
structure Placed (q : Int) (len i j : Nat) (t : Tx) : Prop where
  ge : q ≤ t.phase
  cursor : t.phase = q → t.currentRule = i ∧ t.nextRule = slot len j

/-- What the machine and a view have in common. -/
structure Sees {env : Env} (V : View env) (S : Sight V.K) : Prop where
  facts : S.facts = V.facts
  holds : ∀ k p, S.holds k p ↔ HoldsBy env.lib (V.lists k) p

theorem goto_phase (p : Int) (t : Tx) : (t.jumpToPhase p).phase = max 0 (min p 7) := by
  simp only [Tx.jumpToPhase, phaseBegin, phaseEnd]
  by_cases h : p < 0
  · exact (if_pos h).trans (by omega)
  · by_cases h' : p ≥ 7
    · exact ((if_neg h).trans (if_pos h')).trans (by omega)
    · exact ((if_neg h).trans (if_neg h')).trans (by omega)

section
variable {env : Env} {V : View env} {S : Sight V.K} {h : List Op} {m : Mach V.K} {t : Tx}

/-- A step that leaves alone what the view sees. -/
theorem Agree.congr {m' : Mach V.K} {t' : Tx} (ha : Agree V h m t) (hc : t'.core = t.core) (hk : m'.known = m.known)
    (h1 : t'.phase = m'.phase) (h2 : t'.intervention = m'.verdict) (h3 : t'.getData b!"status" = m'.chosen.map DataVal.int)
    (h4 : t'.abort = m'.aborted) (h5 : 0 ≤ t'.phase) (h6 : t'.phase ≤ 7) : Agree V h m' t' :=
  ⟨(V.know_core hc).trans (ha.know.trans hk.symm), V.fine_core hc ha.fine, h1, h2, h3, h4, h5, h6⟩

theorem Agree.goto (ha : Agree V h m t) (p : Int) : Agree V h (goto p m) (t.jumpToPhase p) := by
  have := goto_phase p t
  refine ha.congr rfl rfl this ha.verdict ha.chosen ha.aborted ?_ ?_ <;> omega

theorem Agree.say (hs : Sees V S) (ha : Agree V h m t) (msg : Bytes) : Agree V h (say S msg m) (t.log msg) := by
  refine ha.congr rfl rfl ha.phase ?_ ha.chosen ha.aborted ha.low ha.high
  have hv := ha.verdict
  have hf : S.facts m.known = t.facts := by rw [hs.facts, ← ha.know, V.facts_know]
  simp only [Tx.log, Tx.setIntervention, Tx.intervention, Option.getD_some, Spec.say, hf, ← ha.phase]
  rw [← hv]
  rfl

theorem Agree.deny (hs : Sees V S) (ha : Agree V h m t) (a : PAct) (htk : a.tk = .deny) : Agree V h (act S m a) (denyDo t) := by
  have hv := ha.verdict
  have hmid : Agree V h { m with verdict := { m.verdict with status := denialStatus m, disruptive := true } }
      (t.setIntervention { t.intervention with status := denialStatus m, disruptive := true }) := by
    refine ha.congr rfl rfl ha.phase ?_ ha.chosen ha.aborted ha.low ha.high
    rw [← hv]; rfl
  rw [denyDo_chosen m t hv ha.chosen]
  have := hmid.say hs b!"ModSecurity: Access denied with code 403"
  simpa only [act, htk] using this

theorem slot_le {len i : Nat} {t : Tx} {j : Nat} (hi : t.currentRule = i) (hj : j = i + 2) :
    (t.jumpTo len (t.currentRule + 2)).nextRule = slot len j := by
  simp only [Tx.jumpTo, slot, hi, hj, statusEndOfRules]
  by_cases hl : len ≤ i + 2
  · rw [if_pos (by omega), if_pos hl]
  · rw [if_neg (by omega), if_neg hl]; simp

/-- One action. -/
theorem act_run {rs : RuleSet} (hs : Sees V S) (hdef : rs.defaultActions = []) {q : Int} (hq : q ≤ 5) {i j n : Nat}
    (ha : Agree V h m t) (hp : Placed q (rs.phases q).length i j t)
    (hcur : t.currentRule = m.rule) {a : PAct} {x : Action} (hm : ActMeans a x) (hn : 1 ≤ n)
    (hret : 4 ≤ q → a.tk = .allow → ¬ Unquoted a.arg b!"request") :
    ∃ t', Action.run rs n x t = .ok t' ∧ Agree V h (act S m a) t' ∧
      Placed q (rs.phases q).length i (if a.tk = .skip then i + 2 else j) t' ∧
      t'.currentRule = (act S m a).rule := by
  cases hm with
  | deny =>
    refine ⟨denyDo t, by simp only [Action.run], ha.deny hs _ rfl, ?_, ?_⟩
    · obtain ⟨_, _, _, _, _, _, d7⟩ := C26_deny t
      have e : ∀ {α : Type} (f : Tx → α), f { denyDo t with interv := t.interv } = f t := fun f => by rw [d7]
      exact ⟨by rw [show (denyDo t).phase = t.phase from e Tx.phase]; exact hp.ge, fun hph => by
        rw [show (denyDo t).currentRule = _ from e Tx.currentRule, show (denyDo t).nextRule = _ from e Tx.nextRule]
        exact hp.cursor ((e Tx.phase).symm.trans hph)⟩
    · exact hcur
  | log =>
    refine ⟨logDo t, by simp only [Action.run], ?_, ⟨hp.ge, hp.cursor⟩, hcur⟩
    have := ha.say hs (b!"ModSecurity: running action in phase " ++ itoa t.phase ++ b!" rule " ++ itoa t.currentRule)
    rw [ha.phase, hcur] at this
    simp only [logDo, ha.phase, hcur]
    exact this
  | block =>
    obtain ⟨n, rfl⟩ : ∃ k, n = k + 1 := ⟨n - 1, by omega⟩
    refine ⟨t, by simp only [Action.run, hdef]; rfl, ha, hp, hcur⟩
  | skip =>
    refine ⟨_, (by simp only [Action.run]; rfl), ?_, ?_, ?_⟩
    · refine ha.congr ?_ rfl ?_ ?_ ?_ ?_ ?_ ?_ <;> simp only [skipDo, Tx.jumpTo] <;> split <;>
        first | rfl | exact ha.phase | exact ha.verdict | exact ha.chosen | exact ha.aborted | exact ha.low | exact ha.high
    · have e1 : (skipDo rs t).phase = t.phase := by simp only [skipDo, Tx.jumpTo]; split <;> rfl
      have e2 : (skipDo rs t).currentRule = t.currentRule := by simp only [skipDo, Tx.jumpTo]; split <;> rfl
      refine ⟨by rw [e1]; exact hp.ge, fun hph => ?_⟩
      rw [e1] at hph
      obtain ⟨c1, c2⟩ := hp.cursor hph
      refine ⟨e2.trans c1, ?_⟩
      simp only [skipDo]
      rw [hph]
      exact slot_le c1 rfl
    · have e2 : (skipDo rs t).currentRule = t.currentRule := by simp only [skipDo, Tx.jumpTo]; split <;> rfl
      rw [e2]; exact hcur
  | @status arg u k hu hk =>
    refine ⟨t.setData b!"status" (.int k), by simp only [Action.run], ?_, ⟨hp.ge, hp.cursor⟩, hcur⟩
    refine ha.congr rfl rfl ha.phase ha.verdict ?_ ha.aborted ha.low ha.high
    simp [Tx.getData, Tx.setData, act, numberIn_eq hu hk]
  | @allow arg u hu =>
    have hge := hp.ge
    have go : ∀ (p : Int), q < max 0 (min p 7) → act S m ⟨.allow, arg⟩ = goto p m → allowDo u t = t.jumpToPhase p →
        ∃ t', Action.run rs n (.allow u) t = .ok t' ∧ Agree V h (act S m ⟨.allow, arg⟩) t' ∧
          Placed q (rs.phases q).length i (if ActTok.allow = .skip then i + 2 else j) t' ∧
          t'.currentRule = (act S m ⟨.allow, arg⟩).rule := by
      intro p hlt e1 e2
      have hph := goto_phase p t
      refine ⟨_, (by simp only [Action.run]; rfl), ?_, ?_, ?_⟩
      · rw [e1, e2]; exact ha.goto p
      · rw [e2]
        exact ⟨by omega, fun e => by omega⟩
      · rw [e1, e2]; rfl
    have hlow := ha.low
    by_cases h1 : u = []
    · subst h1
      refine go 6 (by omega) ?_ (by simp [allowDo, phaseLogging])
      simp only [act]; rw [if_pos hu]
    · have g1 : ¬ Unquoted arg [] := fun h' => h1 (hu.unique h')
      by_cases h2 : u = b!"phase"
      · subst h2
        refine go (t.phase + 1) (by omega) ?_ ((if_neg h1).trans (if_pos rfl))
        simp only [act]; rw [if_neg g1, if_pos hu, ha.phase]
      · have g2 : ¬ Unquoted arg b!"phase" := fun h' => h2 (hu.unique h')
        by_cases h3 : u = b!"request"
        · subst h3
          refine go 4 ?_ ?_ ((if_neg h1).trans ((if_neg h2).trans (if_pos rfl)))
          · by_cases h4 : 4 ≤ q
            · exact absurd hu (hret h4 rfl)
            · omega
          · simp only [act]; rw [if_neg g1, if_neg g2, if_pos hu]
        · have g3 : ¬ Unquoted arg b!"request" := fun h' => h3 (hu.unique h')
          have e1 : act S m ⟨.allow, arg⟩ = m := by simp only [act]; rw [if_neg g1, if_neg g2, if_neg g3]
          have e2 : allowDo u t = t := by simp only [allowDo]; rw [if_neg h1, if_neg h2, if_neg h3]
          refine ⟨t, by simp only [Action.run, e2], ?_⟩
          rw [e1]
          exact ⟨ha, hp, hcur⟩

theorem if_or {α : Type} (x y : Bool) (a b : α) : (if (x || y) = true then a else b) = if y = true then a else if x = true then a else b := by
  cases x <;> cases y <;> rfl

/-- The transaction is in the state of the machine while rule `i` of phase `q` acts. -/
structure Busy {env : Env} (V : View env) (h : List Op) (q : Int) (len i j : Nat) (m : Mach V.K) (t : Tx) : Prop where
  agree : Agree V h m t
  placed : Placed q len i j t
  cur : t.currentRule = m.rule

theorem acts_run {rs : RuleSet} (hs : Sees V S) (hdef : rs.defaultActions = []) {q : Int} (hq : q ≤ 5) {i n : Nat} (hn : 1 ≤ n)
    {as : List PAct} {xs : List Action} (hm : Pairs ActMeans as xs) :
    (∀ a ∈ as, 4 ≤ q → a.tk = .allow → ¬ Unquoted a.arg b!"request") → ∀ {j : Nat} {m : Mach V.K} {t : Tx}, Busy V h q (rs.phases q).length i j m t →
    ∃ t', doAll (Action.run rs n) xs t = .ok t' ∧
      Busy V h q (rs.phases q).length i (if as.any fun a => a.tk = .skip then i + 2 else j) (as.foldl (act S) m) t' := by
  induction hm with
  | nil => intro _ j m t hb; exact ⟨t, rfl, hb⟩
  | @cons a x as xs hax _ ih =>
    intro hret j m t hb
    obtain ⟨t1, g1, g2, g3, g4⟩ := act_run hs hdef hq hb.agree hb.placed hb.cur hax hn (hret a List.mem_cons_self)
    obtain ⟨t2, k1, k2⟩ := ih (fun a ha => hret a (List.mem_cons_of_mem _ ha)) ⟨g2, g3, g4⟩
    refine ⟨t2, by simp only [doAll, g1, Res.bind_ok']; exact k1, ?_⟩
    have e : (if (a :: as).any (fun a => decide (a.tk = .skip)) then i + 2 else j) =
        if as.any (fun a => decide (a.tk = .skip)) then i + 2 else if a.tk = .skip then i + 2 else j := by
      rw [List.any_cons, if_or]; simp only [decide_eq_true_eq]
    rw [e]
    exact k2

end

theorem Pairs.filter {α β : Type} {R : α → β → Prop} {f : α → Bool} {g : β → Bool} (hfg : ∀ a b, R a b → f a = g b) {as : List α} {bs : List β}
    (h : Pairs R as bs) : Pairs R (as.filter f) (bs.filter g) := by
  induction h with
  | nil => exact .nil
  | @cons a b as bs hr _ ih =>
    rw [List.filter_cons, List.filter_cons, hfg a b hr]
    split
    · exact .cons hr ih
    · exact ih

theorem turn_group {a : PAct} {x : Action} (h : ActMeans a x) : x.group = turn a.tk := by cases h <;> rfl

/-- The order of the actions of a written rule is that of the groups. -/
theorem inOrder_grouped {as : List PAct} {xs : List Action} (h : Pairs ActMeans (as.filter fun a => (metaName a.tk).isNone) xs) :
    Pairs ActMeans (inOrder as) (grouped xs) := by
  have key : ∀ n : Nat, 1 ≤ n → Pairs ActMeans (as.filter fun a => turn a.tk = n) (inGroup n xs) := by
    intro n hn
    have e : (as.filter fun a => turn a.tk = n) = (as.filter fun a => (metaName a.tk).isNone).filter fun a => turn a.tk = n := by
      rw [List.filter_filter]
      congr 1
      funext a
      cases a with | mk tk arg => cases tk <;> simp only [metaName, turn, Option.isNone_none, Option.isNone_some, Bool.and_true, Bool.and_false] <;> exact decide_eq_false (by omega)
    rw [e]
    exact h.filter fun a x hax => by rw [turn_group hax]; exact decide_eq_decide.2 (by omega)
  have h0 : inGroup 0 xs = [] := by
    rw [inGroup, List.filter_eq_nil_iff]
    intro x hx
    obtain ⟨a, _, hax⟩ := h.right x hx
    cases hax <;> simp [Action.group, groupData, groupNonDisruptive, groupDisruptive, groupFlow]
  simp only [grouped, h0, List.nil_append, inOrder, List.flatMap_cons, List.flatMap_nil, List.append_nil, ← List.append_assoc]
  exact (((key 1 (by omega)).append (key 2 (by omega))).append (key 3 (by omega))).append (key 4 (by omega))

theorem mem_inOrder {as : List PAct} {a : PAct} (h : a ∈ inOrder as) : a ∈ as := by
  obtain ⟨n, _, h⟩ := List.mem_flatMap.1 h
  exact (List.mem_filter.1 h).1

theorem inOrder_skip (as : List PAct) : ((inOrder as).any fun a => a.tk = .skip) = as.any fun a => a.tk = .skip := by
  rw [Bool.eq_iff_iff, List.any_eq_true, List.any_eq_true]
  constructor
  · rintro ⟨a, ha, hs⟩; exact ⟨a, mem_inOrder ha, hs⟩
  · rintro ⟨a, ha, hs⟩
    refine ⟨a, List.mem_flatMap.2 ⟨4, by simp, List.mem_filter.2 ⟨ha, ?_⟩⟩, hs⟩
    have hs : a.tk = .skip := by simpa using hs
    rw [hs]; rfl

section
variable {env : Env} {V : View env} {S : Sight V.K} {h : List Op} {m : Mach V.K} {t : Tx}

/-- The actions of a rule. -/
theorem rule_acts {rs : RuleSet} (hs : Sees V S) (hdef : rs.defaultActions = []) {q : Int} (hq : q ≤ 5) {i n : Nat} (hn : 1 ≤ n)
    {p : PRule} {r : Rule} (hm : Pairs ActMeans (p.acts.action.filter fun a => (metaName a.tk).isNone) r.actions)
    (hret : ∀ a ∈ p.acts.action, 4 ≤ q → a.tk = .allow → ¬ Unquoted a.arg b!"request") {j : Nat} (hb : Busy V h q (rs.phases q).length i j m t) :
    ∃ t', actionsExecute (Action.run rs n) r.actions t = .ok t' ∧
      Busy V h q (rs.phases q).length i (if p.acts.action.any fun a => a.tk = .skip then i + 2 else j)
        ((inOrder p.acts.action).foldl (act S) m) t' := by
  obtain ⟨t', h1, h2⟩ := acts_run hs hdef hq hn (inOrder_grouped hm) (fun a ha => hret a (mem_inOrder ha)) hb
  rw [inOrder_skip] at h2
  refine ⟨t', ?_, h2⟩
  simp only [actionsExecute]
  cases hx : actionMap r.actions (List.replicate groupCount []) with
  | none =>
    obtain ⟨x, hx, hg⟩ := actionMap_none.1 hx
    obtain ⟨a, _, hax⟩ := hm.right x hx
    cases hax <;> simp [Action.group, groupData, groupNonDisruptive, groupDisruptive, groupFlow, groupCount] at hg
  | some mm => simp only [actionMap_grouped hx]; exact h1

theorem rest_acts {rs : RuleSet} (hs : Sees V S) (hdef : rs.defaultActions = []) {q : Int} (hq : q ≤ 5) {i n : Nat} (hn : 1 ≤ n)
    {ps : List PRule} {ss : List Rule} (hm : Pairs (RuleMeans env.lib) ps ss) :
    (∀ p ∈ ps, ∀ a ∈ p.acts.action, 4 ≤ q → a.tk = .allow → ¬ Unquoted a.arg b!"request") → ∀ {j : Nat} {m : Mach V.K} {t : Tx},
    Busy V h q (rs.phases q).length i j m t →
    ∃ t', subActions rs n ss t = .ok t' ∧ Busy V h q (rs.phases q).length i (if skips ps then i + 2 else j) (fire S m ps) t' := by
  induction hm with
  | nil => intro _ j m t hb; exact ⟨t, rfl, hb⟩
  | @cons p r ps ss hr _ ih =>
    intro hret j m t hb
    obtain ⟨t1, g1, g2⟩ := rule_acts hs hdef hq hn hr.actions (hret p List.mem_cons_self) hb
    obtain ⟨t2, k1, k2⟩ := ih (fun p hp => hret p (List.mem_cons_of_mem _ hp)) g2
    refine ⟨t2, by simp only [subActions, g1, Res.bind_ok']; exact k1, ?_⟩
    have e : (if skips (p :: ps) then i + 2 else j) =
        if skips ps then i + 2 else if p.acts.action.any (fun a => decide (a.tk = .skip)) then i + 2 else j := by
      exact if_or _ _ _ _
    rw [e]
    exact k2

open Classical in
/-- One evaluation of a chain. -/
theorem chain_eval {rs : RuleSet} (hs : Sees V S) (hdef : rs.defaultActions = []) {q : Int} (hq : q ≤ 5) (hph : ∃ o ∈ h, phaseOf o = some q) {i n : Nat}
    (hn : 1 ≤ n) {c : List PRule} {r : Rule} (hc : ChainMeans env.lib c r) (hcov : ∀ p ∈ c, ∀ v ∈ p.vars, V.covers q v.tk)
    (hret : ∀ p ∈ c, ∀ a ∈ p.acts.action, 4 ≤ q → a.tk = .allow → ¬ Unquoted a.arg b!"request")
    (hb : Busy V h q (rs.phases q).length i (i + 1) m t) (hab : m.aborted = false) :
    ∃ t', r.run env rs n t = .ok t' ∧
      Busy V h q (rs.phases q).length i (if (∀ p ∈ c, S.holds m.known p) ∧ skips c = true then i + 2 else i + 1)
        (if ∀ p ∈ c, S.holds m.known p then fire S m c else m) t' := by
  obtain ⟨p, ps, r0, ss, rfl, hr, hps, rfl⟩ := hc
  have hk := hb.agree.know
  obtain ⟨b, t1, g1, a1, a2, a3, k2⟩ := loaded_matches V hph (r := { r0 with subRules := ss }) hr.not hr.trans hr.vars hr.op
    (hcov p List.mem_cons_self) hb.agree.fine (hb.agree.aborted.trans hab)
  have still : ∀ {u : Tx}, Untouched t u → V.fine h u → V.know u = V.know t → Busy V h q (rs.phases q).length i (i + 1) m u := by
    intro u hu hf hk'
    refine ⟨⟨hk'.trans hk, hf, hu.phase.trans hb.agree.phase, ?_, ?_, hu.abort.trans hb.agree.aborted, ?_, ?_⟩, ⟨?_, ?_⟩, hu.currentRule.trans hb.cur⟩
    · simp only [Tx.intervention, hu.interv]; exact hb.agree.verdict
    · simp only [Tx.getData, hu.data]; exact hb.agree.chosen
    · rw [hu.phase]; exact hb.agree.low
    · rw [hu.phase]; exact hb.agree.high
    · rw [hu.phase]; exact hb.placed.ge
    · rw [hu.phase, hu.currentRule, hu.nextRule]; exact hb.placed.cursor
  rw [hk] at k2
  cases b with
  | false =>
    have hno : ¬ ∀ p' ∈ p :: ps, S.holds m.known p' := fun hall => by
      have := k2.2 ((hs.holds _ _).1 (hall p List.mem_cons_self))
      cases this
    refine ⟨t1, by simp only [Rule.run, g1, Res.bind_ok']; rfl, ?_⟩
    rw [if_neg (fun hh => hno hh.1), if_neg hno]
    exact still a1 a2 a3
  | true =>
    obtain ⟨b, t2, g2, b1, b2, b3, j2⟩ := loaded_matchSubs V hph hps (fun p hp => hcov p (List.mem_cons_of_mem _ hp)) a2
      (a1.abort.trans (hb.agree.aborted.trans hab))
    rw [a3, hk] at j2
    cases b with
    | false =>
      have hno : ¬ ∀ p' ∈ p :: ps, S.holds m.known p' := fun hall => by
        have := j2.2 fun p' hp' => (hs.holds _ _).1 (hall p' (List.mem_cons_of_mem _ hp'))
        cases this
      refine ⟨t2, by simp only [Rule.run, g1, Res.bind_ok', Bool.not_true, Bool.false_eq_true, if_false, g2]; rfl, ?_⟩
      rw [if_neg (fun hh => hno hh.1), if_neg hno]
      exact still (a1.trans b1) b2 (b3.trans a3)
    | true =>
      have hyes : ∀ p' ∈ p :: ps, S.holds m.known p' := by
        intro p' hp'
        rw [hs.holds]
        rcases List.mem_cons.1 hp' with rfl | hp'
        · exact k2.1 rfl
        · exact j2.1 rfl p' hp'
      obtain ⟨t3, c1, c2⟩ := rest_acts hs hdef hq hn (.cons hr hps) hret (still (a1.trans b1) b2 (b3.trans a3))
      refine ⟨t3, ?_, ?_⟩
      · simp only [Rule.run, g1, Res.bind_ok', Bool.not_true, Bool.false_eq_true, if_false, g2]
        exact c1
      · rw [if_pos hyes]
        have e : ((∀ p' ∈ p :: ps, S.holds m.known p') ∧ skips (p :: ps) = true) ↔ skips (p :: ps) = true := and_iff_right hyes
        simp only [e]; exact c2

/-! ### Phases -/

theorem next_shape (t : Tx) (k : Nat) : ∃ a b c, t.next k = ({ t with currentRule := a, nextRule := b }, c) := by
  simp only [Tx.next]
  split
  · exact ⟨_, _, _, rfl⟩
  · split <;> exact ⟨_, _, _, rfl⟩

theorem walk_skip (q : Int) (i : Nat) (cs : List (List PRule)) (m : Mach V.K) : walk S q i true cs m = walk S q (i + 1) false cs.tail m := by
  cases cs <;> rfl

theorem Pairs.tail {α β : Type} {R : α → β → Prop} {as : List α} {bs : List β} (h : Pairs R as bs) : Pairs R as.tail bs.tail := by
  cases h with
  | nil => exact .nil
  | cons _ h => exact h

/-- Going on to the next rule. -/
theorem next_slot {len j : Nat} {t : Tx} (h : t.nextRule = slot len j) : ∃ nr, t.next len = ({ t with currentRule := slot len j, nextRule := nr }, slot len j) ∧
    (j < len → nr = slot len (j + 1)) := by
  by_cases hj : len ≤ j
  · have e : slot len j = -2 := if_pos hj
    refine ⟨t.nextRule, ?_, fun h => by omega⟩
    simp only [Tx.next, h, e, statusEndOfRules]
    rfl
  · have e : slot len j = j := if_neg hj
    refine ⟨slot len (j + 1), ?_, fun _ => rfl⟩
    rw [e] at h ⊢
    simp only [Tx.next, h, statusEndOfRules, slot]
    rw [if_neg (by omega)]
    by_cases hl : len ≤ j + 1
    · rw [if_pos (by omega), if_pos hl]
    · rw [if_neg (by omega), if_neg hl]; simp

theorem Agree.moved (ha : Agree V h m t) (a b : Int) : Agree V h m { t with currentRule := a, nextRule := b } :=
  ha.congr rfl rfl ha.phase ha.verdict ha.chosen ha.aborted ha.low ha.high

theorem Agree.touch (ha : Agree V h m t) : Agree V h m t.touch :=
  ha.congr rfl rfl ha.phase ha.verdict ha.chosen ha.aborted ha.low ha.high

theorem loop_out {rs : RuleSet} {q next : Int} {n : Nat} (hn : 1 ≤ n) (hout : t.phase ≠ q ∨ next = -2) : processLoop env rs q n next t = .ok (t, []) := by
  obtain ⟨k, rfl⟩ : ∃ k, n = k + 1 := ⟨n - 1, by omega⟩
  simp only [processLoop]
  rw [if_neg]
  rintro ⟨h1, h2⟩
  rcases hout with h3 | h3
  · exact h3 h1
  · exact h2 h3

theorem act_known (a : PAct) (m : Mach V.K) : (act S m a).known = m.known ∧ (act S m a).aborted = m.aborted := by
  simp only [act]
  split <;> try exact ⟨rfl, rfl⟩
  repeat (first | exact ⟨rfl, rfl⟩ | split)

theorem acts_known (as : List PAct) (m : Mach V.K) : (as.foldl (act S) m).known = m.known ∧ (as.foldl (act S) m).aborted = m.aborted := by
  induction as generalizing m with
  | nil => exact ⟨rfl, rfl⟩
  | cons a as ih => rw [List.foldl_cons]; exact ⟨(ih _).1.trans (act_known a m).1, (ih _).2.trans (act_known a m).2⟩

theorem fire_known (c : List PRule) (m : Mach V.K) : (fire S m c).known = m.known ∧ (fire S m c).aborted = m.aborted := by
  induction c generalizing m with
  | nil => exact ⟨rfl, rfl⟩
  | cons p c ih =>
    have e : fire S m (p :: c) = fire S ((inOrder p.acts.action).foldl (act S) m) c := rfl
    rw [e]; exact ⟨(ih _).1.trans (acts_known _ m).1, (ih _).2.trans (acts_known _ m).2⟩

/-- The loop over the rules of a phase. -/
theorem walk_loop {rs : RuleSet} (hs : Sees V S) (hdef : rs.defaultActions = []) {q : Int} (h5 : q ≤ 5) (hph : ∃ o ∈ h, phaseOf o = some q) :
    ∀ (k : Nat) {cs : List (List PRule)} {i n : Nat} {m : Mach V.K} {t : Tx}, cs.length ≤ k → Pairs (ChainMeans env.lib) cs ((rs.phases q).drop i) →
    (∀ c ∈ cs, ∀ p ∈ c, ∀ v ∈ p.vars, V.covers q v.tk) →
    (∀ c ∈ cs, ∀ p ∈ c, ∀ a ∈ p.acts.action, 4 ≤ q → a.tk = .allow → ¬ Unquoted a.arg b!"request") →
    Agree V h m t → m.aborted = false → t.phase = q → t.currentRule = slot (rs.phases q).length i →
    (i < (rs.phases q).length → t.nextRule = slot (rs.phases q).length (i + 1)) → cs.length + 2 ≤ n →
    ∃ t' tr, processLoop env rs q n (slot (rs.phases q).length i) t = .ok (t', tr) ∧ Agree V h (walk S q i false cs m) t' := by
  intro k
  induction k with
  | zero =>
    intro cs i n m t hk hp _ _ ha hab htp hc hnx hn
    have : cs = [] := List.length_eq_zero_iff.1 (Nat.le_zero.1 hk)
    subst this
    have hl := hp.length_eq
    simp only [List.length_nil, List.length_drop] at hl
    exact ⟨t, [], loop_out (by omega) (.inr (if_pos (by omega))), ha⟩
  | succ k ih =>
    intro cs i n m t hk hp hcov hret ha hab htp hc hnx hn
    cases cs with
    | nil =>
      have hl := hp.length_eq
      simp only [List.length_nil, List.length_drop] at hl
      exact ⟨t, [], loop_out (by simp at hn; omega) (.inr (if_pos (by omega))), ha⟩
    | cons c cs =>
      simp only [List.length_cons] at hk hn
      have hlen := hp.length_eq
      simp only [List.length_cons, List.length_drop] at hlen
      have hi : i < (rs.phases q).length := by omega
      obtain ⟨r, hr⟩ : ∃ r, (rs.phases q)[i]? = some r := ⟨_, List.getElem?_eq_getElem hi⟩
      have hdrop : (rs.phases q).drop i = r :: (rs.phases q).drop (i + 1) := by
        rw [List.drop_eq_getElem_cons hi]
        have := List.getElem?_eq_getElem hi
        rw [hr] at this
        simp only [Option.some.injEq] at this
        rw [this]
      rw [hdrop] at hp
      cases hp with
      | cons hcr hps =>
      obtain ⟨n, rfl⟩ : ∃ k, n = k + 1 := ⟨n - 1, by omega⟩
      have hsl : slot (rs.phases q).length i = i := if_neg (by omega)
      rw [hsl] at hc ⊢
      have hb : Busy V h q (rs.phases q).length i (i + 1) { m with rule := i } t :=
        ⟨ha.congr rfl rfl ha.phase ha.verdict ha.chosen ha.aborted ha.low ha.high, ⟨by omega, fun _ => ⟨hc, hnx hi⟩⟩, hc⟩
      obtain ⟨t1, g1, g2⟩ := chain_eval hs hdef h5 hph (n := n) (by omega) hcr (hcov c List.mem_cons_self) (hret c List.mem_cons_self) hb hab
      have hproc : rs.process env n t q i = .ok t1 := by
        simp only [RuleSet.process]
        rw [if_pos (by omega), if_neg (by omega)]
        simp only [Int.toNat_natCast, hr]
        exact g1
      -- the loop after the evaluation
      have hloop : ∀ {m1 : Mach V.K} {j : Nat} {cs' : List (List PRule)}, Busy V h q (rs.phases q).length i j m1 t1 → m1.aborted = false →
          cs'.length ≤ cs.length → (∀ c ∈ cs', c ∈ cs) → Pairs (ChainMeans env.lib) cs' ((rs.phases q).drop j) →
          ∃ t' tr, processLoop env rs q (n + 1) i t = .ok (t', tr) ∧
            Agree V h (if m1.verdict.disruptive = true ∨ m1.phase ≠ q then m1 else walk S q j false cs' m1) t' := by
        intro m1 j cs' hb1 hab1 hlen' hsub hp'
        have hv := hb1.agree.verdict
        simp only [processLoop]
        rw [if_pos ⟨htp, by simp only [statusEndOfRules]; omega⟩, hproc]
        simp only [Res.bind_ok']
        have hti : t1.touch.intervention = m1.verdict := hb1.agree.touch.verdict
        by_cases hd : m1.verdict.disruptive = true
        · have hstop : m1.verdict.disruptive = true ∨ m1.phase ≠ q := .inl hd
          rw [if_pos (show t1.touch.intervention.disruptive = true by rw [hti]; exact hd), if_pos hstop]
          exact ⟨_, _, rfl, hb1.agree.touch⟩
        · rw [if_neg (show ¬ t1.touch.intervention.disruptive = true by rw [hti]; exact hd)]
          by_cases hq : m1.phase = q
          · have hq1 : t1.touch.phase = q := hb1.agree.phase.trans hq
            obtain ⟨_, c2⟩ := hb1.placed.cursor hq1
            have hgo : ¬ (m1.verdict.disruptive = true ∨ m1.phase ≠ q) := fun hh => hh.elim hd (fun h' => h' hq)
            rw [if_neg hgo, hq1]
            obtain ⟨nr, e1, e2⟩ := next_slot (t := t1.touch) (show t1.touch.nextRule = _ from c2)
            rw [e1]
            obtain ⟨t', tr, k1, k2⟩ := ih (cs := cs') (i := j) (n := n) (m := m1)
              (t := { t1.touch with currentRule := slot (rs.phases q).length j, nextRule := nr }) (by omega) hp'
              (fun c hc => hcov c (List.mem_cons_of_mem _ (hsub c hc))) (fun c hc => hret c (List.mem_cons_of_mem _ (hsub c hc)))
              (hb1.agree.touch.moved _ _) hab1 hq1 rfl e2 (by omega)
            simp only [k1, Res.bind_ok']
            exact ⟨_, _, rfl, k2⟩
          · have hstop : m1.verdict.disruptive = true ∨ m1.phase ≠ q := .inr hq
            rw [if_pos hstop]
            have hne : t1.touch.phase ≠ q := fun e => hq (hb1.agree.phase.symm.trans e)
            obtain ⟨x, y, z, e1⟩ := next_shape t1.touch (rs.phases t1.touch.phase).length
            rw [e1]
            simp only [loop_out (env := env) (rs := rs) (t := { t1.touch with currentRule := x, nextRule := y }) (next := z) (n := n) (by omega) (.inl hne),
              Res.bind_ok']
            exact ⟨_, _, rfl, hb1.agree.touch.moved _ _⟩
      simp only [walk]
      by_cases hh : ∀ p ∈ c, S.holds m.known p
      · rw [if_pos hh] at g2
        rw [if_pos hh]
        have hab1 : (fire S { m with rule := i } c).aborted = false := (fire_known c _).2.trans hab
        cases hsk : skips c with
        | true =>
          rw [if_pos ⟨hh, hsk⟩] at g2
          rw [walk_skip]
          refine hloop g2 hab1 (by simp) (fun c hc => List.mem_of_mem_tail hc) ?_
          have := hps.tail
          rwa [List.tail_drop] at this
        | false =>
          rw [if_neg (by rintro ⟨_, h⟩; rw [hsk] at h; cases h)] at g2
          exact hloop g2 hab1 (Nat.le_refl _) (fun _ h => h) hps
      · rw [if_neg hh, if_neg (fun h => hh h.1)] at g2
        rw [if_neg hh]
        obtain ⟨t', tr, k1, k2⟩ := hloop g2 hab (Nat.le_refl _) (fun _ h => h) hps
        refine ⟨t', tr, k1, ?_⟩
        have hmp : m.phase = q := ha.phase.symm.trans htp
        by_cases hd : m.verdict.disruptive = true
        · rw [if_pos hd]
          rwa [if_pos (Or.inl hd)] at k2
        · rw [if_neg hd]
          rwa [if_neg (fun hh => hh.elim hd (fun h' => h' hmp))] at k2

/-- All variables of the chains are covered by the view. -/
def Covered {env : Env} (V : View env) (chains : List (List PRule)) : Prop :=
  ∀ c ∈ chains, 1 ≤ chainPhase c → ∀ p ∈ c, ∀ v ∈ p.vars, V.covers (chainPhase c) v.tk

/-- The rules of the rule set are the chains. -/
structure Carried (lib : Lib) (chains : List (List PRule)) (rs : RuleSet) : Prop where
  defaults : rs.defaultActions = []
  rules : ∀ q : Int, 1 ≤ q → Pairs (ChainMeans lib) (chains.filter fun c => chainPhase c = q) (rs.phases q)
  five : ∀ c ∈ chains, chainPhase c ≤ 5

/-- Processing a phase. -/
theorem phase_machine {rs : RuleSet} {chains : List (List PRule)} (hs : Sees V S) (hc : Carried env.lib chains rs) (hcov : Covered V chains)
    (hret : NoReturn chains) {q : Int} (hph : ∃ o ∈ h, phaseOf o = some q) {n : Nat} (hn : chains.length + 2 ≤ n) (ha : Agree V h m t) :
    ∃ t' tr, processPhase env rs n q t = .ok (t', tr) ∧
      Agree V h (if q ≤ m.phase then m else if m.aborted then goto q m
        else walk S q 0 false (chains.filter fun c => chainPhase c = q) (goto q m)) t' := by
  have hlow := ha.low
  have hhigh := ha.high
  simp only [processPhase, ge_iff_le]
  by_cases hle : q ≤ t.phase
  · rw [if_pos hle, if_pos (by rw [← ha.phase]; exact hle)]
    exact ⟨t, [], rfl, ha⟩
  · rw [if_neg hle, if_neg (by rw [← ha.phase]; exact hle)]
    have hj := ha.goto q
    have hjp := goto_phase q t
    cases hab : m.aborted with
    | true =>
      refine ⟨_, [], ?_, hj⟩
      simp only [processPhase']
      rw [if_pos (show (t.jumpToPhase q).abort = true from hj.aborted.trans hab)]
    | false =>
      rw [if_neg (by simp)]
      simp only [processPhase']
      rw [if_neg (show ¬ (t.jumpToPhase q).abort = true by rw [show (t.jumpToPhase q).abort = false from hj.aborted.trans hab]; simp)]
      by_cases h7 : 7 < q
      · have hemp : (chains.filter fun c => chainPhase c = q) = [] := by
          rw [List.filter_eq_nil_iff]
          intro c hcm
          have := hc.five c hcm
          simp; omega
        rw [hemp]
        obtain ⟨x, y, z, e⟩ := next_shape (t.jumpToPhase q) (rs.phases (t.jumpToPhase q).phase).length
        rw [e]
        refine ⟨_, _, loop_out (by omega) (.inl ?_), hj.moved _ _⟩
        show (t.jumpToPhase q).phase ≠ q
        omega
      · have hq : (t.jumpToPhase q).phase = q := by omega
        rw [hq]
        have hpairs := hc.rules q (by omega)
        by_cases hemp : (chains.filter fun c => chainPhase c = q) = []
        · rw [hemp] at hpairs ⊢
          have hnil : rs.phases q = [] := by
            have := hpairs.length_eq
            exact List.length_eq_zero_iff.1 this.symm
          obtain ⟨x, y, z, e⟩ := next_shape (t.jumpToPhase q) (rs.phases q).length
          obtain ⟨n, rfl⟩ : ∃ k, n = k + 1 := ⟨n - 1, by omega⟩
          have e0 : (t.jumpToPhase q).next (rs.phases q).length = ({ t.jumpToPhase q with currentRule := 0, nextRule := -2 }, 0) := by
            rw [hnil]; rfl
          rw [e0]
          simp only [processLoop]
          rw [if_pos ⟨hq, by simp [statusEndOfRules]⟩]
          simp only [RuleSet.process, hnil, List.length_nil, Int.lt_irrefl, if_false, Res.bind_ok', gt_iff_lt, Int.cast_ofNat_Int]
          split
          · exact ⟨_, _, rfl, (hj.moved 0 (-2)).touch⟩
          · obtain ⟨x, y, z, e⟩ := next_shape ({ t.jumpToPhase q with currentRule := 0, nextRule := -2 } : Tx).touch
              (rs.phases ({ t.jumpToPhase q with currentRule := 0, nextRule := -2 } : Tx).touch.phase).length
            have e' : z = -2 := by
              have : (({ t.jumpToPhase q with currentRule := 0, nextRule := -2 } : Tx).touch.next
                (rs.phases ({ t.jumpToPhase q with currentRule := 0, nextRule := -2 } : Tx).touch.phase).length).2 = -2 := rfl
              rw [e] at this; exact this
            rw [e]
            simp only [loop_out (env := env) (rs := rs) (q := q) (n := n) (next := z)
              (t := { ({ t.jumpToPhase q with currentRule := 0, nextRule := -2 } : Tx).touch with currentRule := x, nextRule := y })
              (by omega) (.inr e'), Res.bind_ok']
            exact ⟨_, _, rfl, ((hj.moved 0 (-2)).touch).moved _ _⟩
        · obtain ⟨c0, hc0⟩ := List.exists_mem_of_ne_nil _ hemp
          obtain ⟨hc0, hq0⟩ := List.mem_filter.1 hc0
          have hq0 : chainPhase c0 = q := by simpa using hq0
          have h5 := hc.five c0 hc0
          have hlen := hpairs.length_eq
          have hpos : 0 < (chains.filter fun c => chainPhase c = q).length := List.length_pos_iff.2 hemp
          have hle' := List.length_filter_le (fun c => decide (chainPhase c = q)) chains
          have hs0 : slot (rs.phases q).length 0 = 0 := if_neg (by omega)
          obtain ⟨nr, e1, e2⟩ := next_slot (t := t.jumpToPhase q) (len := (rs.phases q).length) (j := 0) (by rw [hs0]; rfl)
          rw [e1]
          refine walk_loop hs hc.defaults (by omega) hph _ (Nat.le_refl _) (by simpa using hpairs) ?_ ?_ (hj.moved _ _) hab hq rfl e2 (by omega)
          · intro c hcm p hp v hv
            obtain ⟨hcm, hcq⟩ := List.mem_filter.1 hcm
            have hcq : chainPhase c = q := by simpa using hcq
            rw [← hcq]
            exact hcov c hcm (by omega) p hp v hv
          · intro c hcm p hp a ha h4
            obtain ⟨hcm, hcq⟩ := List.mem_filter.1 hcm
            have hcq : chainPhase c = q := by simpa using hcq
            exact hret c hcm (by omega) p hp a ha

end

/-! ### Calls -/

/-- The transaction when the call has handed over its arguments (bodies excepted). -/
def Tx.hear (t : Tx) : Op → Tx
  | .processConnection a b c d => { t with srcIp := a, srcPort := b, dstIp := c, dstPort := d }
  | .processRequestURL u m p => { t with url := u, method := m, reqProto := p }
  | .processRequestHeader h => { t with reqHeader := some (h.getD []) }
  | .processResponseHeaders c p h => { t with respCode := c, respProto := p, respHeader := some (h.getD []) }
  | _ => t

/-- What one call does to the view: what is known follows it, the transaction stays fine
and body chunks are taken without panic. -/
structure Follows {env : Env} (V : View env) (learn : V.K → Op → V.K) (h : List Op) (op : Op) : Prop where
  hear : (∀ p io, op ≠ .appendRequestBody p io) → (∀ p io, op ≠ .appendResponseBody p io) → ∀ t, V.fine h t →
    V.fine (h ++ [op]) (t.hear op) ∧ V.know (t.hear op) = learn (V.know t) op
  req : ∀ {p io}, op = .appendRequestBody p io → ∀ t, V.fine h t → ∃ b k e, t.reqBody.write p io = .ok (b, k, e) ∧
    V.fine (h ++ [op]) { t with reqBody := b } ∧ V.know { t with reqBody := b } = learn (V.know t) op
  resp : ∀ {p io}, op = .appendResponseBody p io → ∀ t, V.fine h t → ∃ b k e, t.respBody.write p io = .ok (b, k, e) ∧
    V.fine (h ++ [op]) { t with respBody := b } ∧ V.know { t with respBody := b } = learn (V.know t) op

section
variable {env : Env} {V : View env} {S : Sight V.K} {h : List Op} {m : Mach V.K} {t : Tx}

theorem Agree.heard {op : Op} (hf : Follows V S.learn h op) (h1 : ∀ p io, op ≠ .appendRequestBody p io)
    (h2 : ∀ p io, op ≠ .appendResponseBody p io) (ha : Agree V h m t) :
    Agree V (h ++ [op]) { m with known := S.learn m.known op } (t.hear op) := by
  obtain ⟨g1, g2⟩ := hf.hear h1 h2 t ha.fine
  rw [ha.know] at g2
  cases op <;> exact ⟨g2, g1, ha.phase, ha.verdict, ha.chosen, ha.aborted, ha.low, ha.high⟩

/-- A call that processes no phase. -/
theorem step_plain {rs : RuleSet} {chains : List (List PRule)} (hs : Sees V S) {op : Op} (hop : phaseOf op = none)
    (hf : Follows V S.learn h op) (ha : Agree V h m t) :
    ∃ t' o tr, (∀ n, t.step env rs n op = .ok (t', o, tr)) ∧ Agree V (h ++ [op]) (call S chains m op).1 t' ∧ shown [o] = (call S chains m op).2 := by
  by_cases e1 : ∃ p io, op = .appendRequestBody p io
  · obtain ⟨p, io, rfl⟩ := e1
    obtain ⟨b, k, e, g1, g2, g3⟩ := hf.req rfl t ha.fine
    rw [ha.know] at g3
    refine ⟨_, _, _, fun n => by simp only [Tx.step, g1, Res.bind_ok']; rfl, ⟨g3, g2, ha.phase, ha.verdict, ha.chosen, ha.aborted, ha.low, ha.high⟩, rfl⟩
  have h1 : ∀ p io, op ≠ .appendRequestBody p io := fun p io e => e1 ⟨p, io, e⟩
  by_cases e2 : ∃ p io, op = .appendResponseBody p io
  · obtain ⟨p, io, rfl⟩ := e2
    obtain ⟨b, k, e, g1, g2, g3⟩ := hf.resp rfl t ha.fine
    rw [ha.know] at g3
    refine ⟨_, _, _, fun n => by simp only [Tx.step, g1, Res.bind_ok']; rfl, ⟨g3, g2, ha.phase, ha.verdict, ha.chosen, ha.aborted, ha.low, ha.high⟩, rfl⟩
  have h2 : ∀ p io, op ≠ .appendResponseBody p io := fun p io e => e2 ⟨p, io, e⟩
  have hh := ha.heard hf h1 h2
  cases op
  case processConnection => cases hop
  case processRequestHeader => cases hop
  case processRequestBody => cases hop
  case processResponseHeaders => cases hop
  case processResponseBody => cases hop
  case processLogging => cases hop
  case processPhase => cases hop
  case appendRequestBody => exact absurd rfl (h1 _ _)
  case appendResponseBody => exact absurd rfl (h2 _ _)
  case processRequestURL => exact ⟨_, _, _, fun _ => rfl, hh, rfl⟩
  case intervention =>
    refine ⟨_, _, _, fun _ => rfl, hh.touch, ?_⟩
    show [t.intervention] = _
    rw [show t.intervention = m.verdict from ha.verdict]; rfl
  case result =>
    refine ⟨_, _, _, fun _ => rfl, ?_, ?_⟩
    · have htab : t.touch.abort = m.aborted := ha.aborted
      simp only [call, phaseOf]
      cases hab : m.aborted with
      | true =>
        rw [if_pos rfl, if_neg (by rw [htab, hab]; simp)]
        exact hh.congr rfl rfl hh.phase hh.touch.verdict hh.chosen (htab.trans hab) hh.low hh.high
      | false =>
        rw [if_neg (by simp), if_pos (by rw [htab, hab]; rfl)]
        exact hh.congr rfl rfl hh.phase rfl hh.chosen (htab.trans hab) hh.low hh.high
    · show [t.intervention] = _
      rw [show t.intervention = m.verdict from ha.verdict]; rfl
  case resetIntervention => exact ⟨_, _, _, fun _ => rfl, hh.congr rfl rfl hh.phase rfl hh.chosen hh.aborted hh.low hh.high, rfl⟩
  case abortWithStatus c =>
    refine ⟨_, _, _, fun _ => rfl, hh.congr rfl rfl hh.phase ?_ hh.chosen rfl hh.low hh.high, rfl⟩
    show ({ t.intervention with status := c, disruptive := true } : Intervention) = _
    rw [show t.intervention = m.verdict from ha.verdict]; rfl
  case abortWithError c e =>
    refine ⟨_, _, _, fun _ => rfl, ?_, rfl⟩
    refine Agree.say hs (t := { t with abort := true }.setIntervention { t.intervention with status := c, disruptive := true })
      (m := { m with known := S.learn m.known _, aborted := true, verdict := { m.verdict with status := c, disruptive := true } }) ?_ _
    refine hh.congr rfl rfl hh.phase ?_ hh.chosen rfl hh.low hh.high
    show ({ t.intervention with status := c, disruptive := true } : Intervention) = _
    rw [show t.intervention = m.verdict from ha.verdict]
  case logf => exact ⟨_, _, _, fun _ => rfl, hh.say hs _, rfl⟩
  case jumpToPhase => exact ⟨_, _, _, fun _ => rfl, hh.goto _, rfl⟩
  case nextPhase =>
    refine ⟨_, _, _, fun _ => rfl, ?_, rfl⟩
    have := hh.goto (t.phase + 1)
    rw [show t.phase = m.phase from ha.phase] at this
    simp only [Tx.nextPhase, ha.phase]
    exact this
  case jumpTo i =>
    refine ⟨_, _, _, fun _ => rfl, ?_, rfl⟩
    simp only [Tx.jumpTo]
    split <;> exact hh.congr rfl rfl hh.phase hh.verdict hh.chosen hh.aborted hh.low hh.high
  case next =>
    obtain ⟨x, y, z, e⟩ := next_shape t (rs.phases t.phase).length
    exact ⟨_, _, _, fun _ => by simp only [Tx.step, e]; rfl, hh.moved x y, rfl⟩

/-- A call that processes a phase. -/
theorem step_enters {rs : RuleSet} {op : Op} {q : Int} (hop : phaseOf op = some q) (n : Nat) (t : Tx) :
    t.step env rs n op = (processPhase env rs n q (t.hear op)).bind fun (t, tr) => .ok (t, .unit, tr) := by
  cases op <;> cases hop <;> rfl

theorem phaseOf_hear {op : Op} {q : Int} (hop : phaseOf op = some q) :
    (∀ p io, op ≠ .appendRequestBody p io) ∧ ∀ p io, op ≠ .appendResponseBody p io := by
  constructor <;> rintro p io rfl <;> cases hop

/-- One call. -/
theorem step_machine {rs : RuleSet} {chains : List (List PRule)} (hs : Sees V S) (hc : Carried env.lib chains rs) (hcov : Covered V chains)
    (hret : NoReturn chains) {n : Nat} (hn : chains.length + 2 ≤ n) {op : Op} (hf : Follows V S.learn h op) (ha : Agree V h m t) :
    ∃ t' o tr, t.step env rs n op = .ok (t', o, tr) ∧ Agree V (h ++ [op]) (call S chains m op).1 t' ∧ shown [o] = (call S chains m op).2 := by
  cases hq : phaseOf op with
  | none =>
    obtain ⟨t', o, tr, g1, g2⟩ := step_plain (rs := rs) (chains := chains) hs hq hf ha
    exact ⟨t', o, tr, g1 n, g2⟩
  | some q =>
    have hh := ha.heard hf (phaseOf_hear hq).1 (phaseOf_hear hq).2
    obtain ⟨t', tr, g1, g2⟩ := phase_machine hs hc hcov hret (q := q) ⟨op, by simp, hq⟩ hn hh
    refine ⟨t', .unit, tr, (step_enters hq n t).trans (Res.bind_eq_ok.2 ⟨_, g1, rfl⟩), ?_⟩
    show _ ∧ [] = _
    simp only [call, hq]
    split
    · rename_i hle
      rw [if_pos hle] at g2
      exact ⟨g2, rfl⟩
    · rename_i hle
      rw [if_neg hle] at g2
      split
      · rename_i hab
        rw [if_pos hab] at g2
        exact ⟨g2, rfl⟩
      · rename_i hab
        rw [if_neg hab] at g2
        exact ⟨g2, rfl⟩

/-- A history. -/
theorem steps_machine {rs : RuleSet} {chains : List (List PRule)} (hs : Sees V S) (hc : Carried env.lib chains rs) (hcov : Covered V chains)
    (hret : NoReturn chains) {n : Nat} (hn : chains.length + 2 ≤ n) : ∀ {ops h : List Op} {m : Mach V.K} {t : Tx},
    (∀ a op b, ops = a ++ op :: b → Follows V S.learn (h ++ a) op) → Agree V h m t →
    ∃ t' os tr, t.steps env rs n ops = .ok (t', os, tr) ∧ Agree V (h ++ ops) (run S chains m ops).1 t' ∧ shown os = (run S chains m ops).2 := by
  intro ops
  induction ops with
  | nil => intro h m t _ ha; exact ⟨t, [], [], rfl, by rw [List.append_nil]; exact ha, rfl⟩
  | cons op ops ih =>
    intro h m t hf ha
    have hf0 := hf [] op ops rfl
    rw [List.append_nil] at hf0
    obtain ⟨t1, o, tr1, g1, g2, g3⟩ := step_machine hs hc hcov hret hn hf0 ha
    obtain ⟨t2, os, tr2, k1, k2, k3⟩ := ih (h := h ++ [op]) (fun a o b e => by
      have := hf (op :: a) o b (by rw [e]; rfl)
      rwa [List.append_assoc]) g2
    refine ⟨t2, o :: os, tr1 ++ tr2, by simp only [Tx.steps, g1, Res.bind_ok', k1], ?_, ?_⟩
    · rw [List.append_assoc] at k2; exact k2
    · have e : shown (o :: os) = shown [o] ++ shown os := by
        rw [shown, shown, shown, ← List.filterMap_append]; rfl
      rw [e, g3, k3]; rfl

end

theorem chain_five {text : Bytes} {dirs : List PDir} (ht : Program text dirs) {c : List PRule} (hc : c ∈ chainsOf (rulesIn dirs)) :
    chainPhase c ≤ 5 := by
  cases c with
  | nil => simp [chainPhase]
  | cons p ps =>
    have := C55_legal_phase ((C53_exact id _ _).2 ht) (mem_rulesIn.1 (mem_chainsOf hc List.mem_cons_self))
    simp only [chainPhase, List.head?_cons, Option.map_some, Option.getD_some]
    omega

/-- Loaded directives carry their chains. -/
theorem means_carried {lib : Lib} {text : Bytes} {dirs : List PDir} {ds : List Dire} (ht : Program text dirs) (hds : Pairs (DirMeans lib) dirs ds) :
    Carried lib (chainsOf (rulesIn dirs)) (DireSet.execute (group ds) newEngine).ruleSet := by
  refine ⟨(C58_switches (group ds) newEngine).2.2, ?_, ?_⟩
  · have hphase : ∀ {c r}, ChainMeans lib c r → r.phase = chainPhase c := by
      rintro c r ⟨p, ps, r0, rs, rfl, h1, _, rfl⟩
      simpa [chainPhase] using h1.phase
    intro q hq
    have hgm := group_means _ (Nat.le_refl _) hds
    rw [C58_rules, newEngine_phases, List.nil_append]
    split
    · exact hgm.filter fun c r hcr => by rw [hphase hcr]
    · have : ((chainsOf (rulesIn dirs)).filter fun c => chainPhase c = q) = [] := by
        rw [List.filter_eq_nil_iff]
        intro c hcm
        have := chain_five ht hcm
        simp; omega
      rw [this]; exact .nil
  · exact fun c hcm => chain_five ht hcm

/-- A loaded text carries its chains. -/
theorem loaded_carried {lib : Lib} {vo : VarOrd} {text : Bytes} {dirs : List PDir} (ht : Program text dirs) (hok : ∀ d ∈ dirs, DirOk lib d) :
    ∃ ds, Pairs (DirMeans lib) dirs ds ∧ DireSet.addSecLangString lib vo [] text = .ok (group ds, none) ∧
      Carried lib (chainsOf (rulesIn dirs)) (DireSet.execute (group ds) newEngine).ruleSet := by
  obtain ⟨ds, hds, hload⟩ := C57_chains (vo := vo) ht hok []
  rw [List.nil_append] at hload
  exact ⟨ds, hds, hload, means_carried ht hds⟩

/-! ### What the host told -/

/-- The view of what the host has told; it covers all variables that read no body. -/
def toldView (env : Env) (l : Limits) : View env where
  K := Facts
  know := Tx.facts
  facts := id
  fine := fun _ t => Buf.Lim l.requestBodyInMem l.requestBody t.reqBody ∧ Buf.Lim l.responseBody l.responseBody t.respBody
  lists := fun k P vals tk => Lists env.lib k P vals tk
  covers := fun _ tk => readsBody tk = false
  know_core := fun {t u} h => by
    have : u.core.facts = t.core.facts := by rw [h]
    exact this
  facts_know := fun _ => rfl
  fine_core := fun {h t u} hc hf => by
    have e1 : u.core.reqBody = t.core.reqBody := by rw [hc]
    have e2 : u.core.respBody = t.core.respBody := by rw [hc]
    have e1 : u.reqBody = t.reqBody := e1
    have e2 : u.respBody = t.respBody := e2
    rw [e1, e2]; exact hf
  perm := fun h h' => h.perm h'
  fetch := fun {h p t tk f x P} hb _ hx hP hf => by
    obtain ⟨vals, h1, h2⟩ := fetch_lists hb hx hP t
    exact ⟨vals, t, h1, .refl _, hf, rfl, h2⟩

theorem hear_facts (t : Tx) (op : Op) : (t.hear op).facts = told t.facts op := by
  cases op
  case processRequestHeader hd => cases hd <;> rfl
  case processResponseHeaders c p hd => cases hd <;> rfl
  all_goals rfl

theorem hear_bodies (t : Tx) (op : Op) : (t.hear op).reqBody = t.reqBody ∧ (t.hear op).respBody = t.respBody ∧ (t.hear op).cache = t.cache := by
  cases op <;> exact ⟨rfl, rfl, rfl⟩

theorem Buf.Lim.write_ok {m f : Int} {b : Buf} (h : Buf.Lim m f b) (hm : 0 ≤ m) (p : Bytes) (io : IOFault) :
    ∃ b' k e, b.write p io = .ok (b', k, e) ∧ Buf.Lim m f b' := by
  have hp := h.write hm p io
  cases hw : b.write p io with
  | ok r => rw [hw] at hp; exact ⟨r.1, r.2.1, r.2.2, rfl, hp⟩
  | panic => rw [hw] at hp; exact absurd hp (by simp [Res.Post])
  | fuel =>
    exfalso
    simp only [Buf.write] at hw
    repeat (first | cases hw | split at hw)

theorem told_follows (env : Env) {l : Limits} (h1 : 0 ≤ l.requestBodyInMem) (h2 : 0 ≤ l.responseBody) (h : List Op) (op : Op) :
    Follows (toldView env l) told h op where
  hear := fun _ _ t hf => by
    obtain ⟨e1, e2, _⟩ := hear_bodies t op
    refine ⟨?_, hear_facts t op⟩
    show Buf.Lim _ _ (t.hear op).reqBody ∧ Buf.Lim _ _ (t.hear op).respBody
    rw [e1, e2]; exact hf
  req := fun {p io} e t hf => by
    subst e
    obtain ⟨b', k, e, g1, g2⟩ := hf.1.write_ok h1 p io
    exact ⟨b', k, e, g1, ⟨g2, hf.2⟩, rfl⟩
  resp := fun {p io} e t hf => by
    subst e
    obtain ⟨b', k, e, g1, g2⟩ := hf.2.write_ok h2 p io
    exact ⟨b', k, e, g1, ⟨hf.1, g2⟩, rfl⟩

/-- What the host has told, as seen by the machine. -/
def Spec.toldSight (lib : Lib) : Sight Facts where
  learn := told
  facts := id
  holds := Holds lib

/-- C87.  Load a text none of whose variables reads a body (and that has no
`allow:request` in a response phase).  Whatever calls the host makes, in whatever order,
the verdicts it is shown — status, whether disruptive, and log lines — are those of the
reference machine on the chains of the text.  The number of iterations of the phase loop
is bounded by the number of chains. -/
theorem C87_machine {lib : Lib} {vo : VarOrd} {ord : IterOrd} {text : Bytes} {dirs : List PDir} (ht : Program text dirs)
    (hok : ∀ d ∈ dirs, DirOk lib d) (hv : ∀ p ∈ rulesIn dirs, ∀ v ∈ p.vars, readsBody v.tk = false)
    (hret : NoReturn (chainsOf (rulesIn dirs))) :
    ∃ set, DireSet.addSecLangString lib vo [] text = .ok (set, none) ∧
      ∀ ops n, (chainsOf (rulesIn dirs)).length + 2 ≤ n → ∃ t' os tr,
        (set.execute newEngine).newTransaction.steps ((set.execute newEngine).env lib ord) (set.execute newEngine).ruleSet n ops = .ok (t', os, tr) ∧
        shown os = (run (toldSight lib) (chainsOf (rulesIn dirs)) { known := {} } ops).2 := by
  obtain ⟨ds, hds, hload, hcar⟩ := loaded_carried (vo := vo) ht hok
  refine ⟨group ds, hload, fun ops n hn => ?_⟩
  have hlim : 0 ≤ (DireSet.execute (group ds) newEngine).limits.requestBodyInMem ∧ 0 ≤ (DireSet.execute (group ds) newEngine).limits.responseBody := by
    rw [(C58_switches (group ds) newEngine).2.1]
    simp [newEngine, newDefaultLimits]
  obtain ⟨t', os, tr, g1, _, g3⟩ := steps_machine (env := (DireSet.execute (group ds) newEngine).env lib ord)
    (V := toldView _ (DireSet.execute (group ds) newEngine).limits) (S := toldSight lib) (h := []) (m := { known := {} })
    (t := (DireSet.execute (group ds) newEngine).newTransaction) (n := n) (ops := ops)
    ⟨rfl, fun k p => .rfl⟩ hcar (fun c hcm _ p hp => hv p (mem_chainsOf hcm hp)) hret hn
    (fun a op b _ => told_follows _ hlim.1 hlim.2 _ _) {
      know := rfl, fine := ⟨Buf.Lim.new _ _, Buf.Lim.new _ _⟩, phase := rfl, verdict := rfl, chosen := rfl, aborted := rfl
      low := Int.le_refl 0
      high := by show (0 : Int) ≤ 7; omega }
  exact ⟨t', os, tr, g1, g3⟩

/-! ### An example -/

/-- A rule on the method. -/
def methodIs (id : Int) (not : Bool) (meth : Bytes) (as : List PAct) : PRule where
  vars := [{ tk := .requestMethod }]
  op := { tk := .rx, arg := meth, not := not }
  acts := { id := id, phase := 2, action := as }

/-- POST is denied with status 429, PUT skips the last rule, which denies all but GET. -/
def flowText : Bytes := b!"SecRule REQUEST_METHOD \"@rx POST\" \"id:1,phase:2,deny,log,status:429\"\nSecRule REQUEST_METHOD \"@rx PUT\" \"id:2,phase:2,skip:1\"\nSecRule REQUEST_METHOD \"!@rx GET\" \"id:3,phase:2,deny\"\n"

def flowRules : List PRule := [methodIs 1 false b!"POST" [⟨.deny, []⟩, ⟨.log, []⟩, ⟨.status, b!"429"⟩],
  methodIs 2 false b!"PUT" [⟨.skip, b!"1"⟩], methodIs 3 true b!"GET" [⟨.deny, []⟩]]

theorem flowText_program : Program flowText (flowRules.map .rule) := (C53_exact id _ _).1 (by decide +kernel)

theorem methodIs_ok {id : Int} {not : Bool} {meth : Bytes} {as : List PAct} (h : ∀ a ∈ as, ActOk a) : DirOk lib (.rule (methodIs id not meth as)) where
  vars := by
    intro v hv
    rw [List.mem_singleton.1 hv]
    refine ⟨by simp, fun h => by cases h⟩
  op := ⟨_, .rx rfl rfl⟩
  acts := h

theorem methodIs_holds {id : Int} {not : Bool} {meth : Bytes} {as : List PAct} {k : Facts} :
    Holds lib k (methodIs id not meth as) ↔ (k.method == meth) ≠ not := by
  have key : ∀ y, Accepts lib { tk := .rx, arg := meth, not := not } y ↔ (y == meth) = true := by
    intro y
    constructor
    · rintro (⟨_, f, hf, h⟩ | ⟨k, n, hk, _⟩)
      · cases hf; exact h
      · cases hk
    · intro h; exact .inl ⟨rfl, _, rfl, h⟩
  constructor
  · rintro ⟨v, hv, y, ⟨vals, h1, h2⟩, h3⟩
    rw [List.mem_singleton.1 hv] at h1 h2
    have h1 : some [k.method] = some vals := h1
    cases h1
    have h2 : y ∈ [k.method] := h2
    rw [List.mem_singleton.1 h2] at h3
    have h3 : Accepts lib { tk := .rx, arg := meth, not := not } k.method ↔ not = false := h3
    rw [key] at h3
    revert h3
    cases (k.method == meth) <;> cases not <;> simp
  · intro h
    refine ⟨_, .head _, k.method, ⟨[k.method], rfl, .head _⟩, ?_⟩
    show Accepts lib { tk := .rx, arg := meth, not := not } k.method ↔ not = false
    rw [key]
    revert h
    cases (k.method == meth) <;> cases not <;> simp

/-- The verdict for a request with method `m`. -/
def flowVerdict (m : Bytes) : Intervention :=
  if m = b!"POST" then {
    status := 429, disruptive := true
    log := [b!"[client 1.2.3.4:5] (phase 2) ModSecurity: running action in phase 2 rule 0", b!"[client 1.2.3.4:5] (phase 2) ModSecurity: Access denied with code 403"] }
  else if m = b!"PUT" ∨ m = b!"GET" then { status := 200 }
  else { status := 403, disruptive := true, log := [b!"[client 1.2.3.4:5] (phase 2) ModSecurity: Access denied with code 403"] }

def flowOps (m : Bytes) : List Op :=
  [.processConnection b!"1.2.3.4" b!"5" [] [], .processRequestURL none m [], .processRequestHeader none, .result, .processRequestHeader none, .result]

theorem flow_walk {m : Bytes} {k : Facts} (h1 : k.srcIp = b!"1.2.3.4") (h2 : k.srcPort = b!"5") (h3 : k.method = m) :
    ∃ r c, walk (toldSight lib) 2 0 false (flowRules.map fun p => [p]) { known := k, phase := 2 } =
      { known := k, phase := 2, rule := r, verdict := flowVerdict m, chosen := c } := by
  have e429 : numberIn b!"429" = some 429 := numberIn_eq (u := b!"429") ((trimQuote_iff _ _).1 (by decide)) ((parseInt_iff _ _).1 (by decide))
  have hold : ∀ (k : Facts) id not meth as, (toldSight lib).holds k (methodIs id not meth as) ↔ (k.method == meth) ≠ not := fun _ _ _ _ _ => methodIs_holds
  have o1 : inOrder [⟨.deny, []⟩, ⟨.log, []⟩, ⟨.status, b!"429"⟩] = [⟨.status, b!"429"⟩, ⟨.log, []⟩, ⟨.deny, []⟩] := rfl
  have o2 : inOrder [⟨.skip, b!"1"⟩] = [⟨.skip, b!"1"⟩] := rfl
  have o3 : inOrder [⟨.deny, []⟩] = [⟨.deny, []⟩] := rfl
  have s1 : ∀ k, (toldSight lib).facts k = k := fun _ => rfl
  have i2 : itoa 2 = b!"2" := by decide +kernel
  have i0 : itoa 0 = b!"0" := by decide +kernel
  by_cases hp : m = b!"POST"
  · subst hp
    refine ⟨0, some 429, ?_⟩
    simp only [flowRules, List.map_cons, walk, List.mem_singleton, forall_eq, hold, h3]
    simp [fire, methodIs, o1, act, e429, say, denialStatus, s1, h1, h2, flowVerdict, i2, i0]
  · by_cases hp' : m = b!"PUT"
    · subst hp'
      refine ⟨1, none, ?_⟩
      simp only [flowRules, List.map_cons, walk, List.mem_singleton, forall_eq, hold, h3]
      simp [fire, methodIs, o2, act, flowVerdict, skips, walk]
    · by_cases hg : m = b!"GET"
      · subst hg
        refine ⟨2, none, ?_⟩
        simp only [flowRules, List.map_cons, walk, List.mem_singleton, forall_eq, hold, h3]
        simp [flowVerdict, walk]
      · refine ⟨2, none, ?_⟩
        simp only [flowRules, List.map_cons, walk, List.mem_singleton, forall_eq, hold, h3]
        simp [hp, hp', hg, fire, methodIs, o3, act, say, denialStatus, s1, h1, h2, flowVerdict, i2]

/-- The verdict is shown once; reading it clears it, and a phase is not processed twice. -/
example (m : Bytes) : ∃ set, DireSet.addSecLangString lib varOrd [] flowText = .ok (set, none) ∧
    ∃ t' os tr, (set.execute newEngine).newTransaction.steps ((set.execute newEngine).env lib Sample.ord) (set.execute newEngine).ruleSet 5
      (flowOps m) = .ok (t', os, tr) ∧ shown os = [flowVerdict m, { status := 200 }] := by
  obtain ⟨set, h1, h2⟩ := C87_machine (lib := lib) (vo := varOrd) (ord := Sample.ord) flowText_program
    (by
      intro d hd
      simp only [flowRules, List.map_cons, List.map_nil, List.mem_cons, List.not_mem_nil, or_false] at hd
      rcases hd with rfl | rfl | rfl <;> refine methodIs_ok fun a ha => .inl ?_ <;>
        simp only [List.mem_cons, List.not_mem_nil, or_false] at ha
      · rcases ha with rfl | rfl | rfl
        · exact ⟨_, .deny⟩
        · exact ⟨_, .log⟩
        · exact ⟨_, .status (u := b!"429") (n := 429) ((trimQuote_iff _ _).1 (by decide)) ((parseInt_iff _ _).1 (by decide))⟩
      · rw [ha]; exact ⟨_, .skip⟩
      · rw [ha]; exact ⟨_, .deny⟩)
    (by
      intro p hp v hv
      have hp : p ∈ flowRules := hp
      simp only [flowRules, List.mem_cons, List.not_mem_nil, or_false] at hp
      rcases hp with rfl | rfl | rfl <;> rw [List.mem_singleton.1 hv] <;> rfl)
    (by
      intro c hc h4
      have hc : c ∈ flowRules.map fun p => [p] := hc
      simp only [flowRules, List.map_cons, List.map_nil, List.mem_cons, List.not_mem_nil, or_false] at hc
      rcases hc with rfl | rfl | rfl <;> exact absurd h4 (by decide))
  obtain ⟨t', os, tr, g1, g2⟩ := h2 (flowOps m) 5 (by decide)
  refine ⟨set, h1, t', os, tr, g1, g2.trans ?_⟩
  obtain ⟨r, c, hw⟩ := flow_walk (k := { srcIp := b!"1.2.3.4", srcPort := b!"5", method := m, headers := some [] }) rfl rfl rfl
  have f1 : ((flowRules.map fun p => [p]).filter fun c => decide (chainPhase c = 1)) = [] := rfl
  have f2 : ((flowRules.map fun p => [p]).filter fun c => decide (chainPhase c = 2)) = flowRules.map fun p => [p] := rfl
  have c1 : call (toldSight lib) (flowRules.map fun p => [p]) { known := {} } (.processConnection b!"1.2.3.4" b!"5" [] []) =
      ({ known := { srcIp := b!"1.2.3.4", srcPort := b!"5" }, phase := 1 }, []) := by
    simp only [call, phaseOf, f1, walk]; rfl
  have c3 : call (toldSight lib) (flowRules.map fun p => [p]) { known := { srcIp := b!"1.2.3.4", srcPort := b!"5", method := m }, phase := 1 }
      (.processRequestHeader none) = ({ known := { srcIp := b!"1.2.3.4", srcPort := b!"5", method := m, headers := some [] }, phase := 2, rule := r, verdict := flowVerdict m, chosen := c }, []) := by
    rw [← hw]
    simp only [call, phaseOf, f2]; rfl
  show (Spec.run (toldSight lib) (flowRules.map fun p => [p]) { known := {} } (flowOps m)).2 = _
  simp only [flowOps, Spec.run, c1]
  rw [show call (toldSight lib) (flowRules.map fun p => [p]) { known := { srcIp := b!"1.2.3.4", srcPort := b!"5" }, phase := 1 } (.processRequestURL none m []) =
    ({ known := { srcIp := b!"1.2.3.4", srcPort := b!"5", method := m }, phase := 1 }, []) from rfl]
  simp only [c3]
  rfl

end Verif
