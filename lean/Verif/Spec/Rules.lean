import Verif.Model.Engine
/-!
Vocabulary for stating properties of rules, phases and transactions.
-/
namespace Verif

/-- All actions a rule can execute itself. -/
def Rule.allActions (r : Rule) : List Action := r.actions ++ r.subRules.flatMap Rule.actions

/-- A host-written action that leaves the rule cursor alone. -/
def CursorNeutral (f : Tx → Tx) : Prop :=
  ∀ t, (f t).phase = t.phase ∧ (f t).currentRule = t.currentRule ∧ (f t).nextRule = t.nextRule

/-- In phase `p` the action cannot jump to phase `p` or before. -/
def Action.ForwardAt (p : Int) : Action → Prop
  | .allow arg => (arg = [] → p < 6) ∧ (arg = b!"phase" → p < 7) ∧ (arg = b!"request" → p < 4)
  | .custom _ f => CursorNeutral f
  | _ => True

/-- No rule (nor default action) can jump back to its own phase or before. -/
def RuleSet.Forward (rs : RuleSet) : Prop :=
  ∀ p, ∀ r ∈ rs.phases p, ∀ a ∈ r.allActions ++ rs.defaultActions, a.ForwardAt p

/-- The action is `skip`. -/
def Action.isSkip : Action → Bool
  | .skip => true
  | _ => false

/-- The action is `block`. -/
def Action.isBlock : Action → Bool
  | .block => true
  | _ => false

/-- A rule whose action list, if executed, executes `skip` (itself, in a chained
rule, or through `block` and the default actions). -/
def Rule.skips (rs : RuleSet) (r : Rule) : Bool :=
  r.allActions.any Action.isSkip || (r.allActions.any Action.isBlock && rs.defaultActions.any Action.isSkip)

/-- All conditions of the rule (its own and those of the chained rules) hold. -/
def Rule.Fires (env : Env) (r : Rule) (t : Tx) : Prop :=
  ∃ t1 t2, r.matches env t = .ok (true, t1) ∧ matchSubs env r.subRules t1 = .ok (true, t2)

/-- The rule executed a `skip`. -/
def Rule.SkipsAt (env : Env) (rs : RuleSet) (r : Rule) (t : Tx) : Prop := r.Fires env t ∧ r.skips rs = true

/-- A transaction without its rule cursor (the phase and rule being processed),
and with the lazily allocated intervention forced. -/
def Tx.sansCursor (t : Tx) : Tx :=
  { t with phase := 0, currentRule := 0, nextRule := 0, interv := some t.intervention }

/-- A log line of the transaction's client and phase. -/
def Tx.logLine (t : Tx) (msg : Bytes) : Bytes :=
  b!"[client " ++ t.srcIp ++ b!":" ++ t.srcPort ++ b!"] (phase " ++ itoa t.phase ++ b!") " ++ msg

/-- `u` is `t` positioned at rule `i` of phase `p`. -/
def At (p : Int) (i : Nat) (t u : Tx) : Prop :=
  u.phase = p ∧ u.currentRule = i ∧ u.sansCursor = t.sansCursor

/-- One evaluation of a rule: its position, the rule, the transaction before and
after. -/
structure Ev where
  pos : Nat
  rule : Rule
  before : Tx
  after : Tx

/-- `e` evaluates the rule at position `e.pos` of phase `p` on transaction `t`. -/
structure Ev.Valid (env : Env) (rs : RuleSet) (p : Int) (t : Tx) (e : Ev) : Prop where
  rule : (rs.phases p)[e.pos]? = some e.rule
  at_ : At p e.pos t e.before
  run : ∃ n, e.rule.run env rs n e.before = .ok e.after

/-- Reference semantics of processing a phase from rule `i` on: run the rules in
registration order, stop after a disruptive verdict or when a rule leaves the
phase, leave out one rule after an executed `skip`. -/
inductive PhaseRun (env : Env) (rs : RuleSet) (p : Int) : Nat → Tx → List Ev → Tx → Prop where
  | done {i t} : (rs.phases p).length ≤ i → PhaseRun env rs p i t [] t
  | stop {t e} : e.Valid env rs p t → e.after.intervention.disruptive = true → PhaseRun env rs p e.pos t [e] e.after
  | leave {t e} : e.Valid env rs p t → e.after.intervention.disruptive = false → e.after.phase ≠ p →
      PhaseRun env rs p e.pos t [e] e.after
  | next {t e es t'} : e.Valid env rs p t → e.after.intervention.disruptive = false → e.after.phase = p →
      ¬ e.rule.SkipsAt env rs e.before →
      PhaseRun env rs p (e.pos + 1) e.after es t' → PhaseRun env rs p e.pos t (e :: es) t'
  | skip {t e es t'} : e.Valid env rs p t → e.after.intervention.disruptive = false → e.after.phase = p →
      e.rule.SkipsAt env rs e.before →
      PhaseRun env rs p (e.pos + 2) e.after es t' → PhaseRun env rs p e.pos t (e :: es) t'

/-- A sequence of rule evaluations, each on the outcome of the one before. -/
inductive Evaluated (env : Env) (rs : RuleSet) (p : Int) : Tx → List Ev → Tx → Prop where
  | nil {t} : Evaluated env rs p t [] t
  | cons {t e es t'} : e.Valid env rs p t → Evaluated env rs p e.after es t' → Evaluated env rs p t (e :: es) t'

/-- The ghost trace of a list of evaluations. -/
def evTrace (p : Int) (es : List Ev) : Trace := es.map fun e => (p, (e.pos : Int))

/-- The list visits the positions `i, i+1, ...` below `len` in order, leaving out
a position only after one that `skips`; if `complete`, it goes on to the end. -/
def Walk (skips : Nat → Prop) (complete : Prop) (len : Nat) : Nat → List Nat → Prop
  | i, [] => complete → len ≤ i
  | i, j :: js => j = i ∧ i < len ∧ (Walk skips complete len (i + 1) js ∨ (skips i ∧ Walk skips complete len (i + 2) js))

/-- Calls other than the ones that move the rule cursor by hand. -/
def Op.keepsCursor : Op → Bool
  | .jumpToPhase _ | .nextPhase | .jumpTo _ | .next => false
  | _ => true

/-- Calls that read or reset the intervention. -/
def Op.readsVerdict : Op → Bool
  | .result | .resetIntervention => true
  | _ => false

/-- Calls that abort. -/
def Op.aborts : Op → Bool
  | .abortWithStatus _ | .abortWithError _ _ => true
  | _ => false

end Verif
