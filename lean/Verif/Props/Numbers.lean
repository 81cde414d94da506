import Verif.Proofs.Machine
import Verif.Props.Logs
/-! C131: the computations of the package do not leave 64 bits. -/
namespace Verif
open Sample Spec

/-- C131.  On 64-bit numbers every history of calls ends exactly as it does on unbounded integers, if
less than 2^63 bytes are appended in all: same results, same verdicts, same bodies.  The host may
pass any number that fits, and have actions of its own that keep away from the bodies. -/
theorem C131_no_overflow (env : Env) {rs : RuleSet} (hr : RulesFit rs) {l : Limits} (hl : LimitsFit l) (fuel : Nat) {ops : List Op} (ha : ∀ op ∈ ops, ArgsFit op)
    (hb : totalBytes ops < 2 ^ 63) : Tx.stepsW wrap64 env rs fuel (newTransaction l) ops = Tx.steps env rs fuel (newTransaction l) ops :=
  (Tx.stepsW_agrees hr env fuel (newTransaction_fits hl) ha (by omega)).1

/-- What the numbers of a transaction are after such a history: the phase is one of 0 to 7, and no body is longer
than what was appended. -/
theorem C131_numbers {env : Env} {rs : RuleSet} (hr : RulesFit rs) {l : Limits} (hl : LimitsFit l) {fuel : Nat} {ops : List Op} (ha : ∀ op ∈ ops, ArgsFit op)
    (hb : totalBytes ops < 2 ^ 63) {t : Tx} {os : List Out} {tr : Trace} (h : Tx.steps env rs fuel (newTransaction l) ops = .ok (t, os, tr)) :
    0 ≤ t.phase ∧ t.phase ≤ 7 ∧ Int64Range t.currentRule ∧ Int64Range t.nextRule ∧ t.reqBody.length ≤ totalBytes ops ∧ t.respBody.length ≤ totalBytes ops := by
  have hf := (Tx.stepsW_agrees hr env fuel (newTransaction_fits hl) ha (by omega)).2 _ h
  have h1 := hf.req.length
  have h2 := hf.resp.length
  rw [Nat.zero_add] at h1 h2
  exact ⟨hf.phase.1, hf.phase.2, hf.currentRule.1, hf.nextRule.1, h1, h2⟩

/-! ### Rules from a text -/

theorem takeChain_parts : ∀ ds : List Dire, (takeChain ds).2.1.length + (takeChain ds).2.2.length ≤ ds.length
  | [] => Nat.le_refl _
  | .rule r false :: ds => by simp only [takeChain, List.length_cons, List.length_nil]; omega
  | .rule r true :: ds | .reqBody _ :: ds | .resBody _ :: ds | .ruleEng _ :: ds => by
    have := takeChain_parts ds
    rcases h : takeChain ds with ⟨x, y, z⟩
    rw [h] at this
    simp only [takeChain, h, List.length_cons] at this ⊢
    omega

theorem group_length (ds : List Dire) : (group ds).length ≤ ds.length := by
  fun_induction group ds with
  | case1 => exact Nat.le_refl _
  | case2 r ds ih =>
    have := takeChain_parts ds
    simp only [List.length_cons, List.length_append]
    omega
  | case3 d ds h ih => simp only [List.length_cons]; omega

theorem program_length {text : Bytes} {dirs : List PDir} (h : Program text dirs) : dirs.length ≤ text.length := by
  induction h with
  | done => exact Nat.zero_le _
  | dir hf hd hp ih =>
    have := (directive_shorter hd).2
    simp only [List.length_cons, List.length_append]
    omega

theorem loaded_fit {lib : Lib} {vo : VarOrd} {text : Bytes} {set : DireSet} (hl : DireSet.addSecLangString lib vo [] text = .ok (set, none))
    (hs : text.length < 2 ^ 63 - 1) : RulesFit (set.execute newEngine).ruleSet := by
  have ho := loaded_ofLibrary hl
  have no : ∀ a : Action, a.Library → ∀ g f, a = .custom g f → Proper f := by
    rintro a ha g f rfl
    exact ha.elim
  obtain ⟨dirs, ds, hp, hd, rfl⟩ := loaded_set hl
  refine ⟨fun p => ?_, fun a ha => no a (ho.defaults a ha).1, fun p r hr a ha => no a (ho.acts p r hr a (List.mem_append_left _ ha)),
    fun p r hr s hs a ha => no a (ho.acts p r hr a (List.mem_append_right _ (List.mem_flatMap.2 ⟨s, hs, ha⟩)))⟩
  rw [C58_rules, newEngine_phases, List.nil_append]
  have h1 := program_length hp
  have h2 := pairs_length hd
  have h3 := group_length ds
  have h4 : (rulesOf (group ds)).length ≤ (group ds).length := List.length_filterMap_le ..
  split
  · have h5 := List.length_filter_le (fun r : Rule => decide (r.phase = p)) (rulesOf (group ds))
    omega
  · simp only [List.length_nil]; omega

/-- C131 for rules from a text: nothing is asked of the rules. -/
theorem C131_loaded {lib : Lib} {vo : VarOrd} {text : Bytes} {set : DireSet} (hload : DireSet.addSecLangString lib vo [] text = .ok (set, none))
    (hs : text.length < 2 ^ 63 - 1) (env : Env) {l : Limits} (hl : LimitsFit l) (fuel : Nat) {ops : List Op} (ha : ∀ op ∈ ops, ArgsFit op)
    (hb : totalBytes ops < 2 ^ 63) :
    Tx.stepsW wrap64 env (set.execute newEngine).ruleSet fuel (newTransaction l) ops = Tx.steps env (set.execute newEngine).ruleSet fuel (newTransaction l) ops :=
  C131_no_overflow env (loaded_fit hload hs) hl fuel ha hb

/-! ### How far this goes -/

/-- After 2^63 - 1 bytes the check of the limit fails: one byte more is taken although the limit is reached, and the body
forgets its length. -/
theorem C131_edge : ∃ b : Buf, b.length = 2 ^ 63 - 1 ∧ LimitsFit { requestBodyAccess := true, responseBodyAccess := true, requestBody := b.fileLimit, requestBodyInMem := b.memLimit, responseBody := 0 } ∧
    b.write [0] {} = .ok (b, 0, some .outOfFileLimit) ∧
    ∃ b', b.writeW wrap64 [0] {} = .ok (b', 1, none) ∧ b'.length = 0 :=
  ⟨{ length := 2 ^ 63 - 1, memLimit := 2 ^ 63 - 1, fileLimit := 2 ^ 63 - 1 }, rfl, ⟨by unfold Int64Range; decide, by unfold Int64Range; decide, by unfold Int64Range; decide⟩, by decide,
    _, rfl, by decide⟩

/-! ### Examples -/

/-- A rule that skips another, one that ends its phase, and an action of the host. -/
def Sample.jumping : RuleSet where
  phases p := if p = 1 then [always [.skip], always [.deny], always [.allow b!"phase"], always [.deny]]
    else if p = 2 then [always [.custom 2 fun t => { t with srcPort := b!"1" }, .log]] else []

theorem Sample.jumping_fit : RulesFit jumping := by
  have proper : Proper fun t => { t with srcPort := b!"1" } :=
    ⟨fun _ => rfl, fun _ => rfl, fun _ h => h, fun _ h1 h2 => ⟨h1, h2⟩, fun _ h1 h2 => ⟨h1, h2⟩⟩
  refine ⟨fun p => ?_, by simp [jumping], fun p r hr a ha g f he => ?_, fun p r hr s hs => ?_⟩
  · simp only [jumping]
    split
    · decide
    · split <;> decide
  · subst he
    simp only [jumping] at hr
    split at hr
    · simp [always] at hr
      rcases hr with rfl | rfl | rfl | rfl <;> simp at ha
    · split at hr
      · simp [always] at hr
        subst hr
        simp at ha
        obtain ⟨rfl, rfl⟩ := ha
        exact proper
      · cases hr
  · have : r.subRules = [] := by
      simp only [jumping] at hr
      split at hr
      · simp [always] at hr
        rcases hr with rfl | rfl | rfl | rfl <;> rfl
      · split at hr
        · simp [always] at hr
          subst hr; rfl
        · cases hr
    rw [this] at hs
    cases hs

/-- The largest numbers there are, bodies that reach a file, and jumps about the rules. -/
def Sample.wild : List Op :=
  [.processConnection b!"1.2.3.4" b!"5" b!"6.7.8.9" b!"80", .appendRequestBody b!"0123456789" {}, .appendRequestBody b!"0123456789" {}, .processRequestHeader none,
   .abortWithStatus (2 ^ 63 - 1), .jumpTo (-2 ^ 63), .next, .next, .nextPhase, .processPhase (2 ^ 63 - 1), .nextPhase]

example : Tx.stepsW wrap64 env jumping 20 (newTransaction limits) wild = Tx.steps env jumping 20 (newTransaction limits) wild :=
  C131_no_overflow env jumping_fit ⟨by unfold Int64Range; decide, by unfold Int64Range; decide, by unfold Int64Range; decide⟩ 20
    (by intro op h; simp only [wild, List.mem_cons, List.not_mem_nil, or_false] at h; rcases h with rfl | rfl | rfl | rfl | rfl | rfl | rfl | rfl | rfl | rfl | rfl <;> simp only [ArgsFit] <;> unfold Int64Range <;> decide)
    (by decide)

/-- What comes of it: the second piece of the body is refused, phase 1 ends at its third rule, and nothing wraps around. -/
example : (outsOf (Tx.stepsW wrap64 env jumping 20 (newTransaction limits) wild)) =
      some [.unit, .error none, .error (some .outOfFileLimit), .unit, .unit, .num (-2 ^ 63), .num (-2 ^ 63), .num (-2 ^ 63 + 1), .num 3, .unit, .num 7] := by decide +kernel

end Verif
