import Verif.Spec.Machine
import Verif.Proofs.Flow
/-! The computations of the program stay within 64 bits. -/
namespace Verif
open Spec

theorem wrap64_eq {n : Int} (h : Int64Range n) : wrap64 n = n := by
  obtain ⟨h1, h2⟩ := h
  simp only [wrap64]
  omega

/-- Two computations with the same result, about which something can be said. -/
def Agrees {α : Type} (P : α → Prop) (x y : Res α) : Prop := x = y ∧ ∀ a, y = .ok a → P a

theorem Agrees.bind {α β : Type} {P : α → Prop} {Q : β → Prop} {x y : Res α} {f g : α → Res β} (h : Agrees P x y)
    (hf : ∀ a, P a → Agrees Q (f a) (g a)) : Agrees Q (x.bind f) (y.bind g) := by
  obtain ⟨rfl, h⟩ := h
  cases x with
  | ok a => exact hf a (h a rfl)
  | panic => exact ⟨rfl, fun a h => by cases h⟩
  | fuel => exact ⟨rfl, fun a h => by cases h⟩

theorem Agrees.ok {α : Type} {P : α → Prop} {a : α} (h : P a) : Agrees P (.ok a) (.ok a) := ⟨rfl, fun _ e => by cases e; exact h⟩
theorem Agrees.panic {α : Type} {P : α → Prop} : Agrees P (.panic : Res α) .panic := ⟨rfl, fun _ e => by cases e⟩
theorem Agrees.fuel {α : Type} {P : α → Prop} : Agrees P (.fuel : Res α) .fuel := ⟨rfl, fun _ e => by cases e⟩
theorem Agrees.self {α : Type} {P : α → Prop} {x : Res α} (h : ∀ a, x = .ok a → P a) : Agrees P x x := ⟨rfl, h⟩

/-! ### Bodies -/

/-- A body of at most `n` bytes. -/
structure BufFits (n : Nat) (b : Buf) : Prop where
  length : b.length ≤ n
  mem : Int64Range b.memLimit
  inMem : b.fileBuf = none → b.length = 0 ∨ (b.length : Int) ≤ b.memLimit

theorem BufFits.mono {n m : Nat} {b : Buf} (h : BufFits n b) (hn : n ≤ m) : BufFits m b := ⟨Nat.le_trans h.length hn, h.mem, h.inMem⟩

theorem BufFits.same {n : Nat} {b b' : Buf} (h : BufFits n b) (hs : b.SameBody b') : BufFits n b' where
  length := by rw [hs.length]; exact h.length
  mem := by rw [hs.memLimit]; exact h.mem
  inMem := fun hn => by
    rw [hs.length, hs.memLimit]
    refine h.inMem ?_
    have := hs.spilled
    rw [hn] at this
    cases hf : b.fileBuf with
    | none => rfl
    | some f => rw [hf] at this; cases this

theorem File.write_le (f : File) (p : Bytes) (fail : Option Nat) : (f.write p fail).2.1 ≤ p.length := by
  simp only [File.write]
  split
  · exact Nat.zero_le _
  · split
    · exact Nat.le_refl _
    · simp only [List.length_take]; omega

theorem Buf.writeW_agrees {n : Nat} {b : Buf} (h : BufFits n b) (p : Bytes) (io : IOFault) (hn : n + p.length < 2 ^ 63) :
    Agrees (fun r => BufFits (n + p.length) r.1) (b.writeW wrap64 p io) (b.write p io) := by
  have hlen := h.length
  have hm := h.mem
  have hin := h.inMem
  obtain ⟨hm1, hm2⟩ := hm
  have w1 : wrap64 ((b.length : Int) + p.length) = (b.length : Int) + p.length := wrap64_eq ⟨by omega, by omega⟩
  have w2 : ∀ k : Nat, k ≤ p.length → (wrap64 ((b.length : Int) + k)).toNat = b.length + k := by
    intro k hk
    rw [wrap64_eq ⟨by omega, by omega⟩]
    omega
  have hbig := h.mono (m := n + p.length) (by omega)
  simp only [Buf.writeW, Buf.write, w1]
  split
  · exact .ok hbig
  split
  · exact .ok hbig
  cases hf : b.fileBuf with
  | none =>
    have hin := hin hf
    simp only
    split
    · rename_i h1 h2 h3
      have w3 : wrap64 (b.memLimit - b.length) = b.memLimit - b.length := wrap64_eq ⟨by omega, by omega⟩
      rw [w3]
      by_cases hneg : b.memLimit - (b.length : Int) < 0
      · rw [if_pos (.inl hneg), if_pos hneg]; exact .panic
      · rw [if_neg (by omega), if_neg hneg]
        split
        · refine .ok ?_
          exact ⟨hbig.length, hbig.mem, fun _ => hin⟩
        · cases hw : (File.write { content := [], pos := 0 } (b.memBuf ++ List.take (b.memLimit - ↑b.length).toNat p) io.copyFail).2.2 with
          | some e =>
            refine .ok ?_
            exact ⟨hbig.length, hbig.mem, fun h => by cases h⟩
          | none =>
            have := File.write_le (File.write { content := [], pos := 0 } (b.memBuf ++ List.take (b.memLimit - ↑b.length).toNat p) io.copyFail).1 p io.writeFail
            rw [w2 _ this]
            refine .ok ?_
            exact ⟨by simp only; omega, hbig.mem, fun h => by cases h⟩
    · rename_i h1 h2 h3
      have e : ((b.length : Int) + p.length).toNat = b.length + p.length := by omega
      rw [e]
      refine .ok ?_
      exact ⟨by simp only; omega, hbig.mem, fun _ => .inr (by simp only; omega)⟩
  | some f =>
    have := File.write_le f p io.writeFail
    simp only
    rw [w2 _ this]
    refine .ok ?_
    exact ⟨by simp only; omega, hbig.mem, fun h => by cases h⟩

/-! ### Transactions -/

/-- A number to which two can be added. -/
def Roomy (n : Int) : Prop := Int64Range n ∧ Int64Range (n + 2)

/-- A transaction whose numbers leave room. -/
structure Fits (n : Nat) (t : Tx) : Prop where
  phase : 0 ≤ t.phase ∧ t.phase ≤ 7
  currentRule : Roomy t.currentRule
  nextRule : Roomy t.nextRule
  req : BufFits n t.reqBody
  resp : BufFits n t.respBody

theorem Fits.mono {n m : Nat} {t : Tx} (h : Fits n t) (hn : n ≤ m) : Fits m t :=
  ⟨h.phase, h.currentRule, h.nextRule, h.req.mono hn, h.resp.mono hn⟩

/-- Nothing but the verdict and the like has changed. -/
theorem Fits.of_eq {n : Nat} {t t' : Tx} (h : Fits n t) (h1 : t'.phase = t.phase) (h2 : t'.currentRule = t.currentRule) (h3 : t'.nextRule = t.nextRule)
    (h4 : t'.reqBody = t.reqBody) (h5 : t'.respBody = t.respBody) : Fits n t' :=
  ⟨h1 ▸ h.phase, h2 ▸ h.currentRule, h3 ▸ h.nextRule, h4 ▸ h.req, h5 ▸ h.resp⟩

theorem Fits.fetched {n : Nat} {t t' : Tx} (h : Fits n t) (hf : Fetched t t') : Fits n t' := by
  have e := hf.same
  exact ⟨by rw [e]; exact h.phase, by rw [e]; exact h.currentRule, by rw [e]; exact h.nextRule, h.req.same hf.req, h.resp.same hf.resp⟩

theorem Fits.jumpToPhase {n : Nat} {t : Tx} (h : Fits n t) (i : Int) : Fits n (t.jumpToPhase i) := by
  refine ⟨?_, by simp [Tx.jumpToPhase, Roomy, Int64Range, statusNotStarted], by simp [Tx.jumpToPhase, Roomy, Int64Range], h.req, h.resp⟩
  simp only [Tx.jumpToPhase, phaseBegin, phaseEnd]
  grind

theorem Fits.jumpTo {n : Nat} {t : Tx} (h : Fits n t) {k : Nat} (hk : k < 2 ^ 63 - 1) {i : Int} (hi : -2 ^ 63 ≤ i) : Fits n (t.jumpTo k i) := by
  simp only [Tx.jumpTo]
  split
  · exact ⟨h.phase, h.currentRule, by simp [Roomy, Int64Range, statusEndOfRules], h.req, h.resp⟩
  · exact ⟨h.phase, h.currentRule, ⟨⟨hi, by simp only; omega⟩, ⟨by simp only; omega, by simp only; omega⟩⟩, h.req, h.resp⟩

theorem Tx.nextPhaseW_eq {n : Nat} {t : Tx} (h : Fits n t) : t.nextPhaseW wrap64 = t.nextPhase := by
  have := h.phase
  rw [Tx.nextPhaseW, wrap64_eq ⟨by omega, by omega⟩]
  rfl

theorem Tx.nextW_eq {n : Nat} {t : Tx} (h : Fits n t) (k : Nat) : t.nextW wrap64 k = t.next k := by
  have e : wrap64 (t.nextRule + 1) = t.nextRule + 1 := wrap64_eq (by obtain ⟨⟨h1, h2⟩, ⟨h3, h4⟩⟩ := h.nextRule; exact ⟨by omega, by omega⟩)
  simp only [Tx.nextW, Tx.next, e]

theorem Fits.next {n : Nat} {t : Tx} (h : Fits n t) {k : Nat} (hk : k < 2 ^ 63 - 1) : Fits n (t.next k).1 := by
  simp only [Tx.next]
  split
  · exact ⟨h.phase, h.nextRule, h.nextRule, h.req, h.resp⟩
  · split
    · exact ⟨h.phase, h.nextRule, by simp [Roomy, Int64Range, statusEndOfRules], h.req, h.resp⟩
    · refine ⟨h.phase, h.nextRule, ?_, h.req, h.resp⟩
      obtain ⟨⟨h1, h2⟩, ⟨h3, h4⟩⟩ := h.nextRule
      exact ⟨⟨by simp only; omega, by simp only; omega⟩, ⟨by simp only; omega, by simp only; omega⟩⟩

/-! ### Rules -/

section
variable {rs : RuleSet} (hr : RulesFit rs) {n : Nat}
include hr

theorem Action.runW_agrees : ∀ (fuel : Nat) (a : Action), (∀ g f, a = .custom g f → Proper f) → ∀ {t : Tx}, Fits n t →
    Agrees (Fits n) (a.runW wrap64 rs fuel t) (a.run rs fuel t) := by
  intro fuel
  induction fuel with
  | zero =>
    intro a ha t h
    cases a with
    | block => exact .fuel
    | skip =>
      have e : wrap64 (t.currentRule + 2) = t.currentRule + 2 := wrap64_eq h.currentRule.2
      simp only [Action.runW, Action.run, skipDoW, e]
      exact .ok (h.jumpTo (hr.count _) h.currentRule.2.1)
    | allow arg =>
      simp only [Action.runW, Action.run, allowDoW, allowDo, Tx.nextPhaseW_eq h]
      split
      · exact .ok (h.jumpToPhase _)
      split
      · exact .ok (h.jumpToPhase _)
      split
      · exact .ok (h.jumpToPhase _)
      · exact .ok h
    | custom g f =>
      have hp := ha g f rfl
      exact .ok ⟨hp.phase t h.phase, (hp.currentRule t h.currentRule.2 h.currentRule.1).symm, (hp.nextRule t h.nextRule.2 h.nextRule.1).symm,
        (hp.reqBody t).symm ▸ h.req, (hp.respBody t).symm ▸ h.resp⟩
    | _ => exact .ok (h.of_eq rfl rfl rfl rfl rfl)
  | succ m ih =>
    intro a ha t h
    cases a with
    | block =>
      simp only [Action.runW, Action.run, actionsExecute]
      cases hm : actionMap rs.defaultActions (List.replicate groupCount []) with
      | none => exact .panic
      | some l =>
        have hall : ∀ a ∈ l.flatten, ∀ g f, a = .custom g f → Proper f := by
          intro a ha
          rcases actionMap_mem hm a ha with ha | ha
          · exact hr.default a ha
          · simp at ha
        simp only
        generalize l.flatten = as at hall
        clear hm
        induction as generalizing t with
        | nil => exact .ok h
        | cons a as iha =>
          exact (ih a (hall a List.mem_cons_self) h).bind fun t ht => iha ht fun b hb => hall b (List.mem_cons_of_mem _ hb)
    | skip =>
      have e : wrap64 (t.currentRule + 2) = t.currentRule + 2 := wrap64_eq h.currentRule.2
      simp only [Action.runW, Action.run, skipDoW, e]
      exact .ok (h.jumpTo (hr.count _) h.currentRule.2.1)
    | allow arg =>
      simp only [Action.runW, Action.run, allowDoW, allowDo, Tx.nextPhaseW_eq h]
      split
      · exact .ok (h.jumpToPhase _)
      split
      · exact .ok (h.jumpToPhase _)
      split
      · exact .ok (h.jumpToPhase _)
      · exact .ok h
    | custom g f =>
      have hp := ha g f rfl
      exact .ok ⟨hp.phase t h.phase, (hp.currentRule t h.currentRule.2 h.currentRule.1).symm, (hp.nextRule t h.nextRule.2 h.nextRule.1).symm,
        (hp.reqBody t).symm ▸ h.req, (hp.respBody t).symm ▸ h.resp⟩
    | _ => exact .ok (h.of_eq rfl rfl rfl rfl rfl)

theorem actionsExecuteW_agrees (fuel : Nat) {as : List Action} (ha : ∀ a ∈ as, ∀ g f, a = .custom g f → Proper f) {t : Tx} (h : Fits n t) :
    Agrees (Fits n) (actionsExecute (Action.runW wrap64 rs fuel) as t) (actionsExecute (Action.run rs fuel) as t) := by
  simp only [actionsExecute]
  cases hm : actionMap as (List.replicate groupCount []) with
  | none => exact .panic
  | some l =>
    have hall : ∀ a ∈ l.flatten, ∀ g f, a = .custom g f → Proper f := by
      intro a ha'
      rcases actionMap_mem hm a ha' with ha' | ha'
      · exact ha a ha'
      · simp at ha'
    simp only
    generalize l.flatten = as at hall
    clear hm ha
    induction as generalizing t with
    | nil => exact .ok h
    | cons a as iha =>
      exact (Action.runW_agrees hr fuel a (hall a List.mem_cons_self) h).bind fun t ht => iha ht fun b hb => hall b (List.mem_cons_of_mem _ hb)

theorem subActionsW_agrees (fuel : Nat) : ∀ {ss : List Rule}, (∀ s ∈ ss, ∀ a ∈ s.actions, ∀ g f, a = .custom g f → Proper f) → ∀ {t : Tx}, Fits n t →
    Agrees (Fits n) (subActionsW wrap64 rs fuel ss t) (subActions rs fuel ss t)
  | [], _, _, h => .ok h
  | s :: _, hs, _, h => (actionsExecuteW_agrees hr fuel (hs s List.mem_cons_self) h).bind fun _ ht =>
      subActionsW_agrees fuel (fun s hm => hs s (List.mem_cons_of_mem _ hm)) ht

theorem Rule.runW_agrees (env : Env) (fuel : Nat) {p : Int} {r : Rule} (hmem : r ∈ rs.phases p) {t : Tx} (h : Fits n t) :
    Agrees (Fits n) (r.runW wrap64 env rs fuel t) (r.run env rs fuel t) := by
  refine Agrees.bind (P := fun x => Fits n x.2) (.self fun x hx => h.fetched (Rule.matches_fetched hx)) ?_
  rintro ⟨b, t⟩ h
  cases b with
  | false => exact .ok h
  | true =>
    refine Agrees.bind (P := fun x => Fits n x.2) (.self fun x hx => h.fetched (matchSubs_fetched hx)) ?_
    rintro ⟨b, t⟩ h
    cases b with
    | false => exact .ok h
    | true => exact (actionsExecuteW_agrees hr fuel (hr.rules p r hmem) h).bind fun _ ht => subActionsW_agrees hr fuel (hr.subs p r hmem) ht

theorem RuleSet.processW_agrees (env : Env) (fuel : Nat) (phase offset : Int) {t : Tx} (h : Fits n t) :
    Agrees (Fits n) (rs.processW wrap64 env fuel t phase offset) (rs.process env fuel t phase offset) := by
  simp only [RuleSet.processW, RuleSet.process]
  split
  · split
    · exact .panic
    · split
      · rename_i hg
        rw [hg]
        exact .panic
      · rename_i hg
        rw [hg]
        exact Rule.runW_agrees hr env fuel (List.mem_of_getElem? hg) h
  · exact .ok h

theorem processLoopW_agrees (env : Env) (phase : Int) : ∀ (fuel : Nat) (next : Int) {t : Tx}, Fits n t →
    Agrees (fun x => Fits n x.1) (processLoopW wrap64 env rs phase fuel next t) (processLoop env rs phase fuel next t)
  | 0, _, _, _ => .fuel
  | m + 1, next, t, h => by
    simp only [processLoopW, processLoop]
    split
    · refine (RuleSet.processW_agrees hr env m phase next h).bind fun t ht => ?_
      have ht : Fits n t.touch := ht.of_eq rfl rfl rfl rfl rfl
      split
      · exact .ok ht
      · rw [Tx.nextW_eq ht]
        exact (processLoopW_agrees env phase m _ (ht.next (hr.count _))).bind fun x hx => .ok hx
    · exact .ok h

theorem processPhaseW_agrees (env : Env) (fuel : Nat) (phase : Int) {t : Tx} (h : Fits n t) :
    Agrees (fun x => Fits n x.1) (processPhaseW wrap64 env rs fuel phase t) (processPhase env rs fuel phase t) := by
  simp only [processPhaseW, processPhase, processPhase']
  split
  · exact .ok h
  · have hj := h.jumpToPhase phase
    split
    · exact .ok hj
    · rw [Tx.nextW_eq hj]
      exact processLoopW_agrees hr env phase fuel _ (hj.next (hr.count _))

theorem Tx.stepW_agrees (env : Env) (fuel : Nat) {t : Tx} (h : Fits n t) {op : Op} (ha : ArgsFit op) (hb : n + bytesOf op < 2 ^ 63) :
    Agrees (fun x => Fits (n + bytesOf op) x.1) (t.stepW wrap64 env rs fuel op) (t.step env rs fuel op) := by
  have phase : ∀ {t : Tx} (p : Int), Fits n t → Agrees (fun x : Tx × Out × Trace => Fits n x.1)
      ((processPhaseW wrap64 env rs fuel p t).bind fun (t, tr) => .ok (t, .unit, tr)) ((processPhase env rs fuel p t).bind fun (t, tr) => .ok (t, .unit, tr)) :=
    fun p h => (processPhaseW_agrees hr env fuel p h).bind fun x hx => .ok hx
  cases op with
  | processConnection a b c d => exact phase _ (h.of_eq rfl rfl rfl rfl rfl)
  | processRequestURL u m p => exact .ok (h.of_eq rfl rfl rfl rfl rfl)
  | processRequestHeader hd => exact phase _ (h.of_eq rfl rfl rfl rfl rfl)
  | appendRequestBody p io =>
    refine (Buf.writeW_agrees h.req p io hb).bind fun x hx => .ok ?_
    exact ⟨h.phase, h.currentRule, h.nextRule, hx, h.resp.mono (by simp [bytesOf])⟩
  | processRequestBody => exact phase _ h
  | processResponseHeaders code proto hd => exact phase _ (h.of_eq rfl rfl rfl rfl rfl)
  | appendResponseBody p io =>
    refine (Buf.writeW_agrees h.resp p io hb).bind fun x hx => .ok ?_
    exact ⟨h.phase, h.currentRule, h.nextRule, h.req.mono (by simp [bytesOf]), hx⟩
  | processResponseBody => exact phase _ h
  | processLogging => exact phase _ h
  | processPhase p => exact phase _ h
  | result =>
    refine .ok ?_
    simp only
    split
    · exact h.of_eq rfl rfl rfl rfl rfl
    · exact h.of_eq rfl rfl rfl rfl rfl
  | jumpToPhase i => exact .ok (h.jumpToPhase i)
  | nextPhase =>
    simp only [Tx.stepW, Tx.step, Tx.nextPhaseW_eq h]
    exact .ok (h.jumpToPhase _)
  | jumpTo i => exact .ok (h.jumpTo (hr.count _) ha.1)
  | next =>
    simp only [Tx.stepW, Tx.step, Tx.nextW_eq h]
    exact .ok (h.next (hr.count _))
  | _ => exact .ok (h.of_eq rfl rfl rfl rfl rfl)

theorem Tx.stepsW_agrees (env : Env) (fuel : Nat) : ∀ {ops : List Op} {n : Nat} {t : Tx}, Fits n t → (∀ op ∈ ops, ArgsFit op) → n + totalBytes ops < 2 ^ 63 →
    Agrees (fun x => Fits (n + totalBytes ops) x.1) (Tx.stepsW wrap64 env rs fuel t ops) (Tx.steps env rs fuel t ops)
  | [], n, t, h, _, _ => .ok h
  | op :: ops, n, t, h, ha, hb => by
    have e : totalBytes (op :: ops) = bytesOf op + totalBytes ops := by simp [totalBytes]
    rw [e] at hb ⊢
    refine (Tx.stepW_agrees hr env fuel h (ha op List.mem_cons_self) (by omega)).bind fun x hx => ?_
    refine (Tx.stepsW_agrees env fuel hx (fun o ho => ha o (List.mem_cons_of_mem _ ho)) (by omega)).bind fun y hy => .ok ?_
    rw [← Nat.add_assoc]
    exact hy

end

theorem newTransaction_fits {l : Limits} (h : LimitsFit l) : Fits 0 (newTransaction l) :=
  ⟨by simp [newTransaction, phaseBegin], by simp [newTransaction, statusNotStarted, Roomy, Int64Range], by simp [newTransaction, Roomy, Int64Range],
    ⟨Nat.le_refl _, h.requestBodyInMem, fun _ => .inl rfl⟩, ⟨Nat.le_refl _, h.responseBody, fun _ => .inl rfl⟩⟩

end Verif
