import Verif.Props.Host
import Verif.Props.Body
/-!
C80, C82: the body limits of a transaction while the engine's limits change, and
what becomes of the temporary files.
-/
namespace Verif
open Sample

/-! ### C80: limits and switches -/

theorem stepsIn_cons {lib : Lib} {ord : IterOrd} {n : Nat} {l : Limits} {rs : RuleSet} {op : Op} {v : List (Limits × RuleSet × Op)}
    {t t'' : Tx} {os : List Out} {tr : Trace} (h : stepsIn lib ord n t ((l, rs, op) :: v) = .ok (t'', os, tr)) :
    ∃ t' o tr1 os2 tr2, t.step { lib, ord, limits := l } rs n op = .ok (t', o, tr1) ∧ stepsIn lib ord n t' v = .ok (t'', os2, tr2) ∧
      os = o :: os2 ∧ tr = tr1 ++ tr2 := by
  simp only [stepsIn] at h
  obtain ⟨⟨t1, o, tr1⟩, h1, h2⟩ := Res.bind_eq_ok.1 h
  obtain ⟨⟨t2, os2, tr2⟩, h3, h4⟩ := Res.bind_eq_ok.1 h2
  simp only [Res.ok.injEq, Prod.mk.injEq] at h4
  obtain ⟨rfl, rfl, rfl⟩ := h4
  exact ⟨t1, o, tr1, os2, tr2, h1, h3, rfl, rfl⟩

/-- The calls of a view. -/
def viewOps (v : List (Limits × RuleSet × Op)) : List Op := v.map fun x => x.2.2

theorem view_ops (a i : Nat) : ∀ (h : Heap) (ops : List HostOp), viewOps (h.view a i ops) = callsOf i ops
  | h, [] => rfl
  | h, .call j op :: ops => by
    simp only [Heap.view, callsOf]
    split
    · simp only [viewOps, List.map_cons]; exact congrArg _ (view_ops a i h ops)
    · exact view_ops a i h ops
  | h, .enable s :: ops => view_ops a i (h.step (.enable s)) ops
  | h, .setLimits s :: ops => view_ops a i (h.step (.setLimits s)) ops
  | h, .addSecRule s :: ops => view_ops a i (h.step (.addSecRule s)) ops
  | h, .execute s :: ops => view_ops a i (h.step (.execute s)) ops
  | h, .newRuleSet :: ops => view_ops a i (h.step .newRuleSet) ops
  | h, .addRules b s :: ops => view_ops a i (h.step (.addRules b s)) ops
  | h, .addDefaultActions b s :: ops => view_ops a i (h.step (.addDefaultActions b s)) ops
  | h, .useRuleSet b :: ops => view_ops a i (h.step (.useRuleSet b)) ops
  | h, .newTransaction b :: ops => view_ops a i (h.step (.newTransaction b)) ops

theorem stepsIn_resp {lib : Lib} {ord : IterOrd} {m : Int} {n : Nat} : ∀ {v : List (Limits × RuleSet × Op)}
    (_ : ∀ x ∈ v, x.2.1.KeepsBodies) {t t' : Tx} {acc : Bytes} {os : List Out} {tr : Trace}, t.respBody.Holds m acc →
    stepsIn lib ord n t v = .ok (t', os, tr) → t'.respBody.Holds m (acc ++ Spec.responseChunks (viewOps v) os) := by
  intro v
  induction v with
  | nil => intro _ t t' acc os tr hb h; simp only [stepsIn] at h; cases h; simpa [viewOps, Spec.responseChunks] using hb
  | cons x v ih =>
    obtain ⟨l, rs, op⟩ := x
    intro hv t t' acc os tr hb h
    obtain ⟨t1, o, tr1, os2, tr2, h1, h2, rfl, rfl⟩ := stepsIn_cons h
    have hrs : rs.KeepsBodies := hv _ List.mem_cons_self
    have hv' := fun x hx => hv x (List.mem_cons_of_mem _ hx)
    by_cases hop : ∃ p io, op = .appendResponseBody p io
    · obtain ⟨p, io, rfl⟩ := hop
      obtain ⟨k, e, hw, rfl, _⟩ := step_append_resp h1
      have := ih hv' (hb.write hw) h2
      cases e <;> simpa [viewOps, Spec.responseChunks] using this
    · have hop' : ∀ p io, op ≠ .appendResponseBody p io := fun p io he => hop ⟨p, io, he⟩
      simp only [viewOps, List.map_cons]
      rw [responseChunks_other hop']
      exact ih hv' (hb.same ((respBody_inv _ hrs t.respBody).step hop' (.refl _) h1)) h2

theorem stepsIn_req {lib : Lib} {ord : IterOrd} {m f : Int} {n : Nat} : ∀ {v : List (Limits × RuleSet × Op)}
    (_ : ∀ x ∈ v, x.2.1.KeepsBodies) {t t' : Tx} {acc : Bytes} {os : List Out} {tr : Trace},
    (∀ p io, .appendRequestBody p io ∈ viewOps v → io = .none) → Buf.Acc m f t.reqBody acc →
    stepsIn lib ord n t v = .ok (t', os, tr) → Buf.Acc m f t'.reqBody (acc ++ Spec.requestChunks (viewOps v) os) := by
  intro v
  induction v with
  | nil => intro _ t t' acc os tr _ hb h; simp only [stepsIn] at h; cases h; simpa [viewOps, Spec.requestChunks] using hb
  | cons x v ih =>
    obtain ⟨l, rs, op⟩ := x
    intro hv t t' acc os tr hio hb h
    obtain ⟨t1, o, tr1, os2, tr2, h1, h2, rfl, rfl⟩ := stepsIn_cons h
    have hrs : rs.KeepsBodies := hv _ List.mem_cons_self
    have hv' := fun x hx => hv x (List.mem_cons_of_mem _ hx)
    have hio' : ∀ p io, .appendRequestBody p io ∈ viewOps v → io = .none := fun p io hm => hio p io (List.mem_cons_of_mem _ hm)
    by_cases hop : ∃ p io, op = .appendRequestBody p io
    · obtain ⟨p, io, rfl⟩ := hop
      have hn := hio p io List.mem_cons_self
      subst hn
      obtain ⟨k, e, hw, rfl, _⟩ := step_append_req h1
      have := ih hv' hio' (hb.write hw) h2
      cases e <;> simpa [viewOps, Spec.requestChunks] using this
    · have hop' : ∀ p io, op ≠ .appendRequestBody p io := fun p io he => hop ⟨p, io, he⟩
      simp only [viewOps, List.map_cons]
      rw [requestChunks_other hop']
      exact ih hv' hio' (hb.same ((reqBody_inv _ hrs t.reqBody).step hop' (.refl _) h1)) h2

/-- Writing keeps the temporary file of a buffer, if any, open. -/
theorem Buf.write_open {b b' : Buf} {p : Bytes} {io : IOFault} {k : Nat} {e : Option BufErr} (hw : b.write p io = .ok (b', k, e)) :
    (b.fileState = some false → b'.fileState = some false) ∧ (b.fileState ≠ some true → b'.fileState ≠ some true) := by
  have hfile : ∀ (f : File) (p : Bytes) (x : Option Nat), (f.write p x).1.closed = f.closed := by
    intro f p x
    simp only [File.write]
    split
    · rfl
    · split <;> rfl
  simp only [Buf.write] at hw
  split at hw
  · cases hw; exact ⟨id, id⟩
  · split at hw
    · cases hw; exact ⟨id, id⟩
    · split at hw
      · next hn =>
        simp only [Buf.fileState, hn, Option.map_none]
        split at hw
        · split at hw
          · cases hw
          · split at hw
            · cases hw; simp [hn]
            · split at hw <;> (cases hw; simp [hfile])
        · cases hw; simp [hn]
      · next f hs =>
        cases hw
        simp [Buf.fileState, hs, hfile]

/-- Neither body has a closed temporary file. -/
def Tx.FilesOpen (t : Tx) : Prop := t.reqBody.fileState ≠ some true ∧ t.respBody.fileState ≠ some true

theorem filesOpen_inv (env : Env) {rs : RuleSet} (hrs : rs.KeepsBodies) : TxInv env rs Tx.FilesOpen Action.KeepsBodies (fun _ => True) where
  touch _ h := h
  cur _ _ _ _ h := h
  fetch _ _ h hf := ⟨by rw [hf.reqFile]; exact h.1, by rw [hf.respFile]; exact h.2⟩
  prim a hb ha n t t' h hr := by
    obtain ⟨k1, k2⟩ := Action.keepsBodies_run hb ha hr
    exact ⟨by rw [k1]; exact h.1, by rw [k2]; exact h.2⟩
  default := hrs.2
  act := hrs.1
  input _ _ _ _ _ _ _ _ _ _ _ _ h := h
  req t p io b k e _ h hw := ⟨(Buf.write_open hw).2 h.1, h.2⟩
  resp t p io b k e _ h hw := ⟨h.1, (Buf.write_open hw).2 h.2⟩
  verdict op hv _ n t t' o tr h hs := by
    obtain ⟨k1, k2⟩ := verdictOp_bodies hv hs
    exact ⟨by rw [k1]; exact h.1, by rw [k2]; exact h.2⟩

/-- The request body is in an open temporary file. -/
def Tx.Spilled (t : Tx) : Prop := t.reqBody.fileState = some false

theorem spilled_inv (env : Env) {rs : RuleSet} (hrs : rs.KeepsBodies) : TxInv env rs Tx.Spilled Action.KeepsBodies (fun _ => True) where
  touch _ h := h
  cur _ _ _ _ h := h
  fetch _ _ h hf := hf.reqFile.trans h
  prim a hb ha n t t' h hr := by
    show t'.reqBody.fileState = _
    rw [(Action.keepsBodies_run hb ha hr).1]; exact h
  default := hrs.2
  act := hrs.1
  input _ _ _ _ _ _ _ _ _ _ _ _ h := h
  req t p io b k e _ h hw := (Buf.write_open hw).1 h
  resp t p io b k e _ h hw := h
  verdict op hv _ n t t' o tr h hs := by
    show t'.reqBody.fileState = _
    rw [(verdictOp_bodies hv hs).1]; exact h

theorem stepsIn_inv {lib : Lib} {ord : IterOrd} {n : Nat} {I : Tx → Prop} {okOp : Op → Prop}
    (hI : ∀ env (rs : RuleSet), rs.KeepsBodies → TxInv env rs I Action.KeepsBodies okOp) : ∀ {v : List (Limits × RuleSet × Op)}
    (_ : ∀ x ∈ v, x.2.1.KeepsBodies ∧ okOp x.2.2) {t t' : Tx} {os : List Out} {tr : Trace}, I t → stepsIn lib ord n t v = .ok (t', os, tr) → I t' := by
  intro v
  induction v with
  | nil => intro _ t t' os tr ht h; simp only [stepsIn] at h; cases h; exact ht
  | cons x v ih =>
    obtain ⟨l, rs, op⟩ := x
    intro hv t t' os tr ht h
    obtain ⟨t1, o, tr1, os2, tr2, h1, h2, rfl, rfl⟩ := stepsIn_cons h
    obtain ⟨k1, k2⟩ := hv _ List.mem_cons_self
    exact ih (fun x hx => hv x (List.mem_cons_of_mem _ hx)) ((hI _ rs k1).step k2 ht h1) h2

/-- The rule set of transaction `i` only has actions that leave the bodies alone,
whenever the transaction is called. -/
def TameRules (a i : Nat) (h : Heap) (ops : List HostOp) : Prop := ∀ x ∈ h.view a i ops, x.2.1.KeepsBodies

/-- A transaction made by the host, after some more of its actions. -/
theorem created_view {lib : Lib} {ord : IterOrd} {n : Nat} {ops : List HostOp} {w w' : World} {os : List HostOut}
    (h : w.steps lib ord n (.newTransaction false :: ops) = .ok (w', os)) :
    ∃ t' os' tr, os = .created (some w.txs.length) :: os' ∧ w'.txs[w.txs.length]? = some (w.heap.cur, t') ∧
      stepsIn lib ord n (newTransaction w.heap.limits) (w.heap.view w.heap.cur w.txs.length ops) =
        .ok (t', returnsOf w.txs.length ops os', tr) := by
  obtain ⟨w1, o1, os1, h1, g1, rfl⟩ := World.steps_cons h
  simp only [World.step, Res.ok.injEq, Prod.mk.injEq] at h1
  obtain ⟨rfl, rfl⟩ := h1
  have hi : (w.txs ++ [(w.heap.cur, newTransaction w.heap.limits)])[w.txs.length]? = some (w.heap.cur, newTransaction w.heap.limits) := by simp
  obtain ⟨t', tr, k1, k2⟩ := host_view g1 hi
  exact ⟨t', os1, tr, rfl, k1, k2⟩

/-- C80.  However the engine's limits are changed afterwards, a request body chunk is
accepted exactly as long as the body does not outgrow the limit that was in force when
the transaction was created; otherwise `AppendRequestBody` reports that limit. -/
theorem C80_request_limit {lib : Lib} {ord : IterOrd} {n : Nat} {ops : List HostOp} {w w' w'' : World} {os : List HostOut} {o : HostOut}
    {p : Bytes} (h : w.steps lib ord n (.newTransaction false :: ops) = .ok (w', .created (some w.txs.length) :: os))
    (hr : TameRules w.heap.cur w.txs.length w.heap ops)
    (hio : ∀ p io, .appendRequestBody p io ∈ callsOf w.txs.length ops → io = .none)
    (h2 : w'.step lib ord n (.call w.txs.length (.appendRequestBody p .none)) = .ok (w'', o)) :
    o = .returned (.error (if ((Spec.requestChunks (callsOf w.txs.length ops) (returnsOf w.txs.length ops os)).length : Int) + p.length ≤
      w.heap.limits.requestBody then none else some .outOfFileLimit)) := by
  obtain ⟨t, os', tr, e, k1, k2⟩ := created_view h
  cases e
  have hb := stepsIn_req hr (by rw [view_ops]; exact hio) (Buf.Acc.new w.heap.limits.requestBodyInMem w.heap.limits.requestBody) k2
  rw [List.nil_append, view_ops] at hb
  simp only [World.step, k1] at h2
  obtain ⟨⟨t2, o2, tr2⟩, g1, g2⟩ := Res.bind_eq_ok.1 h2
  cases g2
  obtain ⟨k, e, hw, rfl, _⟩ := step_append_req g1
  have h1 := hb.length; have h3 := hb.fileLimit
  refine Buf.write_cases t.reqBody p .none hb.readed ?_ ?_ ?_ ?_ ?_ ?_ ?_
  · intro hgt hw'; rw [hw'] at hw
    obtain ⟨_, _, rfl⟩ : _ ∧ _ ∧ some BufErr.outOfFileLimit = e := by simpa using hw
    rw [if_neg (by omega)]
  · intro _ _ _ _ hw'; rw [hw'] at hw; cases hw
  · intro _ _ _ _ hc; cases hc
  · intro _ _ _ _ _ _ _ hc; exact absurd rfl hc
  · intro f wn e' hle _ _ _ _ _ hfw hw'; rw [hw'] at hw
    simp only [Res.ok.injEq, Prod.mk.injEq] at hw
    simp only [File.write, File.at, IOFault.none] at hfw
    cases hfw
    rw [if_pos (by omega), ← hw.2.2]
  · intro hle _ _ hw'; rw [hw'] at hw
    obtain ⟨_, _, rfl⟩ : _ ∧ _ ∧ none = e := by simpa using hw
    rw [if_pos (by omega)]
  · intro f0 f wn e' hle hf0 hfw hw'; rw [hw'] at hw
    simp only [Res.ok.injEq, Prod.mk.injEq] at hw
    have ho : f0.closed = false := by
      have := (stepsIn_inv filesOpen_inv (fun x hx => ⟨hr x hx, trivial⟩) (⟨by simp [newTransaction, newBuffer, Buf.fileState],
        by simp [newTransaction, newBuffer, Buf.fileState]⟩ : (newTransaction w.heap.limits).FilesOpen) k2).1
      simp only [Buf.fileState, hf0, Option.map_some] at this
      cases hc : f0.closed with
      | false => rfl
      | true => rw [hc] at this; exact absurd rfl this
    simp only [File.write, IOFault.none, ho, if_false, Bool.false_eq_true] at hfw
    cases hfw
    rw [if_pos (by omega), ← hw.2.2]

/-- C80, the response body, whatever the operating system does. -/
theorem C80_response_limit {lib : Lib} {ord : IterOrd} {n : Nat} {ops : List HostOp} {w w' w'' : World} {os : List HostOut} {o : HostOut}
    {p : Bytes} {io : IOFault} (h : w.steps lib ord n (.newTransaction false :: ops) = .ok (w', .created (some w.txs.length) :: os))
    (hr : TameRules w.heap.cur w.txs.length w.heap ops)
    (h2 : w'.step lib ord n (.call w.txs.length (.appendResponseBody p io)) = .ok (w'', o)) :
    o = .returned (.error (if ((Spec.responseChunks (callsOf w.txs.length ops) (returnsOf w.txs.length ops os)).length : Int) + p.length ≤
      w.heap.limits.responseBody then none else some .outOfFileLimit)) := by
  obtain ⟨t, os', tr, e, k1, k2⟩ := created_view h
  cases e
  have hb := stepsIn_resp hr (m := w.heap.limits.responseBody) (acc := []) ⟨rfl, rfl, rfl, rfl, rfl, rfl⟩ k2
  rw [List.nil_append, view_ops] at hb
  simp only [World.step, k1] at h2
  obtain ⟨⟨t2, o2, tr2⟩, g1, g2⟩ := Res.bind_eq_ok.1 h2
  cases g2
  obtain ⟨k, e, hw, rfl, _⟩ := step_append_resp g1
  have h1 := hb.length; have h4 := hb.memLimit; have h3 := hb.fileLimit
  refine Buf.write_cases t.respBody p io hb.readed ?_ ?_ ?_ ?_ ?_ ?_ ?_
  · intro hgt hw'; rw [hw'] at hw
    obtain ⟨_, _, rfl⟩ : _ ∧ _ ∧ some BufErr.outOfFileLimit = e := by simpa using hw
    rw [if_neg (by omega)]
  · intro _ _ _ _ hw'; rw [hw'] at hw; cases hw
  · intro _ _ _ _; omega
  · intro _ _ _ _ _ _; omega
  · intro _ _ _ _ _ _ _; omega
  · intro hle _ _ hw'; rw [hw'] at hw
    obtain ⟨_, _, rfl⟩ : _ ∧ _ ∧ none = e := by simpa using hw
    rw [if_pos (by omega)]
  · intro f0 _ _ _ _ hf0; rw [hb.fileBuf] at hf0; cases hf0

/-- C80.  Whether a rule can see the response body depends on the switch at the moment
the rule runs, not on the switch when the body was received. -/
theorem C80_response_switch {lib : Lib} {ord : IterOrd} {n : Nat} {ops : List HostOp} {w w' : World} {os : List HostOut} {t : Tx}
    (h : w.steps lib ord n (.newTransaction false :: ops) = .ok (w', .created (some w.txs.length) :: os))
    (hr : TameRules w.heap.cur w.txs.length w.heap ops) (hi : w'.txs[w.txs.length]? = some (w.heap.cur, t)) :
    ∃ t', Var.responseBody.fetch { lib, ord, limits := w'.heap.limits } t =
      .ok (if w'.heap.limits.responseBodyAccess = true ∧ Spec.responseChunks (callsOf w.txs.length ops) (returnsOf w.txs.length ops os) ≠ []
        then [Spec.responseChunks (callsOf w.txs.length ops) (returnsOf w.txs.length ops os)] else [], t') := by
  obtain ⟨t1, os', tr, e, k1, k2⟩ := created_view h
  cases e
  rw [hi] at k1
  cases k1
  have hb := stepsIn_resp hr (m := w.heap.limits.responseBody) (acc := []) ⟨rfl, rfl, rfl, rfl, rfl, rfl⟩ k2
  rw [List.nil_append, view_ops] at hb
  generalize Spec.responseChunks (callsOf w.txs.length ops) (returnsOf w.txs.length ops os) = body at hb
  have hl : t.respBody.len = body.length := hb.length
  have e : t.respBody.string = (t.respBody.string.1, t.respBody.string.2) := rfl
  rw [string_mem hb.fileBuf, hb.memBuf] at e
  simp only [Var.fetch, fetchResponseBody]
  by_cases ha : w'.heap.limits.responseBodyAccess = true
  · by_cases hc : body = []
    · simp [ha, hc, hl]
    · have h0 : (t.respBody.len == 0) = false := by
        rw [hl]; simpa using hc
      rw [e]
      simp [ha, hc, h0]
  · simp [ha]

/-- A body received while the limit was 4 and access off; then the limit is raised and
access switched on: the old limit still refuses, the new switch shows the body to the
rule. -/
example :
    let small : Limits := { limits with responseBody := 4, responseBodyAccess := false }
    let big : Limits := { limits with responseBody := 100, responseBodyAccess := true }
    let rule : Rule := { always [.deny] with phase := 5, vars := [.responseBody] }
    let ops : List HostOp := [.addSecRule [rule], .setLimits small, .newTransaction false, .call 0 (.appendResponseBody b!"abc" .none), .setLimits big,
      .call 0 (.appendResponseBody b!"de" .none), .call 0 .processResponseBody, .call 0 .result]
    verdictsOf 0 ops (World.steps lib ord 20 {} ops) = [true] ∧
      (match World.steps lib ord 20 {} ops with
        | .ok (_, os) => (returnsOf 0 ops os).filterMap (fun | .error e => some e | _ => none)
        | _ => []) = [none, some .outOfFileLimit] := by
  decide +kernel

/-! ### C82: temporary files -/

/-- C82, the full claim: once its logging phase has been processed, a transaction
holds no temporary file. -/
def C82_statement : Prop :=
  ∀ (env : Env) (rs : RuleSet) (n : Nat) (ops : List Op) (t : Tx) (os : List Out) (tr : Trace),
    (newTransaction env.limits).steps env rs n (ops ++ [.processLogging]) = .ok (t, os, tr) →
    t.reqBody.fileState ≠ some false ∧ t.respBody.fileState ≠ some false

/-- It is false of the code: nothing ever closes the buffers. -/
theorem C82_refuted : ¬ C82_statement := by
  intro h
  have := h env (rules []) 20 [.appendRequestBody b!"0123456789" .none] _ _ _ rfl
  exact this.1 (by decide)

/-- C82.  A request body that went to a temporary file keeps that file open through
every further call, on any transaction and on the engine. -/
theorem C82_leak {lib : Lib} {ord : IterOrd} {n : Nat} {a i : Nat} {ops : List HostOp} {w w' : World} {os : List HostOut} {t : Tx}
    (h : w.steps lib ord n ops = .ok (w', os)) (hi : w.txs[i]? = some (a, t)) (hr : TameRules a i w.heap ops)
    (ht : t.reqBody.fileState = some false) : ∃ t', w'.txs[i]? = some (a, t') ∧ t'.reqBody.fileState = some false := by
  obtain ⟨t', tr, k1, k2⟩ := host_view h hi
  exact ⟨t', k1, stepsIn_inv spilled_inv (fun x hx => ⟨hr x hx, trivial⟩) ht k2⟩

/-- C82, what holds: a transaction whose accepted request body fits the in-memory
limit never has a temporary file; for the response body there never is one. -/
theorem C82_no_file_partial {lib : Lib} {ord : IterOrd} {n : Nat} {ops : List HostOp} {w w' : World} {os : List HostOut} {t : Tx}
    (h : w.steps lib ord n (.newTransaction false :: ops) = .ok (w', .created (some w.txs.length) :: os))
    (hr : TameRules w.heap.cur w.txs.length w.heap ops) (hi : w'.txs[w.txs.length]? = some (w.heap.cur, t))
    (hio : ∀ p io, .appendRequestBody p io ∈ callsOf w.txs.length ops → io = .none) :
    (((Spec.requestChunks (callsOf w.txs.length ops) (returnsOf w.txs.length ops os)).length : Int) ≤ w.heap.limits.requestBodyInMem →
      t.reqBody.fileState = none) ∧ t.respBody.fileState = none := by
  obtain ⟨t1, os', tr, e, k1, k2⟩ := created_view h
  cases e
  rw [hi] at k1
  cases k1
  have hb := stepsIn_resp hr (m := w.heap.limits.responseBody) (acc := []) ⟨rfl, rfl, rfl, rfl, rfl, rfl⟩ k2
  have hq := stepsIn_req hr (by rw [view_ops]; exact hio) (Buf.Acc.new w.heap.limits.requestBodyInMem w.heap.limits.requestBody) k2
  rw [List.nil_append, view_ops] at hq
  refine ⟨fun hl => ?_, by simp only [Buf.fileState, hb.fileBuf, Option.map_none]⟩
  have : t.reqBody.fileBuf = none := Classical.byContradiction fun hc => by have := hq.file hc; omega
  simp only [Buf.fileState, this, Option.map_none]

/-- Ten bytes against an in-memory limit of eight: the file is still there at the end. -/
example : ∃ t os tr, run (rules []) (.appendRequestBody b!"0123456789" .none :: exchange) = .ok (t, os, tr) ∧ t.reqBody.fileState = some false :=
  ⟨_, _, _, rfl, by decide⟩

end Verif
