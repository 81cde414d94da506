import Verif.Props.Body
import Verif.Props.Buffer
/-! C20 and C44 along whole transactions: what the body variables show is what the
host has appended. -/
namespace Verif
open Sample

/-- The request body chunks the transaction accepted (no error returned). -/
def Spec.requestChunks : List Op → List Out → Bytes
  | .appendRequestBody p _ :: ops, .error none :: os => p ++ requestChunks ops os
  | _ :: ops, _ :: os => requestChunks ops os
  | _, _ => []

/-- The response body chunks the transaction accepted. -/
def Spec.responseChunks : List Op → List Out → Bytes
  | .appendResponseBody p _ :: ops, .error none :: os => p ++ responseChunks ops os
  | _ :: ops, _ :: os => responseChunks ops os
  | _, _ => []

/-- Host-written actions leave the bodies alone. -/
def Action.KeepsBodies : Action → Prop
  | .custom _ f => ∀ t, (f t).reqBody = t.reqBody ∧ (f t).respBody = t.respBody
  | _ => True

def RuleSet.KeepsBodies (rs : RuleSet) : Prop :=
  (∀ p, ∀ r ∈ rs.phases p, ∀ a ∈ r.allActions, a.KeepsBodies) ∧ ∀ a ∈ rs.defaultActions, a.KeepsBodies

theorem Action.keepsBodies_run {rs : RuleSet} {a : Action} (hb : a ≠ .block) (ha : a.KeepsBodies) {n : Nat} {t t' : Tx}
    (h : Action.run rs n a t = .ok t') : t'.reqBody = t.reqBody ∧ t'.respBody = t.respBody := by
  cases a
  case block => exact absurd rfl hb
  case custom g f => simp only [Action.run, Res.ok.injEq] at h; subst h; exact ha t
  case skip =>
    simp only [Action.run, Res.ok.injEq, skipDo, Tx.jumpTo] at h
    split at h <;> (subst h; exact ⟨rfl, rfl⟩)
  case allow arg =>
    simp only [Action.run, Res.ok.injEq, allowDo] at h
    repeat' split at h
    all_goals (subst h; exact ⟨rfl, rfl⟩)
  all_goals (simp only [Action.run, Res.ok.injEq] at h; subst h; exact ⟨rfl, rfl⟩)

theorem verdictOp_bodies {env : Env} {rs : RuleSet} {op : Op} (hv : op.verdictOp = true) {n : Nat} {t t' : Tx} {o : Out} {tr : Trace}
    (h : t.step env rs n op = .ok (t', o, tr)) : t'.reqBody = t.reqBody ∧ t'.respBody = t.respBody := by
  cases op <;> cases hv
  case result =>
    simp only [Tx.step, Tx.result, Res.ok.injEq, Prod.mk.injEq] at h
    obtain ⟨h, _⟩ := h
    split at h <;> (subst h; exact ⟨rfl, rfl⟩)
  all_goals
    simp only [Tx.step, Res.ok.injEq, Prod.mk.injEq] at h
    obtain ⟨rfl, _⟩ := h
    exact ⟨rfl, rfl⟩

theorem reqBody_inv (env : Env) {rs : RuleSet} (hrs : rs.KeepsBodies) (b : Buf) :
    TxInv env rs (fun u => b.SameBody u.reqBody) Action.KeepsBodies (fun op => ∀ p io, op ≠ .appendRequestBody p io) where
  touch _ h := h
  cur _ _ _ _ h := h
  fetch _ _ h hf := h.trans hf.req
  prim a hb ha n t t' h hr := by rw [(Action.keepsBodies_run hb ha hr).1]; exact h
  default := hrs.2
  act := hrs.1
  input _ _ _ _ _ _ _ _ _ _ _ _ h := h
  req _ p io _ _ _ hop _ _ := absurd rfl (hop p io)
  resp _ _ _ _ _ _ _ h _ := h
  verdict op hv _ n t t' o tr h hs := by rw [(verdictOp_bodies hv hs).1]; exact h

theorem respBody_inv (env : Env) {rs : RuleSet} (hrs : rs.KeepsBodies) (b : Buf) :
    TxInv env rs (fun u => b.SameBody u.respBody) Action.KeepsBodies (fun op => ∀ p io, op ≠ .appendResponseBody p io) where
  touch _ h := h
  cur _ _ _ _ h := h
  fetch _ _ h hf := h.trans hf.resp
  prim a hb ha n t t' h hr := by rw [(Action.keepsBodies_run hb ha hr).2]; exact h
  default := hrs.2
  act := hrs.1
  input _ _ _ _ _ _ _ _ _ _ _ _ h := h
  req _ _ _ _ _ _ _ h _ := h
  resp _ p io _ _ _ hop _ _ := absurd rfl (hop p io)
  verdict op hv _ n t t' o tr h hs := by rw [(verdictOp_bodies hv hs).2]; exact h

/-- A buffer with equal limits holding exactly `acc`. -/
structure Buf.Holds (m : Int) (b : Buf) (acc : Bytes) : Prop where
  readed : b.readed = false
  memLimit : b.memLimit = m
  fileLimit : b.fileLimit = m
  fileBuf : b.fileBuf = none
  memBuf : b.memBuf = acc
  length : b.length = acc.length

theorem Buf.Holds.same {m : Int} {b b' : Buf} {acc : Bytes} (h : b.Holds m acc) (hs : b.SameBody b') : b'.Holds m acc :=
  ⟨hs.readed.trans h.readed, hs.memLimit.trans h.memLimit, hs.fileLimit.trans h.fileLimit, hs.none.2 h.fileBuf,
   hs.memBuf.trans h.memBuf, hs.length.trans h.length⟩

theorem Buf.Holds.write {m : Int} {b b' : Buf} {acc p : Bytes} {io : IOFault} {k : Nat} {e : Option BufErr}
    (h : b.Holds m acc) (hw : b.write p io = .ok (b', k, e)) : b'.Holds m (acc ++ if e = none then p else []) := by
  have h2 := h.memLimit; have h3 := h.fileLimit
  refine Buf.write_cases b p io h.readed ?_ ?_ ?_ ?_ ?_ ?_ ?_
  · intro _ hw'; rw [hw'] at hw; cases hw; simpa using h
  · intro _ _ _ _ hw'; rw [hw'] at hw; cases hw
  · intro _ _ _ _; omega
  · intro _ _ _ _ _ _; omega
  · intro _ _ _ _ _ _ _; omega
  · intro _ _ _ hw'; rw [hw'] at hw; cases hw
    exact ⟨h.readed, h.memLimit, h.fileLimit, h.fileBuf, by simp [h.memBuf], by simp [h.length]⟩
  · intro f0 _ _ _ _ hf0; rw [h.fileBuf] at hf0; cases hf0

theorem Buf.Acc.same {m f : Int} {b b' : Buf} {acc : Bytes} (h : Buf.Acc m f b acc) (hs : b.SameBody b') : Buf.Acc m f b' acc :=
  ⟨hs.readed.trans h.readed, hs.memLimit.trans h.memLimit, hs.fileLimit.trans h.fileLimit, hs.length.trans h.length,
   fun hn => hs.memBuf.trans (h.mem (hs.none.1 hn)), fun hn => h.file (fun hc => hn (hs.none.2 hc))⟩

theorem Buf.Acc.write {m f : Int} {b b' : Buf} {acc p : Bytes} {k : Nat} {e : Option BufErr}
    (h : Buf.Acc m f b acc) (hw : b.write p .none = .ok (b', k, e)) : Buf.Acc m f b' (acc ++ if e = none then p else []) := by
  have := h.step (op := .write p .none) (by intro p' io' he; cases he; rfl) (Buf.step_of_write hw)
  simp only [Spec.acceptedChunk, hw] at this
  cases e <;> simpa using this

theorem step_append_req {env : Env} {rs : RuleSet} {n : Nat} {t t' : Tx} {p : Bytes} {io : IOFault} {o : Out} {tr : Trace}
    (h : t.step env rs n (.appendRequestBody p io) = .ok (t', o, tr)) :
    ∃ k e, t.reqBody.write p io = .ok (t'.reqBody, k, e) ∧ o = .error e ∧ t'.respBody = t.respBody := by
  obtain ⟨⟨b, k, e⟩, g1, g2⟩ := Res.bind_eq_ok.1 h
  cases g2
  exact ⟨k, e, g1, rfl, rfl⟩

theorem step_append_resp {env : Env} {rs : RuleSet} {n : Nat} {t t' : Tx} {p : Bytes} {io : IOFault} {o : Out} {tr : Trace}
    (h : t.step env rs n (.appendResponseBody p io) = .ok (t', o, tr)) :
    ∃ k e, t.respBody.write p io = .ok (t'.respBody, k, e) ∧ o = .error e ∧ t'.reqBody = t.reqBody := by
  obtain ⟨⟨b, k, e⟩, g1, g2⟩ := Res.bind_eq_ok.1 h
  cases g2
  exact ⟨k, e, g1, rfl, rfl⟩

theorem requestChunks_other {op : Op} {o : Out} {ops : List Op} {os : List Out} (h : ∀ p io, op ≠ .appendRequestBody p io) :
    Spec.requestChunks (op :: ops) (o :: os) = Spec.requestChunks ops os := by
  cases op
  case appendRequestBody p io => exact absurd rfl (h p io)
  all_goals rfl

theorem responseChunks_other {op : Op} {o : Out} {ops : List Op} {os : List Out} (h : ∀ p io, op ≠ .appendResponseBody p io) :
    Spec.responseChunks (op :: ops) (o :: os) = Spec.responseChunks ops os := by
  cases op
  case appendResponseBody p io => exact absurd rfl (h p io)
  all_goals rfl

theorem steps_resp {env : Env} {rs : RuleSet} (hrs : rs.KeepsBodies) {m : Int} {n : Nat} : ∀ {ops : List Op} {t t' : Tx} {acc : Bytes}
    {os : List Out} {tr : Trace}, t.respBody.Holds m acc → t.steps env rs n ops = .ok (t', os, tr) →
    t'.respBody.Holds m (acc ++ Spec.responseChunks ops os) := by
  intro ops
  induction ops with
  | nil => intro t t' acc os tr hb h; simp only [Tx.steps] at h; cases h; simpa [Spec.responseChunks] using hb
  | cons op ops ih =>
    intro t t' acc os tr hb h
    obtain ⟨t1, o, tr1, os2, tr2, h1, h2, rfl, rfl⟩ := steps_cons h
    by_cases hop : ∃ p io, op = .appendResponseBody p io
    · obtain ⟨p, io, rfl⟩ := hop
      obtain ⟨k, e, hw, rfl, _⟩ := step_append_resp h1
      have := ih (hb.write hw) h2
      cases e <;> simpa [Spec.responseChunks] using this
    · have hop' : ∀ p io, op ≠ .appendResponseBody p io := fun p io he => hop ⟨p, io, he⟩
      rw [responseChunks_other hop']
      exact ih (hb.same ((respBody_inv env hrs t.respBody).step hop' (.refl _) h1)) h2

theorem steps_req {env : Env} {rs : RuleSet} (hrs : rs.KeepsBodies) {m f : Int} {n : Nat} : ∀ {ops : List Op} {t t' : Tx} {acc : Bytes}
    {os : List Out} {tr : Trace}, (∀ p io, .appendRequestBody p io ∈ ops → io = .none) → Buf.Acc m f t.reqBody acc →
    t.steps env rs n ops = .ok (t', os, tr) → Buf.Acc m f t'.reqBody (acc ++ Spec.requestChunks ops os) := by
  intro ops
  induction ops with
  | nil => intro t t' acc os tr _ hb h; simp only [Tx.steps] at h; cases h; simpa [Spec.requestChunks] using hb
  | cons op ops ih =>
    intro t t' acc os tr hio hb h
    obtain ⟨t1, o, tr1, os2, tr2, h1, h2, rfl, rfl⟩ := steps_cons h
    have hio' : ∀ p io, .appendRequestBody p io ∈ ops → io = .none := fun p io hm => hio p io (by simp [hm])
    by_cases hop : ∃ p io, op = .appendRequestBody p io
    · obtain ⟨p, io, rfl⟩ := hop
      have hn := hio p io (by simp)
      subst hn
      obtain ⟨k, e, hw, rfl, _⟩ := step_append_req h1
      have := ih hio' (hb.write hw) h2
      cases e <;> simpa [Spec.requestChunks] using this
    · have hop' : ∀ p io, op ≠ .appendRequestBody p io := fun p io he => hop ⟨p, io, he⟩
      rw [requestChunks_other hop']
      exact ih hio' (hb.same ((reqBody_inv env hrs t.reqBody).step hop' (.refl _) h1)) h2

/-- C20: whatever calls were made, and whatever the operating system did: RESPONSE_BODY
is the concatenation of the accepted chunks (nothing when it is empty or body access is
off), and reading it neither aborts nor changes the verdict. -/
theorem C20_response_body (env : Env) (rs : RuleSet) (hrs : rs.KeepsBodies) (n : Nat) (ops : List Op) (t : Tx)
    (os : List Out) (tr : Trace) (h : (newTransaction env.limits).steps env rs n ops = .ok (t, os, tr)) :
    ∃ t', Var.responseBody.fetch env t =
        .ok (if env.limits.responseBodyAccess = true ∧ Spec.responseChunks ops os ≠ [] then [Spec.responseChunks ops os] else [], t') ∧
      t'.abort = t.abort ∧ t'.interv = t.interv := by
  have hb : t.respBody.Holds env.limits.responseBody ([] ++ Spec.responseChunks ops os) :=
    steps_resp hrs ⟨rfl, rfl, rfl, rfl, rfl, rfl⟩ h
  rw [List.nil_append] at hb
  have hl : t.respBody.len = (Spec.responseChunks ops os).length := hb.length
  have e : t.respBody.string = (t.respBody.string.1, t.respBody.string.2) := rfl
  rw [string_mem hb.fileBuf, hb.memBuf] at e
  simp only [Var.fetch, fetchResponseBody]
  by_cases ha : env.limits.responseBodyAccess = true
  · by_cases hc : Spec.responseChunks ops os = []
    · simp [ha, hc, hl]
    · have h0 : (t.respBody.len == 0) = false := by
        rw [hl]; simpa using hc
      rw [e]
      simp [ha, hc, h0]
  · simp [ha]

/-- C20: appending is refused exactly when the body would outgrow the limit. -/
theorem C20_accepts (env : Env) (rs : RuleSet) (hrs : rs.KeepsBodies) (n : Nat) (ops : List Op) (t t' : Tx)
    (os : List Out) (tr : Trace) (h : (newTransaction env.limits).steps env rs n ops = .ok (t, os, tr))
    (p : Bytes) (io : IOFault) (o : Out) (tr' : Trace)
    (hs : t.step env rs n (.appendResponseBody p io) = .ok (t', o, tr')) :
    o = .error none ↔ ((Spec.responseChunks ops os).length : Int) + p.length ≤ env.limits.responseBody := by
  have hb : t.respBody.Holds env.limits.responseBody ([] ++ Spec.responseChunks ops os) :=
    steps_resp hrs ⟨rfl, rfl, rfl, rfl, rfl, rfl⟩ h
  rw [List.nil_append] at hb
  obtain ⟨k, e, hw, rfl, _⟩ := step_append_resp hs
  have h1 := hb.length; have h2 := hb.memLimit; have h3 := hb.fileLimit
  refine Buf.write_cases t.respBody p io hb.readed ?_ ?_ ?_ ?_ ?_ ?_ ?_
  · intro hgt hw'; rw [hw'] at hw
    obtain ⟨_, _, rfl⟩ : _ ∧ _ ∧ some BufErr.outOfFileLimit = e := by simpa using hw
    simp; omega
  · intro _ _ _ _ hw'; rw [hw'] at hw; cases hw
  · intro _ _ _ _; omega
  · intro _ _ _ _ _ _; omega
  · intro _ _ _ _ _ _ _; omega
  · intro hle _ _ hw'; rw [hw'] at hw
    obtain ⟨_, _, rfl⟩ : _ ∧ _ ∧ none = e := by simpa using hw
    simp; omega
  · intro f0 _ _ _ _ hf0; rw [hb.fileBuf] at hf0; cases hf0

/-- C44 along a transaction: REQUEST_BODY of an urlencoded request whose accepted
chunks fit the memory limit is their concatenation. -/
theorem C44_request_body_history (env : Env) (rs : RuleSet) (hrs : rs.KeepsBodies) (n : Nat) (ops : List Op) (t : Tx)
    (os : List Out) (tr : Trace) (hio : ∀ p io, .appendRequestBody p io ∈ ops → io = .none)
    (h : (newTransaction env.limits).steps env rs n ops = .ok (t, os, tr))
    (ha : env.limits.requestBodyAccess = true) (hm : t.method = b!"POST" ∨ t.method = b!"PUT" ∨ t.method = b!"PATCH")
    (hu : Spec.Urlencoded env.lib t) (hne : Spec.requestChunks ops os ≠ [])
    (hfit : ((Spec.requestChunks ops os).length : Int) ≤ env.limits.requestBodyInMem) :
    ∃ t', Var.requestBody.fetch env t = .ok ([Spec.requestChunks ops os], t') ∧ t'.abort = t.abort ∧ t'.interv = t.interv := by
  have hb := steps_req hrs hio (Buf.Acc.new env.limits.requestBodyInMem env.limits.requestBody) h
  rw [List.nil_append] at hb
  have hl : t.reqBody.len = (Spec.requestChunks ops os).length := hb.length
  have hn : t.reqBody.fileBuf = none := by
    refine Classical.byContradiction fun hc => ?_
    have := hb.file hc; omega
  have h1 := C44_request_body env t ⟨ha, hm, by rw [hl]; simpa using hne⟩ hu hn
  rw [hb.mem hn] at h1
  exact ⟨t.readReq, h1, rfl, rfl⟩

/-- C45 along a transaction: if the accepted chunks exceed the memory limit, reading
the body rejects the transaction. -/
theorem C45_history (env : Env) (rs : RuleSet) (hrs : rs.KeepsBodies) (n : Nat) (ops : List Op) (t : Tx)
    (os : List Out) (tr : Trace) (hio : ∀ p io, .appendRequestBody p io ∈ ops → io = .none)
    (h : (newTransaction env.limits).steps env rs n ops = .ok (t, os, tr)) (h0 : 0 ≤ env.limits.requestBodyInMem)
    (ha : env.limits.requestBodyAccess = true) (hm : t.method = b!"POST" ∨ t.method = b!"PUT" ∨ t.method = b!"PATCH")
    (hu : Spec.Urlencoded env.lib t)
    (hbig : env.limits.requestBodyInMem < (Spec.requestChunks ops os).length) : Spec.Oversize env t := by
  have hb := steps_req hrs hio (Buf.Acc.new env.limits.requestBodyInMem env.limits.requestBody) h
  rw [List.nil_append] at hb
  have hl : t.reqBody.len = (Spec.requestChunks ops os).length := hb.length
  refine ⟨⟨ha, hm, by omega⟩, hu, ?_⟩
  intro hn
  have hlim : Buf.Lim env.limits.requestBodyInMem env.limits.requestBody t.reqBody := by
    have : TxInv env rs (fun u => Buf.Lim env.limits.requestBodyInMem env.limits.requestBody u.reqBody) Action.KeepsBodies
        (fun _ => True) := {
      touch := fun _ h => h
      cur := fun _ _ _ _ h => h
      fetch := fun _ _ h hf => h.same hf.req
      prim := fun a hb ha n t t' h hr => by rw [(Action.keepsBodies_run hb ha hr).1]; exact h
      default := hrs.2
      act := hrs.1
      input := fun _ _ _ _ _ _ _ _ _ _ _ _ h => h
      req := fun t p io b k e _ h hw => h.step (Buf.step_of_write hw)
      resp := fun _ _ _ _ _ _ _ h _ => h
      verdict := fun op hv _ n t t' o tr h hs => by rw [(verdictOp_bodies hv hs).1]; exact h }
    exact this.steps (fun _ _ => trivial) (.new _ _) h
  have := hlim.mem hn
  have h2 : t.reqBody.length = (Spec.requestChunks ops os).length := hb.length
  omega

example : (rules [(3, always [.deny, .log])]).KeepsBodies := by
  refine ⟨?_, by intro a ha; simp [rules, RuleSet.addRules, RuleSet.addRule] at ha; split at ha <;> simp at ha⟩
  intro p r hr a ha
  simp only [rules, RuleSet.addRules, RuleSet.addRule, List.map_cons, List.map_nil, List.foldl_cons, List.foldl_nil] at hr
  rw [if_neg (by decide)] at hr
  dsimp only at hr
  split at hr
  · simp at hr; subst hr
    simp [Rule.allActions, always] at ha
    rcases ha with rfl | rfl <;> trivial
  · simp at hr

/-- Two accepted chunks and one that is refused. -/
example : ∃ t os tr, run (rules []) [.appendResponseBody b!"ab" .none, .appendResponseBody b!"0123456789" .none,
      .appendResponseBody b!"cd" .none] = .ok (t, os, tr) ∧ Spec.responseChunks [.appendResponseBody b!"ab" .none,
      .appendResponseBody b!"0123456789" .none, .appendResponseBody b!"cd" .none] os = b!"abcd" :=
  ⟨_, _, _, rfl, by decide⟩

end Verif
