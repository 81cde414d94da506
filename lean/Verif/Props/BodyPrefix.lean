import Verif.Props.BodyTx
/-! C72: is the inspected body what was sent, at least up to some point? -/
namespace Verif
open Sample

/-- The chunk of response (`true`) or request (`false`) body carried by a call. -/
def Spec.chunkOf : Bool → Op → Option Bytes
  | true, .appendResponseBody p _ => some p
  | false, .appendRequestBody p _ => some p
  | _, _ => none

/-- The body as sent: all chunks, accepted or not. -/
def Spec.sent (resp : Bool) (ops : List Op) : Bytes := ops.flatMap fun op => (chunkOf resp op).getD []

/-- The chunks that were not refused. -/
def Spec.keptChunks (resp : Bool) (ops : List Op) (os : List Out) : Bytes :=
  (ops.zip os).flatMap fun x => if x.2 = .error none then (chunkOf resp x.1).getD [] else []

/-- No chunk is accepted once one has been refused. -/
def Spec.NoGap (resp : Bool) : List Op → List Out → Prop
  | op :: ops, o :: os =>
    ((chunkOf resp op).isSome = true → o ≠ .error none → keptChunks resp ops os = []) ∧ NoGap resp ops os
  | _, _ => True

theorem keptChunks_resp : ∀ (ops : List Op) (os : List Out), Spec.responseChunks ops os = Spec.keptChunks true ops os
  | [], os => by cases os <;> rfl
  | op :: ops, [] => by cases op <;> rfl
  | op :: ops, o :: os => by
    have ih := keptChunks_resp ops os
    have e : Spec.keptChunks true (op :: ops) (o :: os) =
        (if o = .error none then (Spec.chunkOf true op).getD [] else []) ++ Spec.keptChunks true ops os := rfl
    rw [e, ← ih]
    by_cases hop : ∃ p io, op = .appendResponseBody p io
    · obtain ⟨p, io, rfl⟩ := hop
      by_cases ho : o = .error none
      · subst ho; simp [Spec.responseChunks, Spec.chunkOf]
      · rw [if_neg ho, List.nil_append]
        rw [Spec.responseChunks.eq_def]
        split
        · next h1 h2 => cases h1; cases h2; exact absurd rfl ho
        · next h1 h2 => cases h1; cases h2; rfl
        · next h1 h2 => exact absurd rfl (h2 _ _ _ _ rfl)
    · rw [responseChunks_other (fun p io he => hop ⟨p, io, he⟩)]
      have : Spec.chunkOf true op = none := by
        cases op <;> first | rfl | exact absurd ⟨_, _, rfl⟩ hop
      simp [this]

theorem keptChunks_req : ∀ (ops : List Op) (os : List Out), Spec.requestChunks ops os = Spec.keptChunks false ops os
  | [], os => by cases os <;> rfl
  | op :: ops, [] => by cases op <;> rfl
  | op :: ops, o :: os => by
    have ih := keptChunks_req ops os
    have e : Spec.keptChunks false (op :: ops) (o :: os) =
        (if o = .error none then (Spec.chunkOf false op).getD [] else []) ++ Spec.keptChunks false ops os := rfl
    rw [e, ← ih]
    by_cases hop : ∃ p io, op = .appendRequestBody p io
    · obtain ⟨p, io, rfl⟩ := hop
      by_cases ho : o = .error none
      · subst ho; simp [Spec.requestChunks, Spec.chunkOf]
      · rw [if_neg ho, List.nil_append]
        rw [Spec.requestChunks.eq_def]
        split
        · next h1 h2 => cases h1; cases h2; exact absurd rfl ho
        · next h1 h2 => cases h1; cases h2; rfl
        · next h1 h2 => exact absurd rfl (h2 _ _ _ _ rfl)
    · rw [requestChunks_other (fun p io he => hop ⟨p, io, he⟩)]
      have : Spec.chunkOf false op = none := by
        cases op <;> first | rfl | exact absurd ⟨_, _, rfl⟩ hop
      simp [this]

theorem keptChunks_cons (r : Bool) (op : Op) (ops : List Op) (o : Out) (os : List Out) :
    Spec.keptChunks r (op :: ops) (o :: os) =
      (if o = .error none then (Spec.chunkOf r op).getD [] else []) ++ Spec.keptChunks r ops os := rfl

theorem sent_cons (r : Bool) (op : Op) (ops : List Op) :
    Spec.sent r (op :: ops) = (Spec.chunkOf r op).getD [] ++ Spec.sent r ops := rfl

/-- The accepted chunks are a subsequence of what was sent. -/
theorem keptChunks_sublist (r : Bool) : ∀ (ops : List Op) (os : List Out), (Spec.keptChunks r ops os).Sublist (Spec.sent r ops)
  | [], os => by cases os <;> exact List.nil_sublist _
  | op :: ops, [] => List.nil_sublist _
  | op :: ops, o :: os => by
    rw [keptChunks_cons, sent_cons]
    refine List.Sublist.append ?_ (keptChunks_sublist r ops os)
    split
    · exact List.Sublist.refl _
    · exact List.nil_sublist _

/-- Without a gap they are a prefix. -/
theorem keptChunks_prefix (r : Bool) : ∀ (ops : List Op) (os : List Out), Spec.NoGap r ops os → Spec.keptChunks r ops os <+: Spec.sent r ops
  | [], os, _ => by cases os <;> exact List.nil_prefix
  | op :: ops, [], _ => List.nil_prefix
  | op :: ops, o :: os, h => by
    rw [keptChunks_cons, sent_cons]
    by_cases ho : o = .error none
    · rw [if_pos ho]
      exact (List.prefix_append_right_inj _).2 (keptChunks_prefix r ops os h.2)
    · rw [if_neg ho, List.nil_append]
      cases hc : Spec.chunkOf r op with
      | none => exact keptChunks_prefix r ops os h.2
      | some p =>
        rw [h.1 (by rw [hc]; rfl) ho]
        exact List.nil_prefix

/-- C72, the full claim: what RESPONSE_BODY shows is a prefix of the body sent. -/
def C72_statement : Prop :=
  ∀ (env : Env) (rs : RuleSet) (n : Nat) (ops : List Op) (t t' : Tx) (os : List Out) (tr : Trace) (v : Bytes), rs.KeepsBodies →
    (newTransaction env.limits).steps env rs n ops = .ok (t, os, tr) → Var.responseBody.fetch env t = .ok ([v], t') →
    v <+: Spec.sent true ops

theorem response_value {env : Env} {rs : RuleSet} {n : Nat} {ops : List Op} {t t' : Tx} {os : List Out} {tr : Trace} {v : Bytes}
    (hrs : rs.KeepsBodies) (h : (newTransaction env.limits).steps env rs n ops = .ok (t, os, tr))
    (hv : Var.responseBody.fetch env t = .ok ([v], t')) : v = Spec.keptChunks true ops os := by
  obtain ⟨t2, h2, _⟩ := C20_response_body env rs hrs n ops t os tr h
  rw [h2, Res.ok.injEq, Prod.mk.injEq] at hv
  rw [← keptChunks_resp]
  split at hv
  · exact (List.cons.inj hv.1).1.symm
  · cases hv.1

/-- C72, what is true: the inspected body is a subsequence of what was sent, and a
prefix as long as no chunk is accepted after a refused one. -/
theorem C72_prefix_partial {env : Env} {rs : RuleSet} {n : Nat} {ops : List Op} {t t' : Tx} {os : List Out} {tr : Trace} {v : Bytes}
    (hrs : rs.KeepsBodies) (h : (newTransaction env.limits).steps env rs n ops = .ok (t, os, tr))
    (hv : Var.responseBody.fetch env t = .ok ([v], t')) :
    v.Sublist (Spec.sent true ops) ∧ (Spec.NoGap true ops os → v <+: Spec.sent true ops) := by
  rw [response_value hrs h hv]
  exact ⟨keptChunks_sublist _ _ _, keptChunks_prefix _ _ _⟩

/-- C72: a response body within the limit is inspected whole. -/
theorem C72_within_limit {env : Env} {rs : RuleSet} {n : Nat} {ops : List Op} {t : Tx} {os : List Out} {tr : Trace}
    (hrs : rs.KeepsBodies) (h : (newTransaction env.limits).steps env rs n ops = .ok (t, os, tr))
    (hfit : ((Spec.sent true ops).length : Int) ≤ env.limits.responseBody) (hne : Spec.sent true ops ≠ [])
    (ha : env.limits.responseBodyAccess = true) :
    ∃ t', Var.responseBody.fetch env t = .ok ([Spec.sent true ops], t') := by
  have key : ∀ (ops : List Op) (u : Tx) (acc : Bytes) (os : List Out) (tr : Trace), u.respBody.Holds env.limits.responseBody acc →
      u.steps env rs n ops = .ok (t, os, tr) → (acc.length : Int) + (Spec.sent true ops).length ≤ env.limits.responseBody →
      Spec.keptChunks true ops os = Spec.sent true ops := by
    intro ops
    induction ops with
    | nil => intro u acc os tr _ _ _; cases os <;> rfl
    | cons op ops ih =>
      intro u acc os tr hb h hle
      obtain ⟨t1, o, tr1, os2, tr2, h1, h2, rfl, rfl⟩ := steps_cons h
      rw [keptChunks_cons]
      rw [sent_cons] at hle ⊢
      by_cases hop : ∃ p io, op = .appendResponseBody p io
      · obtain ⟨p, io, rfl⟩ := hop
        obtain ⟨k, e, hw, rfl, _⟩ := step_append_resp h1
        have hc : (Spec.chunkOf true (.appendResponseBody p io)).getD [] = p := rfl
        rw [hc] at hle ⊢
        simp only [List.length_append, Int.natCast_add] at hle
        have he : e = none := by
          have h1 := hb.length; have h2 := hb.memLimit; have h3 := hb.fileLimit
          refine Buf.write_cases u.respBody p io hb.readed ?_ ?_ ?_ ?_ ?_ ?_ ?_
          · intro hgt; omega
          · intro _ _ _ _ hw'; rw [hw'] at hw; cases hw
          · intro _ _ _ _; omega
          · intro _ _ _ _ _ _; omega
          · intro _ _ _ _ _ _ _; omega
          · intro hle _ _ hw'; rw [hw'] at hw
            obtain ⟨_, _, rfl⟩ : _ ∧ _ ∧ none = e := by simpa using hw
            rfl
          · intro f0 _ _ _ _ hf0; rw [hb.fileBuf] at hf0; cases hf0
        subst he
        rw [if_pos rfl, ih t1 (acc ++ p) os2 tr2 (by simpa using hb.write hw) h2 (by simp only [List.length_append, Int.natCast_add]; omega)]
      · have hop' : ∀ p io, op ≠ .appendResponseBody p io := fun p io he => hop ⟨p, io, he⟩
        have hc : Spec.chunkOf true op = none := by
          cases op <;> first | rfl | exact absurd ⟨_, _, rfl⟩ hop
        simp only [hc, Option.getD_none, List.nil_append, ite_self] at hle ⊢
        exact ih t1 acc os2 tr2 (hb.same ((respBody_inv env hrs u.respBody).step hop' (.refl _) h1)) h2 hle
  have e := key ops _ [] os tr ⟨rfl, rfl, rfl, rfl, rfl, rfl⟩ h (by simpa using hfit)
  obtain ⟨t2, h2, _⟩ := C20_response_body env rs hrs n ops t os tr h
  refine ⟨t2, ?_⟩
  rw [h2, keptChunks_resp, e, if_pos ⟨ha, hne⟩]

/-- C72 for request bodies: REQUEST_BODY of an urlencoded request shows a subsequence
of what was sent, a prefix as long as no chunk is accepted after a refused one. -/
theorem C72_request_partial {env : Env} {rs : RuleSet} {n : Nat} {ops : List Op} {t : Tx} {os : List Out} {tr : Trace}
    (hrs : rs.KeepsBodies) (hio : ∀ p io, .appendRequestBody p io ∈ ops → io = .none)
    (h : (newTransaction env.limits).steps env rs n ops = .ok (t, os, tr))
    (ha : env.limits.requestBodyAccess = true) (hm : t.method = b!"POST" ∨ t.method = b!"PUT" ∨ t.method = b!"PATCH")
    (hu : Spec.Urlencoded env.lib t) (hne : Spec.requestChunks ops os ≠ [])
    (hfit : ((Spec.requestChunks ops os).length : Int) ≤ env.limits.requestBodyInMem) :
    ∃ v t', Var.requestBody.fetch env t = .ok ([v], t') ∧ v.Sublist (Spec.sent false ops) ∧
      (Spec.NoGap false ops os → v <+: Spec.sent false ops) := by
  obtain ⟨t', h', _⟩ := C44_request_body_history env rs hrs n ops t os tr hio h ha hm hu hne hfit
  refine ⟨_, t', h', ?_⟩
  rw [keptChunks_req]
  exact ⟨keptChunks_sublist _ _ _, keptChunks_prefix _ _ _⟩

/-- A sender whose chunks are cut to fit slips a piece past inspection: a chunk too big
is refused, the following one is inspected. -/
theorem C72_refuted : ¬ C72_statement := by
  intro h
  have hk : (rules []).KeepsBodies := ⟨by intro p r hr; simp [rules, RuleSet.addRules] at hr, by intro a ha; simp [rules, RuleSet.addRules] at ha⟩
  have := h env (rules []) 20 [.appendResponseBody b!"0123456789" .none, .appendResponseBody b!"cd" .none] _ _ _ _ b!"cd" hk rfl rfl
  revert this
  decide +kernel

/-- Chunks within the limit. -/
example : Spec.sent true [.appendResponseBody b!"ab" .none, .processResponseBody, .appendResponseBody b!"cd" .none] = b!"abcd" := by
  decide +kernel

end Verif
