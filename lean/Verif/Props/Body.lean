import Verif.Proofs.Body
import Verif.Props.Sample
/-! C44–C47: the variables that read the request body. -/
namespace Verif
open Sample

/-! ### C44 -/

/-- C44: when the body may not be read, the variables that read it yield nothing
and leave the transaction alone (ARGS and ARGS_NAMES yield their query part). -/
theorem C44_gate (env : Env) (t : Tx) (h : ¬ Spec.BodyReadable env.limits t) :
    Var.requestBody.fetch env t = .ok ([], t) ∧
    (∀ f, (Var.argsPost f).fetch env t = .ok ([], t)) ∧
    (∀ f, (Var.argsPostNames f).fetch env t = .ok ([], t)) ∧
    (∀ g f, (Var.args g f).fetch env t = (Var.argsGet g).fetch env t) ∧
    (∀ g f, (Var.argsNames g f).fetch env t = (Var.argsGetNames g).fetch env t) := by
  have hp := requestBodyParse_closed h
  refine ⟨?_, ?_, ?_, ?_, ?_⟩
  · simp only [Var.fetch, fetchRequestBody]
    split
    · rfl
    · rename_i hm
      rw [if_pos]
      rcases hb : (!env.limits.requestBodyAccess || t.reqBody.len == 0) with _ | _
      · exfalso
        simp only [Bool.or_eq_false_iff, Bool.not_eq_false', beq_eq_false_iff_ne] at hb
        exact h ⟨hb.1, (hasBodyMethod_iff _).1 (by simpa using hm), hb.2⟩
      · rfl
  all_goals intros; simp [Var.fetch, fetchArgsPost, fetchArgsPostNames, hp]

/-- C44: the content type is checked as well: REQUEST_BODY needs an urlencoded
body, ARGS_POST and ARGS_POST_NAMES a form. -/
theorem C44_content_type (env : Env) (t : Tx) :
    (¬ Spec.Urlencoded env.lib t → Var.requestBody.fetch env t = .ok ([], t)) ∧
    (¬ Spec.FormBody env.lib t →
      (∀ f, (Var.argsPost f).fetch env t = .ok ([], t)) ∧ (∀ f, (Var.argsPostNames f).fetch env t = .ok ([], t)) ∧
      (∀ g f, (Var.args g f).fetch env t = (Var.argsGet g).fetch env t) ∧
      (∀ g f, (Var.argsNames g f).fetch env t = (Var.argsGetNames g).fetch env t)) := by
  constructor
  · intro h
    simp only [Var.fetch, fetchRequestBody]
    split
    · rfl
    split
    · rfl
    split
    · rfl
    · rename_i hc
      rw [if_pos]
      intro he
      exact h ⟨hc, by simp only [Spec.mediaType, if_neg hc]; exact he⟩
  · intro h
    have hp : requestBodyParse env t = .ok (t, none, .nil) := by
      by_cases hg : Spec.BodyReadable env.limits t
      · rw [requestBodyParse_open hg]
        exact loop_other (fun h1 => h (.inl h1)) (fun h1 => h (.inr h1))
      · exact requestBodyParse_closed hg
    refine ⟨?_, ?_, ?_, ?_⟩ <;> intros <;> simp [Var.fetch, fetchArgsPost, fetchArgsPostNames, hp]

/-- C44, the other direction: a readable urlencoded body held in memory is the
value of REQUEST_BODY. -/
theorem C44_request_body (env : Env) (t : Tx) (h : Spec.BodyReadable env.limits t) (hu : Spec.Urlencoded env.lib t)
    (hm : t.reqBody.fileBuf = none) :
    Var.requestBody.fetch env t = .ok ([t.reqBody.memBuf], t.readReq) := by
  obtain ⟨h1, h2, h3⟩ := h
  obtain ⟨h4, h5⟩ := hu
  have h3' : (t.reqBody.len == 0) = false := by simpa using h3
  simp only [Spec.mediaType, if_neg h4] at h5
  have e : t.reqBody.string = (t.reqBody.string.1, t.reqBody.string.2) := rfl
  rw [string_mem hm] at e
  simp only [Var.fetch, fetchRequestBody, (hasBodyMethod_iff _).2 h2, h1, h3', h4, h5]
  rw [e]
  simp only [Tx.readReq, Bool.not_true, Bool.or_self, Bool.false_eq_true, if_false, ne_eq, not_true_eq_false]

/-- C44, the other direction: the arguments of a readable, well-formed urlencoded
body not parsed before are what the library parses it into, selected by the filter. -/
theorem C44_args_post (env : Env) (t : Tx) (h : Spec.BodyReadable env.limits t)
    (hu : b!"application/x-www-form-urlencoded" <+: Spec.mediaType env.lib t) (hm : t.reqBody.fileBuf = none)
    (hc : t.cache.lookup .urlencoded = none) (hq : (env.lib.parseQuery t.reqBody.memBuf).2 = none) (f : Filter) :
    ∃ t', (Var.argsPost f).fetch env t = .ok (f.fetch env.ord (env.lib.parseQuery t.reqBody.memBuf).1, t') ∧
      (Var.argsPostNames f).fetch env t = .ok (f.names env.ord (env.lib.parseQuery t.reqBody.memBuf).1, t') := by
  refine ⟨t.readReq.setCache .urlencoded (.values (env.lib.parseQuery t.reqBody.memBuf).1), ?_⟩
  simp [Var.fetch, fetchArgsPost, fetchArgsPostNames, requestBodyParse_open h, loop_url_ok hu hc hm hq]

/-- An urlencoded POST request with the given body. -/
def Sample.post (body : Bytes) : Tx :=
  { newTransaction limits with
    method := b!"POST", reqHeader := some [(b!"Content-Type", [b!"application/x-www-form-urlencoded"])]
    reqBody := { newBuffer 8 16 with memBuf := body, length := body.length } }

example : ¬ Spec.BodyReadable limits { post b!"a=b" with method := b!"GET" } := by
  rintro ⟨_, h, _⟩; revert h; decide
example : Spec.BodyReadable limits (post b!"a=b") ∧ Spec.Urlencoded lib (post b!"a=b") ∧
    ¬ Spec.FormBody lib { post b!"a=b" with reqHeader := none } := by
  refine ⟨⟨rfl, .inl rfl, by decide⟩, ⟨by decide, rfl⟩, ?_⟩
  simp only [Spec.FormBody, ← List.isPrefixOf_iff_prefix]; decide
example : (Var.argsPost {}).fetch env (post b!"a=b") = .ok ([b!"a=b"],
    (post b!"a=b").readReq.setCache .urlencoded (.values [(b!"q", [b!"a=b"])])) := rfl

/-! ### C45 -/

/-- The request body is urlencoded, may be read, and has outgrown the memory limit. -/
structure Spec.Oversize (env : Env) (t : Tx) : Prop where
  readable : Spec.BodyReadable env.limits t
  type : Spec.Urlencoded env.lib t
  spilled : t.reqBody.fileBuf ≠ none

/-- Rejected: aborted with a disruptive 413 (500 only if the response body, too,
has outgrown its limit - which the engine's own limits exclude). -/
def Spec.Rejected (resp : Buf) (t : Tx) : Prop :=
  t.abort = true ∧ t.intervention.disruptive = true ∧
    (t.intervention.status = 413 ∨ (t.intervention.status = 500 ∧ resp.fileBuf.isSome = true))

theorem Fetched.url {t t' : Tx} (h : Fetched t t') : t'.url = t.url := by rw [h.same]
theorem Fetched.method {t t' : Tx} (h : Fetched t t') : t'.method = t.method := by rw [h.same]
theorem Fetched.reqHeader {t t' : Tx} (h : Fetched t t') : t'.reqHeader = t.reqHeader := by rw [h.same]

theorem Fetched.readable {l : Limits} {t t' : Tx} (h : Fetched t t') :
    Spec.BodyReadable l t' ↔ Spec.BodyReadable l t := by
  simp only [Spec.BodyReadable, h.method, Buf.len, h.req.length]

theorem Fetched.mediaType {lib : Lib} {t t' : Tx} (h : Fetched t t') : Spec.mediaType lib t' = Spec.mediaType lib t := by
  simp only [Spec.mediaType, h.reqHeader]

theorem Fetched.oversize {env : Env} {t t' : Tx} (h : Fetched t t') (ho : Spec.Oversize env t) : Spec.Oversize env t' :=
  ⟨h.readable.2 ho.readable, by
    have := ho.type
    simpa only [Spec.Urlencoded, h.mediaType, h.reqHeader] using this,
   fun e => ho.spilled (h.req.none.1 e)⟩

theorem Fetched.rejected {t t' : Tx} {b : Buf} (h : Fetched t t') (hb : t.respBody.fileBuf.isSome = b.fileBuf.isSome)
    (hr : Spec.Rejected b t) : Spec.Rejected b t' := by
  rcases h.verdict with ⟨h1, h2⟩ | h
  · simpa only [Spec.Rejected, Tx.intervention, h1, h2] using hr
  · rw [hb] at h; exact h

theorem rejected_abort (t : Tx) (b : Buf) (e : Err) : Spec.Rejected b (t.abortWithError 413 e) := by
  refine ⟨rfl, ?_, .inl ?_⟩ <;> simp [Tx.abortWithError, Tx.log, Tx.setIntervention, Tx.intervention]

theorem oversize_parse {env : Env} {t : Tx} (h : Spec.Oversize env t) (hc : t.cache.lookup .urlencoded = none) (b : Buf) :
    ∃ t', requestBodyParse env t = .ok (t', none, .nil) ∧ Spec.Rejected b t' := by
  rw [requestBodyParse_open h.readable, loop_url_spilled (by rw [h.type.2]; exact ⟨[], by simp⟩) hc h.spilled]
  exact ⟨_, rfl, rejected_abort t.readReq b _⟩

theorem oversize_requestBody {env : Env} {t : Tx} (h : Spec.Oversize env t) (b : Buf) :
    Spec.Rejected b (fetchRequestBody env t).2 := by
  obtain ⟨⟨h1, h2, h3⟩, ⟨h4, h5⟩, h6⟩ := h
  have h3' : (t.reqBody.len == 0) = false := by simpa using h3
  simp only [Spec.mediaType, if_neg h4] at h5
  have e : t.reqBody.string = (t.reqBody.string.1, t.reqBody.string.2) := rfl
  rw [string_spilled h6] at e
  have key : fetchRequestBody env t = ([], t.readReq.abortWithError 413 errOutOfMemLimit) := by
    simp only [fetchRequestBody, (hasBodyMethod_iff _).2 h2, h1, h3', h4, h5]
    rw [e]
    simp only [Tx.readReq, Bool.not_true, Bool.or_self, Bool.false_eq_true, if_false, ne_eq, not_true_eq_false]
  rw [key]
  exact rejected_abort _ _ _

/-- The body was not parsed yet, or the transaction was rejected. -/
def Spec.Pending (b : Buf) (t : Tx) : Prop :=
  t.respBody.fileBuf.isSome = b.fileBuf.isSome ∧ (t.cache.lookup .urlencoded = none ∨ Spec.Rejected b t)

theorem oversize_fetch {env : Env} {b : Buf} : ∀ {v : Var} {t t' : Tx} {vs : List Bytes}, Spec.Oversize env t →
    Spec.Pending b t → v.fetch env t = .ok (vs, t') →
    Spec.Pending b t' ∧ (v.readsBody = true → Spec.Rejected b t') := by
  have reject : ∀ {t t' : Tx}, Spec.Pending b t → Fetched t t' → Spec.Rejected b t' →
      Spec.Pending b t' ∧ (true = true → Spec.Rejected b t') :=
    fun hp hf hr => ⟨⟨hf.resp.spilled.trans hp.1, .inr hr⟩, fun _ => hr⟩
  have post : ∀ {t t' : Tx} {tp : Option BodyType} {r : Parsed}, Spec.Oversize env t → Spec.Pending b t →
      requestBodyParse env t = .ok (t', tp, r) → Spec.Rejected b t' := by
    intro t t' tp r ho hp h
    rcases hp.2 with hc | hr
    · obtain ⟨t2, h2, h3⟩ := oversize_parse ho hc b
      rw [h2] at h; cases h; exact h3
    · exact (requestBodyParse_fetched h).rejected hp.1 hr
  have args : ∀ {f : Filter} {t t' : Tx} {vs : List Bytes}, Spec.Oversize env t → Spec.Pending b t →
      fetchArgsPost env f t = .ok (vs, t') → Spec.Rejected b t' := by
    intro f t t' vs ho hp h
    obtain ⟨⟨t1, tp, r⟩, h1, h2⟩ := Res.bind_eq_ok.1 h
    have := post ho hp h1
    simp only at h2
    split at h2
    all_goals first | (simp only [Res.ok.injEq, Prod.mk.injEq] at h2; rw [← h2.2]; exact this) | cases h2
  have names : ∀ {f : Filter} {t t' : Tx} {vs : List Bytes}, Spec.Oversize env t → Spec.Pending b t →
      fetchArgsPostNames env f t = .ok (vs, t') → Spec.Rejected b t' := by
    intro f t t' vs ho hp h
    obtain ⟨⟨t1, tp, r⟩, h1, h2⟩ := Res.bind_eq_ok.1 h
    have := post ho hp h1
    simp only at h2
    split at h2
    all_goals first | (simp only [Res.ok.injEq, Prod.mk.injEq] at h2; rw [← h2.2]; exact this) | cases h2
  intro v
  induction v with
  | args g p =>
    intro t t' vs ho hp h
    have hf := Var.fetch_fetched h
    simp only [Var.fetch] at h
    obtain ⟨⟨x, t1⟩, h1, h2⟩ := Res.bind_eq_ok.1 h
    cases h2; exact reject hp hf (args ho hp h1)
  | argsNames g p =>
    intro t t' vs ho hp h
    have hf := Var.fetch_fetched h
    simp only [Var.fetch] at h
    obtain ⟨⟨x, t1⟩, h1, h2⟩ := Res.bind_eq_ok.1 h
    cases h2; exact reject hp hf (names ho hp h1)
  | argsPost f =>
    intro t t' vs ho hp h
    exact reject hp (Var.fetch_fetched h) (args ho hp h)
  | argsPostNames f =>
    intro t t' vs ho hp h
    exact reject hp (Var.fetch_fetched h) (names ho hp h)
  | requestBody =>
    intro t t' vs ho hp h
    have hf := Var.fetch_fetched h
    simp only [Var.fetch, Res.ok.injEq] at h
    have := oversize_requestBody ho b
    rw [h] at this; exact reject hp hf this
  | responseBody =>
    intro t t' vs ho hp h
    refine ⟨⟨(Var.fetch_fetched h).resp.spilled.trans hp.1, ?_⟩, fun h => by cases h⟩
    rcases hp.2 with hc | hr
    · refine .inl ?_
      simp only [Var.fetch, Res.ok.injEq, fetchResponseBody] at h
      split at h
      · cases h; exact hc
      split at h
      · cases h; exact hc
      · cases h; exact hc
    · exact .inr ((Var.fetch_fetched h).rejected hp.1 hr)
  | count v ih =>
    intro t t' vs ho hp h
    simp only [Var.fetch] at h
    obtain ⟨⟨x, t1⟩, h1, h2⟩ := Res.bind_eq_ok.1 h
    cases h2; exact ih ho hp h1
  | _ =>
    intro t t' vs ho hp h
    simp only [Var.fetch, Res.ok.injEq, Prod.mk.injEq] at h
    rw [← h.2]; exact ⟨hp, fun h => by cases h⟩

theorem oversize_fetchVars {env : Env} {b : Buf} {r : Rule} : ∀ {vars : List Var} {t t' : Tx} {vs : List Bytes},
    Spec.Oversize env t → Spec.Pending b t → fetchVars env r vars t = .ok (vs, t') →
    Spec.Pending b t' ∧ ((∃ v ∈ vars, v.readsBody = true) ∨ Spec.Rejected b t → Spec.Rejected b t') := by
  intro vars
  induction vars with
  | nil =>
    intro t t' vs _ hp h
    simp only [fetchVars] at h; cases h
    exact ⟨hp, fun h => h.elim (by rintro ⟨v, hv, _⟩; cases hv) id⟩
  | cons v vars ih =>
    intro t t' vs ho hp h
    simp only [fetchVars, Rule.transformVariable] at h
    obtain ⟨⟨x, t1⟩, h1, h2⟩ := Res.bind_eq_ok.1 h
    obtain ⟨⟨x', t1'⟩, h3, h4⟩ := Res.bind_eq_ok.1 h1
    cases h4
    obtain ⟨⟨y, t2⟩, h5, h6⟩ := Res.bind_eq_ok.1 h2
    cases h6
    obtain ⟨k1, k2⟩ := oversize_fetch ho hp h3
    have hf := Var.fetch_fetched h3
    obtain ⟨k3, k4⟩ := ih (hf.oversize ho) k1 h5
    refine ⟨k3, ?_⟩
    rintro (⟨w, hw, hb⟩ | hr)
    · rcases List.mem_cons.1 hw with rfl | hw
      · exact k4 (.inr (k2 hb))
      · exact k4 (.inl ⟨w, hw, hb⟩)
    · exact k4 (.inr (hf.rejected hp.1 hr))

/-- C45: evaluating a rule that has a request body variable on a request whose
urlencoded body has outgrown the memory limit (and was not parsed before): the
rule does not match - negated or not - and the transaction is aborted with 413. -/
theorem C45_rejected (env : Env) (r : Rule) (t t' : Tx) (b : Bool) (ho : Spec.Oversize env t)
    (hc : t.cache.lookup .urlencoded = none) (hv : ∃ v ∈ r.vars, v.readsBody = true)
    (hresp : t.respBody.fileBuf = none) (h : r.matches env t = .ok (b, t')) :
    b = false ∧ t'.abort = true ∧ t'.intervention.disruptive = true ∧ t'.intervention.status = 413 := by
  obtain ⟨⟨vals, t1⟩, h1, h2⟩ := Res.bind_eq_ok.1 h
  obtain ⟨b', h3, h4⟩ := Res.bind_eq_ok.1 h2
  simp only [Res.ok.injEq, Prod.mk.injEq] at h4
  obtain ⟨rfl, rfl⟩ := h4
  obtain ⟨_, k⟩ := oversize_fetchVars (b := t.respBody) ho ⟨rfl, .inl hc⟩ h1
  obtain ⟨k1, k2, k3⟩ := k (.inl hv)
  rw [matchLoop_abort k1] at h3
  cases h3
  refine ⟨rfl, k1, k2, ?_⟩
  rcases k3 with k3 | ⟨_, k3⟩
  · exact k3
  · rw [hresp] at k3; cases k3

/-- C45: no action of such a rule is executed. -/
theorem C45_no_action (env : Env) (rs : RuleSet) (n : Nat) (r : Rule) (t t' : Tx) (ho : Spec.Oversize env t)
    (hc : t.cache.lookup .urlencoded = none) (hv : ∃ v ∈ r.vars, v.readsBody = true)
    (hresp : t.respBody.fileBuf = none) (h : r.run env rs n t = .ok t') :
    r.matches env t = .ok (false, t') ∧ t'.abort = true ∧ t'.intervention.disruptive = true ∧
      t'.intervention.status = 413 := by
  obtain ⟨⟨b, t1⟩, g1, g2⟩ := Res.bind_eq_ok.1 h
  have k := C45_rejected env r t t1 b ho hc hv hresp g1
  obtain ⟨rfl, k⟩ := k
  simp at g2
  subst g2
  exact ⟨g1, k⟩

theorem dropLast_or_last {α : Type u} {l : List α} {x : α} (h : x ∈ l) : x ∈ l.dropLast ∨ l.getLast? = some x := by
  have hne : l ≠ [] := List.ne_nil_of_mem h
  rw [← List.dropLast_concat_getLast hne] at h
  rcases List.mem_append.1 h with h | h
  · exact .inl h
  · exact .inr (by rw [List.getLast?_eq_some_getLast hne]; simp at h; rw [h])

theorem Evaluated.last {env : Env} {rs : RuleSet} {p : Int} {t s : Tx} {es : List Ev} {e : Ev}
    (h : Evaluated env rs p t es s) (he : es.getLast? = some e) : e.after = s := by
  induction h with
  | nil => simp at he
  | @cons t e' es t' _ h2 ih =>
    cases es with
    | nil => cases h2; simp at he; rw [he]
    | cons e2 es => rw [List.getLast?_cons_cons] at he; exact ih he

theorem Evaluated.ran {env : Env} {rs : RuleSet} {p : Int} {t s : Tx} {es : List Ev} (h : Evaluated env rs p t es s) :
    ∀ e ∈ es, ∃ m, e.rule.run env rs m e.before = .ok e.after := by
  induction h with
  | nil => intro e he; cases he
  | cons hv _ ih =>
    intro e he
    rcases List.mem_cons.1 he with rfl | he
    · exact hv.run
    · exact ih e he

/-- C45: the phase stops there: such a rule is the last one evaluated, and the
transaction leaves the phase aborted with 413. -/
theorem C45_phase_stops (env : Env) (rs : RuleSet) (hrs : rs.Forward) (n : Nat) (p : Int) (h0 : 0 ≤ p) (h7 : p ≤ 7)
    (t t' : Tx) (tr : Trace) (hp : t.phase < p) (ha : t.abort = false) (h : processPhase env rs n p t = .ok (t', tr)) :
    ∃ es s, tr = evTrace p es ∧ PhaseRun env rs p 0 (t.jumpToPhase p) es s ∧ s.sansCursor = t'.sansCursor ∧
      ∀ e ∈ es, Spec.Oversize env e.before → e.before.cache.lookup .urlencoded = none →
        (∃ v ∈ e.rule.vars, v.readsBody = true) → e.before.respBody.fileBuf = none →
        es.getLast? = some e ∧ t'.abort = true ∧ t'.intervention.disruptive = true ∧ t'.intervention.status = 413 := by
  obtain ⟨es, s, h1, h2, h3, _⟩ := processPhase_run hrs h0 h7 hp ha h
  refine ⟨es, s, h1, h2, h3, ?_⟩
  intro e he ho hc hv hresp
  obtain ⟨hev, hd⟩ := h2.evaluated
  obtain ⟨m, hrun⟩ := hev.ran e he
  obtain ⟨_, k1, k2, k3⟩ := C45_no_action env rs m e.rule e.before e.after ho hc hv hresp hrun
  have hl : es.getLast? = some e := by
    refine (dropLast_or_last he).resolve_left fun hm => ?_
    rw [hd e hm] at k2; cases k2
  have hs : e.after = s := hev.last hl
  rw [hs] at k1 k2 k3
  refine ⟨hl, ?_, ?_, ?_⟩
  · rw [← sans_abort h3]; exact k1
  · rw [← sans_intervention h3]; exact k2
  · rw [← sans_intervention h3]; exact k3

/-- A body of 9 bytes with an 8-byte memory limit: the negated rule does not match,
and the deny rule after it is not evaluated. -/
def Sample.big : List Op :=
  [.processRequestURL none b!"POST" b!"HTTP/1.1",
   .processRequestHeader (some [(b!"Content-Type", [b!"application/x-www-form-urlencoded"])]),
   .appendRequestBody b!"a=1234567" .none, .processRequestBody, .result]

example : traceOf (run (rules [(3, { vars := [.requestMethod, .count (.argsPost {})], op := some any, not := true }),
    (3, always [.deny])]) big) = some [(3, 0)] := by decide
example : (txOf (run (rules [(3, { vars := [.requestMethod, .count (.argsPost {})], op := some any, not := true }),
    (3, always [.deny])]) big)).map (fun t => (t.intervention.status, t.abort)) = some (413, true) := by decide
example : ∃ t, txOf (run (rules []) big) = some t ∧ Spec.Oversize env t :=
  ⟨_, rfl, ⟨rfl, .inl rfl, by decide⟩, ⟨by decide, rfl⟩, by decide⟩

/-! ### C46 -/

/-- C46, the full claim: fetching ARGS_POST again gives the same values. -/
def C46_statement : Prop :=
  ∀ (env : Env) (f : Filter) (t t1 : Tx) (vs : List Bytes), (Var.argsPost f).fetch env t = .ok (vs, t1) →
    ∃ t2, (Var.argsPost f).fetch env t1 = .ok (vs, t2)

/-- The body is about to be parsed as urlencoded and is malformed. -/
structure Spec.Malformed (env : Env) (t : Tx) (e : Err) : Prop where
  readable : Spec.BodyReadable env.limits t
  type : b!"application/x-www-form-urlencoded" <+: Spec.mediaType env.lib t
  memory : t.reqBody.fileBuf = none
  fresh : t.cache.lookup .urlencoded = none
  bad : (env.lib.parseQuery t.reqBody.memBuf).2 = some e

theorem parse_again {env : Env} {t t1 : Tx} {tp : Option BodyType} {r : Parsed}
    (h : requestBodyParse env t = .ok (t1, tp, r)) (hgood : ∀ e, ¬ Spec.Malformed env t e) :
    requestBodyParse env t1 = .ok (t1, tp, r) ∨
      (tp = none ∧ r = .nil ∧ requestBodyParse env t1 = .ok (t1, some .multipart, .form none)) := by
  have hf := requestBodyParse_fetched h
  by_cases hr : Spec.BodyReadable env.limits t
  case neg =>
    rw [requestBodyParse_closed hr] at h
    cases h
    exact .inl (requestBodyParse_closed hr)
  rw [requestBodyParse_open hr] at h
  rw [requestBodyParse_open (hf.readable.2 hr), hf.mediaType]
  by_cases hu : b!"application/x-www-form-urlencoded" <+: Spec.mediaType env.lib t
  · cases hc : t.cache.lookup .urlencoded with
    | some r0 =>
      rw [loop_cached hu hc] at h
      cases h
      exact .inl (loop_cached hu hc)
    | none =>
      by_cases hm : t.reqBody.fileBuf = none
      · cases hq : (env.lib.parseQuery t.reqBody.memBuf).2 with
        | some e => exact absurd ⟨hr, hu, hm, hc, hq⟩ (hgood e)
        | none =>
          rw [loop_url_ok hu hc hm hq] at h
          cases h
          rw [loop_cached hu (setCache_same _ _ _)]
          exact .inl rfl
      · rw [loop_url_spilled hu hc hm] at h
        simp only [Res.ok.injEq, Prod.mk.injEq] at h
        obtain ⟨k1, rfl, rfl⟩ := h
        have hl : t1.cache.lookup .urlencoded = some .nil := by rw [← k1]; exact setCache_same _ _ _
        rw [loop_cached hu hl]
        exact .inl rfl
  · by_cases hm : b!"multipart/" <+: Spec.mediaType env.lib t
    · rw [loop_multi hm] at h
      cases hc : t.cache.lookup .multipart with
      | some r0 =>
        simp only [hc] at h
        cases h
        rw [loop_multi hm, hc]
        exact .inl rfl
      | none =>
        simp only [hc] at h
        split at h
        · rename_i m pos _
          simp only [Res.ok.injEq, Prod.mk.injEq] at h
          obtain ⟨k1, rfl, rfl⟩ := h
          have hl : t1.cache.lookup .multipart = some (.form (some m)) := by rw [← k1]; exact setCache_same _ _ _
          rw [loop_multi hm, hl]
          exact .inl rfl
        · simp only [Res.ok.injEq, Prod.mk.injEq] at h
          obtain ⟨k1, rfl, rfl⟩ := h
          have hl : t1.cache.lookup .multipart = some .nil := by rw [← k1]; exact setCache_same _ _ _
          rw [loop_multi hm, hl]
          exact .inl rfl
        · simp only [Res.ok.injEq, Prod.mk.injEq] at h
          obtain ⟨k1, rfl, rfl⟩ := h
          have hl : t1.cache.lookup .multipart = some (.form none) := by rw [← k1]; exact setCache_same _ _ _
          rw [loop_multi hm, hl]
          exact .inr ⟨rfl, rfl, rfl⟩
        · cases h
    · rw [loop_other hu hm] at h
      cases h
      exact .inl (loop_other hu hm)

/-- C46, proved unless the fetch is the first one of a malformed urlencoded body:
fetching again gives the same values (and changes nothing more).  Missing from the
full claim: malformed urlencoded bodies. -/
theorem C46_again_partial (env : Env) (f : Filter) (t t1 : Tx) (vs : List Bytes)
    (hgood : ∀ e, ¬ Spec.Malformed env t e) (h : (Var.argsPost f).fetch env t = .ok (vs, t1)) :
    (Var.argsPost f).fetch env t1 = .ok (vs, t1) := by
  obtain ⟨⟨t2, tp, r⟩, h1, h2⟩ := Res.bind_eq_ok.1 h
  have ht : t2 = t1 := by
    simp only at h2
    split at h2 <;> (cases h2; rfl)
  subst ht
  simp only [Var.fetch, fetchArgsPost]
  rcases parse_again h1 hgood with k | ⟨rfl, rfl, k⟩
  · rw [k]; exact h2
  · rw [k]; exact h2

/-- C46: what happens with a malformed urlencoded body: nothing the first time,
the well-formed part from the second time on. -/
theorem C46_malformed (env : Env) (f : Filter) (t : Tx) (e : Err) (h : Spec.Malformed env t e) :
    ∃ t1, (Var.argsPost f).fetch env t = .ok ([], t1) ∧
      (Var.argsPost f).fetch env t1 = .ok (f.fetch env.ord (env.lib.parseQuery t.reqBody.memBuf).1, t1) := by
  obtain ⟨t1, k1, k2⟩ : ∃ t1, requestBodyParse env t = .ok (t1, none, .nil) ∧
      t1.cache.lookup .urlencoded = some (.values (env.lib.parseQuery t.reqBody.memBuf).1) := by
    rw [requestBodyParse_open h.readable, loop_url_err h.type h.fresh h.memory h.bad]
    exact ⟨_, rfl, setCache_same _ _ _⟩
  have hf := requestBodyParse_fetched k1
  have e2 := requestBodyParse_open (hf.readable.2 h.readable)
  rw [hf.mediaType, loop_cached h.type k2] at e2
  refine ⟨t1, ?_, ?_⟩
  · simp only [Var.fetch, fetchArgsPost]; rw [k1]; rfl
  · simp only [Var.fetch, fetchArgsPost]; rw [e2]; simp

/-- C46: once parsed, the arguments stay what they were, whatever is appended to
the body. -/
theorem C46_stale (env : Env) (f : Filter) (t : Tx) (m : GoMap) (b : Buf) (h : Spec.BodyReadable env.limits t)
    (hu : b!"application/x-www-form-urlencoded" <+: Spec.mediaType env.lib t)
    (hc : t.cache.lookup .urlencoded = some (.values m)) (hb : b.len ≠ 0) :
    (Var.argsPost f).fetch env { t with reqBody := b } = .ok (f.fetch env.ord m, { t with reqBody := b }) := by
  have h' : Spec.BodyReadable env.limits { t with reqBody := b } := ⟨h.1, h.2.1, hb⟩
  have e := (requestBodyParse_open h').trans (loop_cached (r := .values m) hu hc)
  simp only [Var.fetch, fetchArgsPost]
  rw [e]
  simp

/-- A library whose query parser rejects everything after reading one argument. -/
def Sample.strictEnv : Env := { env with lib := { lib with parseQuery := fun s => ([(b!"q", [s])], some b!"bad") } }

theorem C46_refuted : ¬ C46_statement := by
  intro h
  obtain ⟨t2, h2⟩ := h strictEnv {} (post b!"a=%") _ [] rfl
  obtain ⟨h3, _⟩ := Prod.mk.inj (Res.ok.inj h2)
  revert h3; decide

example : Spec.Malformed strictEnv (post b!"a=%") b!"bad" :=
  ⟨⟨rfl, .inl rfl, by decide⟩, ⟨[], rfl⟩, rfl, rfl, rfl⟩

/-! ### C47 -/

/-- C47, the full claim: whatever was called before, fetching a variable does not panic. -/
def C47_statement : Prop :=
  ∀ (env : Env) (rs : RuleSet) (n : Nat) (ops : List Op) (t : Tx) (os : List Out) (tr : Trace),
    0 ≤ env.limits.requestBodyInMem → 0 ≤ env.limits.responseBody → rs.Sane (fun _ => True) →
    (newTransaction env.limits).steps env rs n ops = .ok (t, os, tr) → ∀ v : Var, v.fetch env t ≠ .panic

theorem parse_panic {env : Env} (t : Tx) : requestBodyParse env t ≠ .panic := by
  by_cases hr : Spec.BodyReadable env.limits t
  case neg => rw [requestBodyParse_closed hr]; simp
  rw [requestBodyParse_open hr]
  by_cases hu : b!"application/x-www-form-urlencoded" <+: Spec.mediaType env.lib t
  · cases hc : t.cache.lookup .urlencoded with
    | some r0 => rw [loop_cached hu hc]; simp
    | none =>
      by_cases hm : t.reqBody.fileBuf = none
      · cases hq : (env.lib.parseQuery t.reqBody.memBuf).2 with
        | some e => rw [loop_url_err hu hc hm hq]; simp
        | none => rw [loop_url_ok hu hc hm hq]; simp
      · rw [loop_url_spilled hu hc hm]; simp
  · by_cases hm : b!"multipart/" <+: Spec.mediaType env.lib t
    · rw [loop_multi hm]
      split
      · simp
      · split <;> simp
    · rw [loop_other hu hm]; simp

theorem args_panic {env : Env} (f : Filter) (t : Tx) : fetchArgsPost env f t ≠ .panic := by
  intro h
  simp only [fetchArgsPost] at h
  cases hp : requestBodyParse env t with
  | panic => exact parse_panic t hp
  | fuel => rw [hp] at h; cases h
  | ok x =>
    obtain ⟨t1, tp, r⟩ := x
    rw [hp, Res.bind_ok'] at h
    dsimp only at h
    split at h <;> cases h

/-- The condition under which reading the argument names of the body panics. -/
def Spec.NilForm (env : Env) (t : Tx) : Prop :=
  Spec.BodyReadable env.limits t ∧ b!"multipart/" <+: Spec.mediaType env.lib t ∧
    t.cache.lookup .multipart = some (.form none)

/-- What parsing returns in the remaining cases: values or a form that is there. -/
theorem parse_returns {env : Env} {t t' : Tx} {tp : Option BodyType} {r : Parsed}
    (h : requestBodyParse env t = .ok (t', tp, r)) (hn : ¬ Spec.NilForm env t) :
    ¬ (tp = some .multipart ∧ r = .form none) := by
  rintro ⟨rfl, rfl⟩
  by_cases hr : Spec.BodyReadable env.limits t
  case neg => rw [requestBodyParse_closed hr] at h; cases h
  rw [requestBodyParse_open hr] at h
  by_cases hu : b!"application/x-www-form-urlencoded" <+: Spec.mediaType env.lib t
  · cases hc : t.cache.lookup .urlencoded with
    | some r0 =>
      rw [loop_cached hu hc] at h
      simp only [Res.ok.injEq, Prod.mk.injEq] at h
      have := h.2.1
      split at this <;> cases this
    | none =>
      by_cases hm : t.reqBody.fileBuf = none
      · cases hq : (env.lib.parseQuery t.reqBody.memBuf).2 with
        | some e => rw [loop_url_err hu hc hm hq] at h; cases h
        | none => rw [loop_url_ok hu hc hm hq] at h; cases h
      · rw [loop_url_spilled hu hc hm] at h; cases h
  · by_cases hm : b!"multipart/" <+: Spec.mediaType env.lib t
    · rw [loop_multi hm] at h
      cases hc : t.cache.lookup .multipart with
      | some r0 =>
        simp only [hc, Res.ok.injEq, Prod.mk.injEq] at h
        by_cases h0 : r0 = .nil
        · simp [h0] at h
        · simp only [h0, if_false] at h
          rw [h.2.2] at hc
          exact hn ⟨hr, hm, hc⟩
      | none =>
        simp only [hc] at h
        split at h <;> cases h
    · rw [loop_other hu hm] at h; cases h

theorem names_panic_iff {env : Env} (f : Filter) (t : Tx) :
    fetchArgsPostNames env f t = .panic ↔ Spec.NilForm env t := by
  constructor
  · intro h
    refine Classical.byContradiction fun hn => ?_
    simp only [fetchArgsPostNames] at h
    cases hp : requestBodyParse env t with
    | panic => exact parse_panic t hp
    | fuel => rw [hp] at h; cases h
    | ok x =>
      obtain ⟨t1, tp, r⟩ := x
      have := parse_returns hp hn
      rw [hp, Res.bind_ok'] at h
      dsimp only at h
      split at h
      · cases h
      · cases h
      · exact this ⟨rfl, rfl⟩
      · cases h
  · rintro ⟨hr, hm, hc⟩
    simp only [fetchArgsPostNames]
    rw [requestBodyParse_open hr, loop_multi hm]
    simp [hc]

/-- C47: exactly when a fetch panics: it reads the names of the body's arguments,
and an earlier fetch has cached the nil form of a malformed multipart body. -/
theorem C47_panics_iff (env : Env) (v : Var) (t : Tx) :
    v.fetch env t = .panic ↔ v.readsPostNames = true ∧ Spec.NilForm env t := by
  induction v with
  | args g p =>
    simp only [Var.fetch, Var.readsPostNames, Bool.false_eq_true, false_and, iff_false]
    intro h
    cases hp : fetchArgsPost env p t with
    | panic => exact args_panic p t hp
    | fuel => rw [hp] at h; cases h
    | ok x => rw [hp] at h; cases h
  | argsNames g p =>
    simp only [Var.fetch, Var.readsPostNames, true_and, ← names_panic_iff p]
    cases fetchArgsPostNames env p t <;> simp
  | argsPost f =>
    simp only [Var.fetch, Var.readsPostNames, Bool.false_eq_true, false_and, iff_false]
    exact args_panic f t
  | argsPostNames f => simp only [Var.fetch, Var.readsPostNames, true_and]; exact names_panic_iff f t
  | count v ih =>
    simp only [Var.fetch, Var.readsPostNames, ← ih]
    cases v.fetch env t <;> simp
  | _ => simp [Var.fetch, Var.readsPostNames]

/-- The library's form reader returns forms or `ErrMessageTooLarge`. -/
def Lib.FormNoErr (lib : Lib) : Prop := ∀ b bd m e, (lib.readForm b bd m).1 ≠ .err e

/-- No nil form in the cache. -/
def NoNilForm (c : List (BodyType × Parsed)) : Prop := c.lookup .multipart ≠ some (.form none)

theorem parse_noNil {env : Env} (hl : env.lib.FormNoErr) {t t' : Tx} {tp : Option BodyType} {r : Parsed}
    (hc0 : NoNilForm t.cache) (h : requestBodyParse env t = .ok (t', tp, r)) : NoNilForm t'.cache := by
  by_cases hr : Spec.BodyReadable env.limits t
  case neg => rw [requestBodyParse_closed hr] at h; cases h; exact hc0
  rw [requestBodyParse_open hr] at h
  have other : ∀ (u : Tx) (v : Parsed), u.cache = t.cache → NoNilForm (u.setCache .urlencoded v).cache := by
    intro u v e
    simp only [NoNilForm, setCache_other u v (show BodyType.multipart ≠ .urlencoded by decide), e]
    exact hc0
  by_cases hu : b!"application/x-www-form-urlencoded" <+: Spec.mediaType env.lib t
  · cases hc : t.cache.lookup .urlencoded with
    | some r0 => rw [loop_cached hu hc] at h; cases h; exact hc0
    | none =>
      by_cases hm : t.reqBody.fileBuf = none
      · cases hq : (env.lib.parseQuery t.reqBody.memBuf).2 with
        | some e => rw [loop_url_err hu hc hm hq] at h; cases h; exact other t.readReq _ rfl
        | none => rw [loop_url_ok hu hc hm hq] at h; cases h; exact other t.readReq _ rfl
      · rw [loop_url_spilled hu hc hm] at h; cases h; exact other (t.readReq.abortWithError 413 _) _ rfl
  · by_cases hm : b!"multipart/" <+: Spec.mediaType env.lib t
    · rw [loop_multi hm] at h
      cases hc : t.cache.lookup .multipart with
      | some r0 => simp only [hc] at h; cases h; exact hc0
      | none =>
        simp only [hc] at h
        split at h
        · rename_i m pos _
          simp only [Res.ok.injEq, Prod.mk.injEq] at h
          have hl : t'.cache.lookup .multipart = some (.form (some m)) := by rw [← h.1]; exact setCache_same _ _ _
          simp [NoNilForm, hl]
        · simp only [Res.ok.injEq, Prod.mk.injEq] at h
          have hl : t'.cache.lookup .multipart = some .nil := by rw [← h.1]; exact setCache_same _ _ _
          simp [NoNilForm, hl]
        · rename_i e pos he
          exact absurd (by rw [he]) (hl t.reqBody.content (boundaryOf env t) env.limits.requestBodyInMem e)
        · cases h
    · rw [loop_other hu hm] at h; cases h; exact hc0

theorem fetch_cache {env : Env} {K : List (BodyType × Parsed) → Prop}
    (hK : ∀ {t t' : Tx} {tp : Option BodyType} {r : Parsed}, K t.cache → requestBodyParse env t = .ok (t', tp, r) → K t'.cache) :
    ∀ {v : Var} {t t' : Tx} {vs : List Bytes}, K t.cache → v.fetch env t = .ok (vs, t') → K t'.cache := by
  have args : ∀ {f : Filter} {t t' : Tx} {vs : List Bytes}, K t.cache →
      fetchArgsPost env f t = .ok (vs, t') → K t'.cache := by
    intro f t t' vs hp h
    obtain ⟨⟨t1, tp, r⟩, h1, h2⟩ := Res.bind_eq_ok.1 h
    have := hK hp h1
    simp only at h2
    split at h2
    all_goals first | (simp only [Res.ok.injEq, Prod.mk.injEq] at h2; rw [← h2.2]; exact this) | cases h2
  have names : ∀ {f : Filter} {t t' : Tx} {vs : List Bytes}, K t.cache →
      fetchArgsPostNames env f t = .ok (vs, t') → K t'.cache := by
    intro f t t' vs hp h
    obtain ⟨⟨t1, tp, r⟩, h1, h2⟩ := Res.bind_eq_ok.1 h
    have := hK hp h1
    simp only at h2
    split at h2
    all_goals first | (simp only [Res.ok.injEq, Prod.mk.injEq] at h2; rw [← h2.2]; exact this) | cases h2
  intro v
  induction v with
  | args g p =>
    intro t t' vs hp h
    simp only [Var.fetch] at h
    obtain ⟨⟨x, t1⟩, h1, h2⟩ := Res.bind_eq_ok.1 h
    cases h2; exact args hp h1
  | argsNames g p =>
    intro t t' vs hp h
    simp only [Var.fetch] at h
    obtain ⟨⟨x, t1⟩, h1, h2⟩ := Res.bind_eq_ok.1 h
    cases h2; exact names hp h1
  | argsPost f => intro t t' vs hp h; exact args hp h
  | argsPostNames f => intro t t' vs hp h; exact names hp h
  | requestBody =>
    intro t t' vs hp h
    simp only [Var.fetch, Res.ok.injEq, fetchRequestBody] at h
    repeat' split at h
    all_goals (cases h; exact hp)
  | responseBody =>
    intro t t' vs hp h
    simp only [Var.fetch, Res.ok.injEq, fetchResponseBody] at h
    repeat' split at h
    all_goals (cases h; exact hp)
  | count v ih =>
    intro t t' vs hp h
    simp only [Var.fetch] at h
    obtain ⟨⟨x, t1⟩, h1, h2⟩ := Res.bind_eq_ok.1 h
    cases h2; exact ih hp h1
  | _ =>
    intro t t' vs hp h
    simp only [Var.fetch, Res.ok.injEq, Prod.mk.injEq] at h
    rw [← h.2]; exact hp

/-- C47, for a form reader that never reports a malformed body: no sequence of API
calls panics, and neither does any fetch afterwards.  Missing from the full claim:
requests with malformed multipart bodies. -/
theorem C47_well_formed_partial (env : Env) (hl : env.lib.FormNoErr) (rs : RuleSet) (hrs : rs.Sane (fun _ => True))
    (h0 : 0 ≤ env.limits.requestBodyInMem) (h1 : 0 ≤ env.limits.responseBody) (n : Nat) (ops : List Op) :
    (newTransaction env.limits).steps env rs n ops ≠ .panic ∧
    ∀ t os tr, (newTransaction env.limits).steps env rs n ops = .ok (t, os, tr) → ∀ v : Var, v.fetch env t ≠ .panic := by
  have hf : FetchSafe env (fun _ => True) NoNilForm := by
    intro v _ t hK
    refine .of_ne ?_ ?_
    · intro h
      exact hK ((C47_panics_iff env v t).1 h).2.2.2
    · rintro ⟨vs, t'⟩ h
      exact fetch_cache (fun hk h => parse_noNil hl hk h) hK h
  have key := Tx.steps_good hf hrs h0 h1 n ops (Good.new env.limits (K := NoNilForm) (by simp [NoNilForm]))
  refine ⟨key.ne_panic, ?_⟩
  intro t os tr h v hp
  have := key.of_ok h
  exact this.cache ((C47_panics_iff env v t).1 hp).2.2.2

/-- C47, for rules that do not read the names of body arguments: no sequence of API
calls panics, whatever the request.  Missing from the full claim: rules with
ARGS_NAMES or ARGS_POST_NAMES. -/
theorem C47_no_names_partial (env : Env) (rs : RuleSet) (hrs : rs.Sane (fun v => v.readsPostNames = false))
    (h0 : 0 ≤ env.limits.requestBodyInMem) (h1 : 0 ≤ env.limits.responseBody) (n : Nat) (ops : List Op) :
    (newTransaction env.limits).steps env rs n ops ≠ .panic := by
  have hf : FetchSafe env (fun v => v.readsPostNames = false) (fun _ => True) := by
    intro v hv t _
    refine .of_ne ?_ (fun _ _ => trivial)
    intro h
    have := ((C47_panics_iff env v t).1 h).1
    rw [hv] at this; cases this
  exact (Tx.steps_good hf hrs h0 h1 n ops (Good.new env.limits trivial)).ne_panic

/-- A library whose form reader rejects everything. -/
def Sample.badFormEnv : Env := { env with lib := { lib with readForm := fun _ _ _ => (.err b!"bad", 0) } }

/-- A multipart POST request. -/
def Sample.multipartPost : List Op :=
  [.processRequestURL none b!"POST" b!"HTTP/1.1",
   .processRequestHeader (some [(b!"Content-Type", [b!"multipart/form-data"])]),
   .appendRequestBody b!"x" .none, .processRequestBody]

def Sample.argsRule (v : Var) : Rule := { vars := [v], op := some any }

theorem sane_argsRules (vs : List Var) (okV : Var → Prop) (h : ∀ v ∈ vs, okV v) :
    (rules (vs.map fun v => (3, argsRule v))).Sane okV := by
  have key : ∀ (vs : List Var) (rs : RuleSet), (∀ v ∈ vs, okV v) → rs.Sane okV →
      (rs.addRules ((vs.map fun v => ((3 : Int), argsRule v)).map fun e => { e.2 with phase := e.1 })).Sane okV := by
    intro vs
    induction vs with
    | nil => intro rs _ h; exact h
    | cons v vs ih =>
      intro rs hv hrs
      simp only [List.map_cons, RuleSet.addRules, List.foldl_cons]
      refine ih _ (fun w hw => hv w (by simp [hw])) ⟨?_, hrs.2⟩
      intro p r hr
      simp only [RuleSet.addRule, argsRule] at hr
      rw [if_neg (by decide)] at hr
      dsimp only at hr
      split at hr
      · rcases List.mem_append.1 hr with hr | hr
        · exact hrs.1 _ r hr
        · simp at hr
          subst hr
          refine ⟨⟨by simp, ?_, by simp⟩, by simp⟩
          intro w hw; simp at hw; subst hw; exact hv _ (by simp)
      · exact hrs.1 _ r hr
  exact key vs {} h ⟨by intro p r hr; simp at hr, by simp⟩

/-- C47 is false: one malformed multipart request, a rule on ARGS_POST and one on
ARGS_POST_NAMES after it. -/
theorem C47_refuted : ¬ C47_statement := by
  intro h
  refine h badFormEnv (rules ([Var.argsPost {}].map fun v => (3, argsRule v))) 20 multipartPost _ _ _ (by decide) (by decide)
    (sane_argsRules _ _ (fun _ _ => trivial)) rfl (.argsPostNames {}) ?_
  rw [C47_panics_iff]
  exact ⟨rfl, ⟨rfl, .inl rfl, by decide⟩, ⟨b!"form-data", rfl⟩, rfl⟩

/-- The crash happens while the request is being processed. -/
theorem C47_crash : (newTransaction badFormEnv.limits).steps badFormEnv
    (rules ([Var.argsPost {}, Var.argsPostNames {}].map fun v => (3, argsRule v))) 20 multipartPost = .panic := rfl

example : (rules ([Var.argsPost {}, .requestBody].map fun v => (3, argsRule v))).Sane (fun v => v.readsPostNames = false) :=
  sane_argsRules _ _ (by simp [Var.readsPostNames])
example : lib.FormNoErr := by intro b bd m e h; cases h

end Verif
