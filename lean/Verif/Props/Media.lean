import Verif.Proofs.Media
import Verif.Props.Multipart
import Verif.Props.Query
/-! C108–C110: what the engine makes of a Content-Type header, with `mime.ParseMediaType`
of the library (Model/Media.lean). -/
namespace Verif
open Spec Sample

/-- The library reads media types as `mime.ParseMediaType` does. -/
def Lib.ReadsMedia (lib : Lib) : Prop := lib.mediaType = parseMediaType lib.lowerHi

/-- The Content-Type among the headers names the media type `m`, followed by `params`. -/
def Spec.Declares (h : Option GoMap) (m params : Bytes) : Prop := NamesType (headerGet h b!"Content-Type") m params

theorem declares_ne {h : Option GoMap} {m params : Bytes} (hd : Declares h m params) (hm : MediaType m) : headerGet h b!"Content-Type" ≠ [] := by
  intro e
  obtain ⟨l, a, r, h1, _, _, h2, _⟩ := hd
  rw [e] at h1
  have ha : a = [] := by
    have := congrArg List.length h1
    simp only [List.length_nil, List.length_append] at this
    exact List.length_eq_zero_iff.1 (by omega)
  subst ha
  subst h2
  rcases hm with hm | ⟨a, b, _, _, hm⟩
  · exact hm.1 rfl
  · have := congrArg List.length hm
    simp at this

theorem urlencoded_media : MediaType b!"application/x-www-form-urlencoded" := (isMediaType_iff _).1 (by decide +kernel)

theorem mediaType_declared {lib : Lib} (hl : lib.ReadsMedia) {t : Tx} {m params : Bytes} (hd : Declares t.reqHeader m params) (hm : MediaType m) :
    (¬ Repeats params → mediaType lib t = m) ∧ (Repeats params → mediaType lib t = []) := by
  obtain ⟨h1, h2⟩ := parseMediaType_type lib.lowerHi hd hm
  have hl' : lib.mediaType = parseMediaType lib.lowerHi := hl
  simp only [mediaType, if_neg (declares_ne hd hm), hl']
  exact ⟨h1, fun h => by rw [h2 h]⟩

/-! ### C108: a body declared as a form is inspected -/

/-- C108: a request that declares an urlencoded body (whatever the parameters of the content
type) and whose body may be read and is within the memory limit shows it to REQUEST_BODY. -/
def C108_statement : Prop :=
  ∀ (env : Env) (t : Tx) (params : Bytes), env.lib.ReadsMedia → BodyReadable env.limits t → t.reqBody.fileBuf = none →
    Declares t.reqHeader b!"application/x-www-form-urlencoded" params →
    ∃ t', Var.requestBody.fetch env t = .ok ([t.reqBody.memBuf], t')

/-- C108: so it is if no parameter is repeated. -/
theorem C108_inspected_partial (env : Env) (t : Tx) (params : Bytes) (hl : env.lib.ReadsMedia) (hr : BodyReadable env.limits t)
    (hm : t.reqBody.fileBuf = none) (hd : Declares t.reqHeader b!"application/x-www-form-urlencoded" params) (hn : ¬ Repeats params) :
    Var.requestBody.fetch env t = .ok ([t.reqBody.memBuf], t.readReq) :=
  C44_request_body env t hr ⟨declares_ne hd urlencoded_media, (mediaType_declared hl hd urlencoded_media).1 hn⟩ hm

/-- C108, for the arguments: without a repeated parameter, those of an urlencoded body not
yet parsed are all shown if all of them are well-formed, and none otherwise. -/
theorem C108_arguments_partial {env : Env} (hl : env.lib.ReadsMedia) (hq : env.lib.parseQuery = parseQuery) {t : Tx} {params : Bytes}
    (hr : BodyReadable env.limits t) (hm : t.reqBody.fileBuf = none) (hd : Declares t.reqHeader b!"application/x-www-form-urlencoded" params)
    (hn : ¬ Repeats params) (hc : t.cache.lookup .urlencoded = none) {ps : List Piece} (hps : Query t.reqBody.memBuf ps) (f : Filter) :
    (.broken ∉ ps → ∃ vals names t', (Var.argsPost f).fetch env t = .ok (vals, t') ∧ (Var.argsPostNames f).fetch env t = .ok (names, t') ∧
      Shown f (argsOf ps) vals names) ∧
    (.broken ∈ ps → ∃ t', (Var.argsPost f).fetch env t = .ok ([], t')) :=
  C69_body hq hr (by rw [(mediaType_declared hl hd urlencoded_media).1 hn]; exact ⟨[], by simp⟩) hm hc hps f

/-- The content type has a parameter that was there before. -/
def Spec.Evades (h : Option GoMap) : Prop := ∃ m params, Declares h m params ∧ MediaType m ∧ Repeats params

/-- The media type the library gives is that of no form. -/
def NoForm (env : Env) (h : Option GoMap) : Prop :=
  ∀ t : Tx, t.reqHeader = h → ¬ FormBody env.lib t ∧ ¬ Urlencoded env.lib t

theorem evades_noForm {env : Env} (hl : env.lib.ReadsMedia) {h : Option GoMap} (he : Evades h) : NoForm env h := by
  obtain ⟨m, params, h1, h2, h3⟩ := he
  rintro t rfl
  have := (mediaType_declared hl h1 h2).2 h3
  refine ⟨?_, ?_⟩
  · rintro (⟨x, hx⟩ | ⟨x, hx⟩)
    · rw [this] at hx; cases hx
    · rw [this] at hx; cases hx
  · rintro ⟨_, hx⟩
    rw [this] at hx; cases hx

/-- C108: with a repeated parameter nothing of the body is shown, whatever it is. -/
theorem C108_evaded {env : Env} (hl : env.lib.ReadsMedia) {t : Tx} (he : Evades t.reqHeader) :
    Var.requestBody.fetch env t = .ok ([], t) ∧
    (∀ f, (Var.argsPost f).fetch env t = .ok ([], t)) ∧ (∀ f, (Var.argsPostNames f).fetch env t = .ok ([], t)) ∧
    (∀ g f, (Var.args g f).fetch env t = (Var.argsGet g).fetch env t) ∧
    (∀ g f, (Var.argsNames g f).fetch env t = (Var.argsGetNames g).fetch env t) := by
  obtain ⟨h1, h2⟩ := evades_noForm hl he t rfl
  exact ⟨(C44_content_type env t).1 h2, (C44_content_type env t).2 h1⟩

/-- C108: exactly when a declared urlencoded body that could be read is shown. -/
theorem C108_exactly (env : Env) (t : Tx) (params : Bytes) (hl : env.lib.ReadsMedia) (hr : BodyReadable env.limits t)
    (hm : t.reqBody.fileBuf = none) (hd : Declares t.reqHeader b!"application/x-www-form-urlencoded" params) :
    (∃ t', Var.requestBody.fetch env t = .ok ([t.reqBody.memBuf], t')) ↔ ¬ Repeats params := by
  constructor
  · rintro ⟨t', h⟩ hp
    rw [(C108_evaded hl ⟨_, params, hd, urlencoded_media, hp⟩).1] at h
    cases h
  · intro h; exact ⟨_, C108_inspected_partial env t params hl hr hm hd h⟩

/-- Only the request body differs; the headers of both evade. -/
abbrev Unseen (t u : Tx) : Prop := Duo (fun h _ _ => Evades h) t u

theorem fetch_unseen {env : Env} (hl : env.lib.ReadsMedia) : FetchesAlike env (fun h _ _ => Evades h) := by
  intro v
  induction v with
  | custom f => intro hv; exact hv.elim
  | count v ih =>
    intro hv t u h
    simp only [Var.fetch]
    exact (ih hv h).bind fun x y hxy => .ok ⟨by simp only [hxy.1], hxy.2⟩
  | requestBody =>
    intro _ t u h
    have eh : u.reqHeader = t.reqHeader := h.get Tx.reqHeader fun _ _ => rfl
    rw [(C108_evaded hl h.body).1, (C108_evaded hl (t := u) (by rw [eh]; exact h.body)).1]
    exact .ok ⟨rfl, h⟩
  | argsPost f =>
    intro _ t u h
    have eh : u.reqHeader = t.reqHeader := h.get Tx.reqHeader fun _ _ => rfl
    rw [(C108_evaded hl h.body).2.1, (C108_evaded hl (t := u) (by rw [eh]; exact h.body)).2.1]
    exact .ok ⟨rfl, h⟩
  | argsPostNames f =>
    intro _ t u h
    have eh : u.reqHeader = t.reqHeader := h.get Tx.reqHeader fun _ _ => rfl
    rw [(C108_evaded hl h.body).2.2.1, (C108_evaded hl (t := u) (by rw [eh]; exact h.body)).2.2.1]
    exact .ok ⟨rfl, h⟩
  | args g f =>
    intro _ t u h
    have eh : u.reqHeader = t.reqHeader := h.get Tx.reqHeader fun _ _ => rfl
    rw [(C108_evaded hl h.body).2.2.2.1, (C108_evaded hl (t := u) (by rw [eh]; exact h.body)).2.2.2.1]
    obtain ⟨b, rfl⟩ : ∃ b, u = { t with reqBody := b } := ⟨_, h.rest⟩
    exact .ok ⟨rfl, h⟩
  | argsNames g f =>
    intro _ t u h
    have eh : u.reqHeader = t.reqHeader := h.get Tx.reqHeader fun _ _ => rfl
    rw [(C108_evaded hl h.body).2.2.2.2, (C108_evaded hl (t := u) (by rw [eh]; exact h.body)).2.2.2.2]
    obtain ⟨b, rfl⟩ : ∃ b, u = { t with reqBody := b } := ⟨_, h.rest⟩
    exact .ok ⟨rfl, h⟩
  | responseBody =>
    intro _ t u h
    have eb : u.respBody = t.respBody := h.get Tx.respBody fun _ _ => rfl
    simp only [Var.fetch, fetchResponseBody, eb]
    split
    · exact .ok ⟨rfl, h⟩
    · have hm := h.map (f := fun t' => { t' with respBody := t.respBody.string.1 }) (fun _ _ => rfl) rfl
      split
      · exact .ok ⟨rfl, hm.map (f := fun t => t.abortWithError 500 errOutOfMemLimit) (fun _ _ => rfl) rfl⟩
      · exact .ok ⟨rfl, hm⟩
  | _ =>
    intro _ t u h
    obtain ⟨b, rfl⟩ : ∃ b, u = { t with reqBody := b } := ⟨_, h.rest⟩
    exact .ok ⟨rfl, h⟩

/-- C108, for the verdicts: two transactions that differ in nothing but the request body, the
content type of which has a repeated parameter, give the same outputs to every sequence of
further calls (that adds nothing to the bodies and sets no other content type), under every
rule set without parts written by the host. -/
theorem C108_verdict_blind {env : Env} (hl : env.lib.ReadsMedia) {rs : RuleSet} (hrs : rs.Stock) (n : Nat) : ∀ {ops : List Op},
    (∀ p io, .appendRequestBody p io ∉ ops) → (∀ hd, .processRequestHeader hd ∈ ops → Evades (orEmpty hd)) → ∀ {t u : Tx}, Unseen t u →
    (t.steps env rs n ops).Both (fun x y => Unseen x.1 y.1 ∧ x.2 = y.2) (u.steps env rs n ops)
  | [], _, _, _, _, h => .ok ⟨h, rfl⟩
  | op :: ops, ha, hh, t, u, h => by
    simp only [Tx.steps]
    refine (step_twin (fetch_unseen hl) hrs n (fun p io e => absurd (by rw [e]; exact List.mem_cons_self) (ha p io))
      (fun h' e _ _ _ _ => hh h' (by rw [e]; exact List.mem_cons_self)) h).bind fun x y hxy => ?_
    refine (C108_verdict_blind hl hrs n (fun p io hm => ha p io (List.mem_cons_of_mem _ hm))
      (fun h' hm => hh h' (List.mem_cons_of_mem _ hm)) hxy.1).bind fun x' y' hxy' => ?_
    exact .ok ⟨hxy'.1, by simp only [hxy.2, hxy'.2]⟩

/-- Appending to the request body changes nothing else. -/
theorem appends_rest {env : Env} {rs : RuleSet} {n : Nat} : ∀ {cs : List (Bytes × IOFault)} {t t' : Tx} {o : List Out × Trace},
    t.steps env rs n (cs.map fun c => .appendRequestBody c.1 c.2) = .ok (t', o) → t' = { t with reqBody := t'.reqBody }
  | [], t, t', o, h => by cases h; rfl
  | c :: cs, t, t', o, h => by
    simp only [List.map_cons, Tx.steps] at h
    obtain ⟨x, h1, h2⟩ := Res.bind_eq_ok.1 h
    obtain ⟨y, h3, h4⟩ := Res.bind_eq_ok.1 h2
    have e := appends_rest h3
    simp only [Tx.step] at h1
    obtain ⟨z, _, h6⟩ := Res.bind_eq_ok.1 h1
    cases h6
    cases h4
    rw [e]

/-- C108, for rules loaded from a text: whatever the text, once a content type with a repeated
parameter is set, no output of the later calls depends on the body that is sent. -/
theorem C108_loaded_blind {lib : Lib} (hl : lib.ReadsMedia) {vo : VarOrd} {ord : IterOrd} {text : Bytes} {set : DireSet}
    (hload : DireSet.addSecLangString lib vo [] text = .ok (set, none)) (n : Nat) {t : Tx} (he : Evades t.reqHeader)
    {cs ds : List (Bytes × IOFault)} {t1 t2 : Tx} {o1 o2 : List Out × Trace}
    (h1 : t.steps ((set.execute newEngine).env lib ord) (set.execute newEngine).ruleSet n (cs.map fun c => .appendRequestBody c.1 c.2) = .ok (t1, o1))
    (h2 : t.steps ((set.execute newEngine).env lib ord) (set.execute newEngine).ruleSet n (ds.map fun c => .appendRequestBody c.1 c.2) = .ok (t2, o2))
    {ops : List Op} (ha : ∀ p io, .appendRequestBody p io ∉ ops) (hh : ∀ hd, .processRequestHeader hd ∈ ops → Evades (orEmpty hd)) :
    (t1.steps ((set.execute newEngine).env lib ord) (set.execute newEngine).ruleSet n ops).Both (fun x y => x.2 = y.2)
      (t2.steps ((set.execute newEngine).env lib ord) (set.execute newEngine).ruleSet n ops) := by
  have e1 := appends_rest h1
  have e2 := appends_rest h2
  have h : Unseen t1 t2 := by
    refine ⟨?_, by rw [e1]; exact he⟩
    rw [e1, e2]
  exact Res.Both.imp (C108_verdict_blind (env := (set.execute newEngine).env lib ord) hl (loaded_stock hload) n ha hh h) fun _ _ h => h.2

/-! ### C109: the boundary named in the content type is the one used -/

/-- C109: a request that declares a multipart body and, among parameters of different names
and none of them continued (no star in a name), a boundary, has its body taken apart at that
boundary: ARGS_POST shows what `ReadForm` finds between such boundaries. -/
def C109_statement : Prop :=
  ∀ (env : Env) (t : Tx) (m params w bd : Bytes) (ps : List (Bytes × Bytes)) (form : GoMap) (pos : Nat) (f : Filter),
    env.lib.ReadsMedia → BodyReadable env.limits t → Declares t.reqHeader m params → MediaType m → b!"multipart/" <+: m →
    Params ps params w → Distinct ps → (∀ p ∈ ps, 42 ∉ p.1) → (b!"boundary", bd) ∈ ps → t.cache.lookup .multipart = none →
    env.lib.readForm t.reqBody.content bd env.limits.requestBodyInMem = (.ok form, pos) →
    ∃ t', (Var.argsPost f).fetch env t = .ok (f.fetch env.ord form, t')

theorem lookup_distinct {ps : List (Bytes × Bytes)} (hd : Distinct ps) {k v : Bytes} (h : (k, v) ∈ ps) : ps.lookup k = some v := by
  induction ps with
  | nil => cases h
  | cons p ps ih =>
    rcases p with ⟨a, b⟩
    simp only [Distinct, List.map_cons, List.nodup_cons] at hd
    rw [List.lookup_cons]
    rcases List.mem_cons.1 h with h | h'
    · cases h; simp
    · have : k ≠ a := by
        rintro rfl
        exact hd.1 (List.mem_map.2 ⟨_, h', rfl⟩)
      have e : (k == a) = false := by simpa using this
      rw [e]
      exact ih hd.2 h'

/-- What ARGS_POST shows of a multipart body: what `ReadForm` makes of it with the boundary
the library gives. -/
theorem argsPost_boundary {env : Env} {t : Tx} {m bd : Bytes} (hr : BodyReadable env.limits t) (hc : t.cache.lookup .multipart = none)
    (hne : headerGet t.reqHeader b!"Content-Type" ≠ []) (hm : env.lib.mediaType (headerGet t.reqHeader b!"Content-Type") = (m, bd)) (hp : b!"multipart/" <+: m)
    {form : GoMap} {pos : Nat} (hf : env.lib.readForm t.reqBody.content bd env.limits.requestBodyInMem = (.ok form, pos)) (f : Filter) :
    ∃ t', (Var.argsPost f).fetch env t = .ok (f.fetch env.ord form, t') := by
  have e1 : mediaType env.lib t = m := by simp only [mediaType, if_neg hne, hm]
  have e2 : boundaryOf env t = bd := by simp only [boundaryOf, if_neg hne, hm]
  refine ⟨({ t with reqBody := t.reqBody.afterForm pos } : Tx).setCache .multipart (.form (some form)), ?_⟩
  simp only [Var.fetch, fetchArgsPost, requestBodyParse_open hr, e1, e2, loop_multi hp, hc, hf, Res.bind_ok']

/-- C109: so it is if nothing but white space, and maybe a semicolon, follows the parameters. -/
theorem C109_boundary_partial (env : Env) (t : Tx) (m params w bd : Bytes) (ps : List (Bytes × Bytes)) (form : GoMap) (pos : Nat) (f : Filter)
    (hl : env.lib.ReadsMedia) (hr : BodyReadable env.limits t) (hd : Declares t.reqHeader m params) (hm : MediaType m) (hp : b!"multipart/" <+: m)
    (hps : Params ps params w) (hds : Distinct ps) (hs : ∀ p ∈ ps, 42 ∉ p.1) (hb : (b!"boundary", bd) ∈ ps) (hc : t.cache.lookup .multipart = none)
    (hf : env.lib.readForm t.reqBody.content bd env.limits.requestBodyInMem = (.ok form, pos)) (hw : Blank w ∨ LoneSemicolon w) :
    ∃ t', (Var.argsPost f).fetch env t = .ok (f.fetch env.ord form, t') := by
  refine argsPost_boundary hr hc (declares_ne hd hm) ?_ hp hf f
  rw [hl, parseMediaType_boundary _ hd hm hps hds hw hs, lookup_distinct hds hb]
  rfl

/-- C109: if something else follows, the boundary is dropped, and `ReadForm` is called with an
empty one, whatever boundary was named before. -/
theorem C109_malformed {env : Env} {t : Tx} {m params w : Bytes} {ps : List (Bytes × Bytes)} {form : GoMap} {pos : Nat} (f : Filter)
    (hl : env.lib.ReadsMedia) (hr : BodyReadable env.limits t) (hd : Declares t.reqHeader m params) (hm : MediaType m) (hp : b!"multipart/" <+: m)
    (hps : Params ps params w) (hds : Distinct ps) (hc : t.cache.lookup .multipart = none)
    (hb : ¬ Blank w) (hl' : ¬ LoneSemicolon w) (hn : ∀ n v text rest, Param n v text rest → w ≠ text ++ rest)
    (hf : env.lib.readForm t.reqBody.content [] env.limits.requestBodyInMem = (.ok form, pos)) :
    ∃ t', (Var.argsPost f).fetch env t = .ok (f.fetch env.ord form, t') := by
  refine argsPost_boundary hr hc (declares_ne hd hm) ?_ hp hf f
  rw [hl, parseMediaType_malformed _ hd hm hps hds hb hl' hn]

/-! ### C110: RESPONSE_CONTENT_TYPE shows the media type -/

/-- C110: RESPONSE_CONTENT_TYPE shows the media type the response declares, in lower case and
without its parameters. -/
def C110_statement : Prop :=
  ∀ (env : Env) (t : Tx) (m params : Bytes), env.lib.ReadsMedia → Declares t.respHeader m params → MediaType m →
    Var.responseContentType.fetch env t = .ok ([m], t)

/-- C110: so it is if no parameter is repeated; with a repeated one the value is empty. -/
theorem C110_shown_partial (env : Env) (t : Tx) (m params : Bytes) (hl : env.lib.ReadsMedia) (hd : Declares t.respHeader m params) (hm : MediaType m) :
    (¬ Repeats params → Var.responseContentType.fetch env t = .ok ([m], t)) ∧
    (Repeats params → Var.responseContentType.fetch env t = .ok ([[]], t)) := by
  obtain ⟨h1, h2⟩ := parseMediaType_type env.lib.lowerHi hd hm
  have hl' : env.lib.mediaType = parseMediaType env.lib.lowerHi := hl
  simp only [Var.fetch, if_neg (declares_ne hd hm), hl']
  exact ⟨fun h => by rw [h1 h], fun h => by rw [h2 h]⟩

/-- C110: what names no media type is shown as nothing: the text before the first semicolon,
without its case and the white space around it. -/
theorem C110_nameless {env : Env} {t : Tx} (hl : env.lib.ReadsMedia) (hne : headerGet t.respHeader b!"Content-Type" ≠ [])
    (hm : ¬ MediaType (trimSpace (toLower env.lib.lowerHi ((headerGet t.respHeader b!"Content-Type").takeWhile (· != 59))))) :
    Var.responseContentType.fetch env t = .ok ([[]], t) := by
  have : isMediaType (mediaHead env.lib.lowerHi (headerGet t.respHeader b!"Content-Type")) = false := by
    rw [← Bool.not_eq_true, isMediaType_iff]; exact hm
  have hl' : env.lib.mediaType = parseMediaType env.lib.lowerHi := hl
  simp only [Var.fetch, if_neg hne, hl', parseMediaType, this, Bool.not_false, if_true]

/-! ### Examples and refutations -/

/-- The sample library, with the media types and queries of the real one. -/
def Sample.mediaLib : Lib := { lib with mediaType := parseMediaType id, parseQuery := parseQuery }

def Sample.mediaEnv : Env := { env with lib := mediaLib }

theorem Sample.mediaLib_reads : mediaEnv.lib.ReadsMedia := rfl

/-- A POST request with the given content type and body. -/
def Sample.typed (ct body : Bytes) : Tx :=
  { newTransaction limits with
    method := b!"POST", reqHeader := some [(b!"Content-Type", [ct])]
    reqBody := { newBuffer 8 16 with memBuf := body, length := body.length } }

theorem Sample.form_declared (params : Bytes) (hp : params = [] ∨ ∃ p, params = 59 :: p) :
    NamesType (b!"Application/X-WWW-form-urlencoded " ++ params) b!"application/x-www-form-urlencoded" params :=
  ⟨[], b!"Application/X-WWW-form-urlencoded", [32], by simp, by simp [AsciiBlank], by intro c hc; simp_all, by decide +kernel, hp⟩

/-- A parameter twice: nothing of the body is shown. -/
theorem C108_refuted : ¬ C108_statement := by
  intro h
  have hd : Declares (typed (b!"Application/X-WWW-form-urlencoded " ++ b!"; a=1; A=\"2\"") b!"evil=1").reqHeader b!"application/x-www-form-urlencoded"
      b!"; a=1; A=\"2\"" := form_declared b!"; a=1; A=\"2\"" (.inr ⟨_, rfl⟩)
  obtain ⟨t', ht⟩ := h mediaEnv _ _ rfl ⟨rfl, .inl rfl, by decide⟩ rfl hd
  rw [(C108_evaded mediaLib_reads ⟨_, _, hd, urlencoded_media, (paramLoop_duplicate b!"; a=1; A=\"2\"").1 (by decide +kernel)⟩).1] at ht
  cases ht

example : ¬ Repeats b!"; charset=utf-8; x=\"a;x=\\\"\"" := mt (paramLoop_duplicate _).2 (by decide +kernel)

/-- What is not refused: parameters, quoted or not, and a malformed one. -/
example : ∀ p ∈ [b!"", b!";charset=utf-8", b!"; charset=utf-8; x=\"a;x=\\\"\"", b!"; a=1; b", b!"; a=1;"],
    (match Var.requestBody.fetch mediaEnv (typed (b!"Application/X-WWW-form-urlencoded " ++ p) b!"evil=1") with
      | .ok (vs, _) => vs
      | _ => []) = [b!"evil=1"] := by decide +kernel

/-- The evasion, seen by a host: the same body is denied with the plain content type, and
passes with the other. -/
example : ∀ c ∈ [(b!"application/x-www-form-urlencoded", true), (b!"application/x-www-form-urlencoded; a=1; a=2", false)],
    (outsOf ((newTransaction limits).steps mediaEnv
      (rules [(3, { vars := [.argsPostNames {}], op := some (.rx ⟨b!"evil", (· == b!"evil")⟩), actions := [.deny] })]) 20
      [.processConnection [] [] [] [], .processRequestURL none b!"POST" [], .processRequestHeader (some [(b!"Content-Type", [c.1])]),
        .appendRequestBody b!"evil=1" {}, .processRequestBody, .result])).map
      (fun os => os.getLast?.map fun o => match o with | .intervention i => i.disruptive | _ => false) = some (some c.2) := by
  decide +kernel

theorem mixed_media : MediaType b!"multipart/mixed" := (isMediaType_iff _).1 (by decide +kernel)

/-- A library whose `ReadForm` shows the boundary it is given. -/
def Sample.boundEnv : Env := { mediaEnv with lib := { mediaLib with readForm := fun _ bd _ => (.ok [(b!"b", [bd])], 0) } }

theorem Sample.mixed_declared (params : Bytes) (hp : params = [] ∨ ∃ p, params = 59 :: p) :
    NamesType (b!"MultIpart/mixed" ++ params) b!"multipart/mixed" params :=
  ⟨[], b!"MultIpart/mixed", [], by simp, by simp [AsciiBlank], by simp [AsciiBlank], by decide +kernel, hp⟩

theorem Sample.foo_params (w : Bytes) (hw : ∀ c ∈ w.head?, ¬ TokenChar c) : Params [(b!"boundary", b!"foo")] (b!"; Boundary=foo" ++ w) w :=
  .cons (n := b!"boundary") (v := b!"foo") (text := b!"; Boundary=foo") (s := w)
    (by
      have := Param.mk (w1 := []) (w2 := [32]) (w3 := []) (w4 := []) (name := b!"Boundary") (text := b!"foo") (value := b!"foo") (rest := w)
        Blank.nil (AsciiBlank.blank (by intro c hc; simp_all)) Blank.nil Blank.nil
        ⟨by decide, fun c hc => (token_iff c).1 (by revert hc; revert c; decide)⟩
        (.token ⟨by decide, fun c hc => (token_iff c).1 (by revert hc; revert c; decide)⟩ hw)
      exact this)
    .nil

/-- A parameter without a value after the boundary: the body is taken apart at another one. -/
theorem C109_refuted : ¬ C109_statement := by
  intro h
  obtain ⟨t', ht⟩ := h boundEnv (typed (b!"MultIpart/mixed" ++ (b!"; Boundary=foo" ++ b!"; x")) b!"--foo") b!"multipart/mixed" (b!"; Boundary=foo" ++ b!"; x") b!"; x"
    b!"foo" [(b!"boundary", b!"foo")] [(b!"b", [b!"foo"])] 0 {} rfl ⟨rfl, .inl rfl, by decide⟩ (mixed_declared _ (.inr ⟨_, rfl⟩)) mixed_media ⟨b!"mixed", rfl⟩
    (foo_params _ (by intro c hc; cases hc; exact not_token (.inr (.inr (by decide))))) (by simp [Distinct])
    (by intro p hp; rw [List.mem_singleton.1 hp]; decide) (by simp) rfl rfl
  have e : (match (Var.argsPost {}).fetch boundEnv (typed (b!"MultIpart/mixed" ++ (b!"; Boundary=foo" ++ b!"; x")) b!"--foo") with
      | .ok (vs, _) => vs
      | _ => []) = [[]] := by decide +kernel
  rw [ht] at e
  cases e

/-- And with what C109 allows to follow. -/
example : ∀ w ∈ [b!"", b!" ", b!";", b!" ; "],
    (match (Var.argsPost {}).fetch boundEnv (typed (b!"MultIpart/mixed" ++ (b!"; Boundary=foo" ++ w)) b!"--foo") with
      | .ok (vs, _) => vs
      | _ => []) = [b!"foo"] := by decide +kernel

example : ∃ t', (Var.argsPost {}).fetch boundEnv (typed (b!"MultIpart/mixed" ++ (b!"; Boundary=foo" ++ b!" ; ")) b!"--foo") = .ok ([b!"foo"], t') :=
  C109_boundary_partial boundEnv (typed (b!"MultIpart/mixed" ++ (b!"; Boundary=foo" ++ b!" ; ")) b!"--foo") b!"multipart/mixed" (b!"; Boundary=foo" ++ b!" ; ") b!" ; "
    b!"foo" [(b!"boundary", b!"foo")] [(b!"b", [b!"foo"])] 0 {} rfl ⟨rfl, .inl rfl, by decide⟩ (mixed_declared _ (.inr ⟨_, rfl⟩)) mixed_media ⟨b!"mixed", rfl⟩
    (foo_params _ (by intro c hc; cases hc; exact not_token (.inl (by decide)))) (by simp [Distinct])
    (by intro p hp; rw [List.mem_singleton.1 hp]; decide) (by simp) rfl rfl
    (.inr ⟨[32], [32], AsciiBlank.blank (by intro c hc; simp_all), AsciiBlank.blank (by intro c hc; simp_all), rfl⟩)

/-- A response with the given content type. -/
def Sample.answered (ct : Bytes) : Tx := { newTransaction limits with respHeader := some [(b!"Content-Type", [ct])] }

theorem C110_refuted : ¬ C110_statement := by
  intro h
  have := h mediaEnv (answered (b!"MultIpart/mixed" ++ b!";a=1;a=1")) b!"multipart/mixed" b!";a=1;a=1" rfl (mixed_declared _ (.inr ⟨_, rfl⟩)) mixed_media
  rw [(C110_shown_partial mediaEnv (answered (b!"MultIpart/mixed" ++ b!";a=1;a=1")) _ _ rfl (mixed_declared _ (.inr ⟨_, rfl⟩)) mixed_media).2
    ((paramLoop_duplicate _).1 (by decide +kernel))] at this
  cases this

example : Var.responseContentType.fetch mediaEnv (answered (b!"MultIpart/mixed" ++ b!"; a=\"x")) =
    .ok ([b!"multipart/mixed"], answered (b!"MultIpart/mixed" ++ b!"; a=\"x")) :=
  (C110_shown_partial mediaEnv (answered (b!"MultIpart/mixed" ++ b!"; a=\"x")) _ _ rfl (mixed_declared _ (.inr ⟨_, rfl⟩)) mixed_media).1
    (mt (paramLoop_duplicate _).2 (by decide +kernel))

example : Var.responseContentType.fetch mediaEnv (answered b!"text html") = .ok ([[]], answered b!"text html") :=
  C110_nameless (env := mediaEnv) rfl (by decide) (mt (isMediaType_iff _).2 (by decide +kernel))

end Verif
