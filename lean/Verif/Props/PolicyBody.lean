import Verif.Props.Policy
import Verif.Props.BodyPrefix
/-!
C88: the reference machine for rule texts whose variables read bodies.  C84: the
verdict of a whole rule text of `deny` rules and chains, body variables included.
-/
namespace Verif
open Sample Spec

/-! ### What is known when bodies count -/

/-- What the host has told, and the bodies accepted so far. -/
structure Spec.Known where
  facts : Facts := {}
  req : Bytes := []
  resp : Bytes := []

/-- What is known after one more call.  A response chunk that would take the body past
524228 bytes is refused; the request body is assumed to fit. -/
def Spec.learn (k : Known) : Op → Known
  | .appendRequestBody p _ => { k with req := k.req ++ p }
  | .appendResponseBody p _ => if k.resp.length + p.length ≤ 524228 then { k with resp := k.resp ++ p } else k
  | op => { k with facts := told k.facts op }

/-- The value of the last `SecRequestBodyAccess` (off if there is none). -/
def Spec.reqAccess (dirs : List PDir) : Bool :=
  ((dirs.filterMap fun | .reqBody b => some b | _ => none).getLast?).getD false

/-- The value of the last `SecResponseBodyAccess` (off if there is none). -/
def Spec.respAccess (dirs : List PDir) : Bool :=
  ((dirs.filterMap fun | .resBody b => some b | _ => none).getLast?).getD false

/-- The variables made from the arguments in the request body. -/
def Spec.readsArgs : VarTok → Bool
  | .args | .argsNames | .argsPost | .argsPostNames => true
  | _ => false

/-- The request has a body that may be read. -/
def Spec.Posted (access : Bool) (k : Known) : Prop :=
  access = true ∧ (k.facts.method = b!"POST" ∨ k.facts.method = b!"PUT" ∨ k.facts.method = b!"PATCH") ∧ k.req ≠ []

/-- The media type the request declares (missing: `application/octet-stream`). -/
def Spec.declared (lib : Lib) (k : Known) : Bytes :=
  match firstValue k.facts.headers b!"Content-Type" with
  | some (c :: l) => (lib.mediaType (c :: l)).1
  | _ => (lib.mediaType b!"application/octet-stream").1

/-- `m` are the arguments in the request body. -/
def Spec.PostArgs (lib : Lib) (access : Bool) (k : Known) (m : GoMap) : Prop :=
  (Posted access k ∧ b!"application/x-www-form-urlencoded" <+: declared lib k ∧ m = (lib.parseQuery k.req).1) ∨
  (¬ (Posted access k ∧ b!"application/x-www-form-urlencoded" <+: declared lib k) ∧ m = [])

/-- The request body is shown by REQUEST_BODY. -/
def Spec.BodyShown (lib : Lib) (access : Bool) (k : Known) : Prop :=
  Posted access k ∧ ∃ c l, firstValue k.facts.headers b!"Content-Type" = some (c :: l) ∧
    (lib.mediaType (c :: l)).1 = b!"application/x-www-form-urlencoded"

/-- The arguments in the query. -/
def Spec.getArgs (lib : Lib) (k : Known) : GoMap := k.facts.url.toList.flatMap fun u => (lib.parseQuery u.rawQuery).1

/-- `vals` are, in some order, the values of a variable restricted to the names in
`P`, given what is known. -/
def Spec.ListsAll (lib : Lib) (req resp : Bool) (k : Known) (P : Bytes → Prop) (vals : List Bytes) : VarTok → Prop
  | .requestBody => (BodyShown lib req k ∧ vals = [k.req]) ∨ (¬ BodyShown lib req k ∧ vals = [])
  | .responseBody => ((resp = true ∧ k.resp ≠ []) ∧ vals = [k.resp]) ∨ (¬ (resp = true ∧ k.resp ≠ []) ∧ vals = [])
  | .argsPost => ∃ m, PostArgs lib req k m ∧ ValuesIn P m vals
  | .args => ∃ m, PostArgs lib req k m ∧ ValuesIn P (getArgs lib k ++ m) vals
  | .argsPostNames => ∃ m, PostArgs lib req k m ∧ NamesIn P m vals
  | .argsNames => ∃ m a b, PostArgs lib req k m ∧ NamesIn P (getArgs lib k) a ∧ NamesIn P m b ∧ vals.Perm (a ++ b)
  | tk => Lists lib k.facts P vals tk

/-- The condition of a written rule, given what is known. -/
def Spec.HoldsAll (lib : Lib) (req resp : Bool) (k : Known) (p : PRule) : Prop :=
  HoldsBy lib (ListsAll lib req resp k) p

/-- The arguments of the request body are settled by the time they are read: from phase
`q` on no chunk is appended, the body is a well-formed query, and the request never
declares a multipart body. -/
structure Spec.FormSettled (lib : Lib) (q : Int) (ops : List Op) : Prop where
  low : 1 ≤ q
  high : q ≤ 5
  settled : ∀ pre p io post, ops = pre ++ .appendRequestBody p io :: post → ∀ o ∈ pre, ∀ q', phaseOf o = some q' → q' < q
  wellFormed : (lib.parseQuery (ops.foldl learn {}).req).2 = none
  plain : ∀ pre, pre <+: ops → ¬ b!"multipart/" <+: declared lib (pre.foldl learn {})

/-! ### The view -/

theorem Spec.PostArgs.unique {lib : Lib} {a : Bool} {k : Known} {m m' : GoMap} (h : PostArgs lib a k m) (h' : PostArgs lib a k m') : m = m' := by
  rcases h with ⟨h1, h2, rfl⟩ | ⟨h1, rfl⟩ <;> rcases h' with ⟨h3, h4, rfl⟩ | ⟨h3, rfl⟩
  · rfl
  · exact absurd ⟨h1, h2⟩ h3
  · exact absurd ⟨h3, h4⟩ h1
  · rfl

theorem listsAll_plain {lib : Lib} {a b : Bool} {k : Known} {P : Bytes → Prop} {tk : VarTok} {vals : List Bytes}
    (h : readsBody tk = false) : ListsAll lib a b k P vals tk ↔ Lists lib k.facts P vals tk := by
  cases tk <;> first | (cases h; done) | exact .rfl

theorem Spec.ListsAll.perm {lib : Lib} {a b : Bool} {k : Known} {P : Bytes → Prop} {tk : VarTok} {vals vals' : List Bytes}
    (h : ListsAll lib a b k P vals tk) (h' : ListsAll lib a b k P vals' tk) : vals.Perm vals' := by
  cases tk
  case requestBody =>
    rcases h with ⟨h1, rfl⟩ | ⟨h1, rfl⟩ <;> rcases h' with ⟨h3, rfl⟩ | ⟨h3, rfl⟩ <;>
      first | exact .refl _ | exact absurd h1 h3 | exact absurd h3 h1
  case responseBody =>
    rcases h with ⟨h1, rfl⟩ | ⟨h1, rfl⟩ <;> rcases h' with ⟨h3, rfl⟩ | ⟨h3, rfl⟩ <;>
      first | exact .refl _ | exact absurd h1 h3 | exact absurd h3 h1
  case argsPost =>
    obtain ⟨m, h1, h2⟩ := h
    obtain ⟨m', h3, h4⟩ := h'
    rw [h3.unique h1] at h4
    exact h2.perm h4
  case args =>
    obtain ⟨m, h1, h2⟩ := h
    obtain ⟨m', h3, h4⟩ := h'
    rw [h3.unique h1] at h4
    exact h2.perm h4
  case argsPostNames =>
    obtain ⟨m, h1, h2⟩ := h
    obtain ⟨m', h3, h4⟩ := h'
    rw [h3.unique h1] at h4
    exact h2.perm h4
  case argsNames =>
    obtain ⟨m, x, y, h1, h2, h3, h4⟩ := h
    obtain ⟨m', x', y', g1, g2, g3, g4⟩ := h'
    rw [g1.unique h1] at g3
    exact h4.trans (((h2.perm g2).append (h3.perm g3)).trans g4.symm)
  all_goals exact Lists.perm ((listsAll_plain rfl).1 h) ((listsAll_plain rfl).1 h')

/-- What a transaction has on record. -/
def Tx.known (t : Tx) : Known := { facts := t.facts, req := t.reqBody.memBuf, resp := t.respBody.memBuf }

/-- The body is in memory. -/
structure Buf.InMem (m f : Int) (b : Buf) : Prop where
  readed : b.readed = false
  file : b.fileBuf = none
  length : b.length = b.memBuf.length
  memLimit : b.memLimit = m
  fileLimit : b.fileLimit = f

theorem Buf.InMem.read {m f : Int} {b : Buf} (h : b.InMem m f) : b.string.1.InMem m f ∧ b.string.1.memBuf = b.memBuf := by
  have hs := b.initRead_same
  refine ⟨⟨hs.readed.trans h.readed, hs.none.2 h.file, ?_, hs.memLimit.trans h.memLimit, hs.fileLimit.trans h.fileLimit⟩, hs.memBuf⟩
  show b.initRead.length = b.initRead.memBuf.length
  rw [hs.length, hs.memBuf, h.length]

/-- The state of the bodies after the calls `h`: in memory; the arguments (of interest
if `A`) are not parsed before a call for phase `q`, and settled from then on. -/
structure BodyFine (lib : Lib) (A : Prop) (q : Int) (h : List Op) (t : Tx) : Prop where
  req : t.reqBody.InMem 131072 134217728
  resp : t.respBody.InMem 524228 524228
  told : t.known = h.foldl learn {}
  early : A → (∀ o ∈ h, ∀ p, phaseOf o = some p → p < q) → t.cache.lookup .urlencoded = none
  cache : A → t.cache.lookup .urlencoded = none ∨ t.cache.lookup .urlencoded = some (.values (lib.parseQuery t.reqBody.memBuf).1)
  good : A → (∃ o ∈ h, ∃ p, phaseOf o = some p ∧ q ≤ p) → (lib.parseQuery t.reqBody.memBuf).2 = none
  plain : A → ¬ b!"multipart/" <+: declared lib t.known

theorem declared_media (lib : Lib) (t : Tx) : declared lib t.known = mediaType lib t := by
  simp only [declared, mediaType, headerGet_first]
  show (match firstValue t.reqHeader _ with | some (c :: l) => _ | _ => _) = _
  cases firstValue t.reqHeader b!"Content-Type" with
  | none => rfl
  | some v => cases v <;> simp

theorem posted_iff {l : Limits} {t : Tx} (h : t.reqBody.length = t.reqBody.memBuf.length) :
    Posted l.requestBodyAccess t.known ↔ BodyReadable l t := by
  simp only [Posted, BodyReadable, Buf.len, h, Tx.known, Tx.facts]
  refine and_congr_right fun _ => and_congr_right fun _ => ?_
  rw [ne_eq, ne_eq, List.length_eq_zero_iff]

theorem shown_iff {lib : Lib} {l : Limits} {t : Tx} (h : t.reqBody.length = t.reqBody.memBuf.length) :
    BodyShown lib l.requestBodyAccess t.known ↔ BodyReadable l t ∧ Urlencoded lib t := by
  simp only [BodyShown, posted_iff h, Urlencoded, ← declared_media, headerGet_first, declared]
  refine and_congr_right fun _ => ?_
  show (∃ c l, firstValue t.reqHeader _ = _ ∧ _) ↔ (firstValue t.reqHeader _).getD [] ≠ [] ∧
    (match firstValue t.reqHeader _ with | some (c :: l) => _ | _ => _) = _
  cases firstValue t.reqHeader b!"Content-Type" with
  | none => simp
  | some v =>
    cases v with
    | nil => simp
    | cons x xs =>
      constructor
      · rintro ⟨c, l, h1, h2⟩; cases h1; exact ⟨by simp, h2⟩
      · exact fun h => ⟨_, _, rfl, h.2⟩

theorem fetch_nil (f : Filter) (o : IterOrd) : f.fetch o [] = [] ∧ f.names o [] = [] := by
  refine ⟨List.perm_nil.1 (f.fetch_perm o []), List.eq_nil_iff_forall_not_mem.2 fun k hk => ?_⟩
  have := ((f.mem_names o [] k).1 hk).1
  simp at this

/-- Reading the request body for its arguments. -/
theorem parse_view {env : Env} {A : Prop} {q : Int} {hs : List Op} {t : Tx} (hA : A) (hq : ∃ o ∈ hs, ∃ p, phaseOf o = some p ∧ q ≤ p)
    (h : BodyFine env.lib A q hs t) :
    ∃ m u, PostArgs env.lib env.limits.requestBodyAccess t.known m ∧ Untouched t u ∧ BodyFine env.lib A q hs u ∧ u.known = t.known ∧
      (requestBodyParse env t = .ok (u, some .urlencoded, .values m) ∨ (m = [] ∧ requestBodyParse env t = .ok (u, none, .nil))) := by
  have hl := h.req.length
  by_cases hr : BodyReadable env.limits t
  · by_cases hu : b!"application/x-www-form-urlencoded" <+: mediaType env.lib t
    · have hm : PostArgs env.lib env.limits.requestBodyAccess t.known (env.lib.parseQuery t.reqBody.memBuf).1 :=
        .inl ⟨(posted_iff hl).2 hr, by rw [declared_media]; exact hu, rfl⟩
      rcases h.cache hA with hc | hc
      · refine ⟨_, t.readReq.setCache .urlencoded (.values (env.lib.parseQuery t.reqBody.memBuf).1), hm, ⟨rfl, rfl, rfl, rfl, rfl, rfl⟩, ?_, ?_,
          .inl ((requestBodyParse_open hr).trans (loop_url_ok hu hc h.req.file (h.good hA hq)))⟩
        · obtain ⟨r1, r2⟩ := h.req.read
          have e : (t.readReq.setCache .urlencoded (.values (env.lib.parseQuery t.reqBody.memBuf).1)).reqBody.memBuf = t.reqBody.memBuf := r2
          refine ⟨r1, h.resp, ?_, fun _ hlt => ?_, fun _ => .inr ?_, fun _ _ => ?_, fun _ => ?_⟩
          · refine .trans ?_ h.told
            simp only [Tx.known, Tx.setCache, Tx.readReq, h.req.read.2, Tx.facts]
          · obtain ⟨o, ho, p, hp, hle⟩ := hq
            have := hlt o ho p hp
            omega
          · rw [e]; exact setCache_same _ _ _
          · rw [e]; exact h.good hA hq
          · exact h.plain hA
        · simp only [Tx.known, Tx.setCache, Tx.readReq, h.req.read.2, Tx.facts]
      · refine ⟨_, t, hm, .refl _, h, rfl, .inl ((requestBodyParse_open hr).trans ((loop_cached hu hc).trans ?_))⟩
        simp
    · refine ⟨[], t, .inr ⟨fun hh => hu ?_, rfl⟩, .refl _, h, rfl, .inr ⟨rfl, (requestBodyParse_open hr).trans (loop_other hu ?_)⟩⟩
      · rw [← declared_media]; exact hh.2
      · rw [← declared_media]; exact h.plain hA
  · exact ⟨[], t, .inr ⟨fun hh => hr ((posted_iff hl).1 hh.1), rfl⟩, .refl _, h, rfl, .inr ⟨rfl, requestBodyParse_closed hr⟩⟩

theorem post_values {env : Env} {A : Prop} {q : Int} {hs : List Op} {t : Tx} (hA : A) (hq : ∃ o ∈ hs, ∃ p, phaseOf o = some p ∧ q ≤ p)
    (h : BodyFine env.lib A q hs t) (f : Filter) :
    ∃ m u, PostArgs env.lib env.limits.requestBodyAccess t.known m ∧ Untouched t u ∧ BodyFine env.lib A q hs u ∧ u.known = t.known ∧
      fetchArgsPost env f t = .ok (f.fetch env.ord m, u) ∧ fetchArgsPostNames env f t = .ok (f.names env.ord m, u) := by
  obtain ⟨m, u, h1, h2, h3, h4, h5⟩ := parse_view hA hq h
  refine ⟨m, u, h1, h2, h3, h4, ?_⟩
  rcases h5 with h5 | ⟨rfl, h5⟩
  · simp only [fetchArgsPost, fetchArgsPostNames, h5, Res.bind_ok', and_self]
  · simp only [fetchArgsPost, fetchArgsPostNames, h5, Res.bind_ok', (fetch_nil f env.ord).1, (fetch_nil f env.ord).2, and_self]

theorem get_values (env : Env) (f : Filter) (t : Tx) :
    (fetchArgsGet env f t).Perm ((((getArgs env.lib t.known)).filter fun e => f.keep e.1).flatMap Prod.snd) ∧
    (fetchArgsGetNames env f t).Nodup ∧ ∀ k, k ∈ fetchArgsGetNames env f t ↔ k ∈ (getArgs env.lib t.known).map Prod.fst ∧ f.keep k = true := by
  simp only [fetchArgsGet, fetchArgsGetNames, getArgs, Tx.known, Tx.facts]
  cases t.url with
  | none => exact ⟨.refl _, .nil, by simp⟩
  | some u =>
    simp only [Option.toList_some, List.flatMap_cons, List.flatMap_nil, List.append_nil]
    exact ⟨f.fetch_perm _ _, f.names_nodup _ _, f.mem_names _ _⟩

/-- The view of what the host has told and of the bodies; `A` says whether arguments of
the request body are read, `q` from which phase on. -/
def bodyView (env : Env) (A : Prop) (q : Int) : View env where
  K := Known
  know := Tx.known
  facts := Known.facts
  fine := BodyFine env.lib A q
  lists := fun k P vals tk => ListsAll env.lib env.limits.requestBodyAccess env.limits.responseBodyAccess k P vals tk
  covers := fun p tk => readsArgs tk = true → A ∧ q ≤ p
  know_core := fun {t u} h => by
    have : u.core.known = t.core.known := by rw [h]
    exact this
  facts_know := fun _ => rfl
  fine_core := fun {hs t u} h hf => by
    have e1 : u.core.reqBody = t.core.reqBody := by rw [h]
    have e2 : u.core.respBody = t.core.respBody := by rw [h]
    have e3 : u.core.cache = t.core.cache := by rw [h]
    have e4 : u.core.known = t.core.known := by rw [h]
    have e1 : u.reqBody = t.reqBody := e1
    have e2 : u.respBody = t.respBody := e2
    have e3 : u.cache = t.cache := e3
    have e4 : u.known = t.known := e4
    obtain ⟨h1, h2, h0, h3, h4, h5, h6⟩ := hf
    exact ⟨e1 ▸ h1, e2 ▸ h2, e4.trans h0, by rw [e3]; exact h3, by rw [e3, e1]; exact h4, by rw [e1]; exact h5, by rw [e4]; exact h6⟩
  perm := fun h h' => ListsAll.perm h h'
  fetch := fun {hs p t tk f x P} hcov hph hx hP hf => by
    by_cases hrb : readsBody tk = false
    · obtain ⟨vals, h1, h2⟩ := fetch_lists hrb hx hP t
      exact ⟨vals, t, h1, .refl _, hf, rfl, (listsAll_plain hrb).2 h2⟩
    · have hl := hf.req.length
      cases tk <;> first | (exact absurd rfl hrb) | skip
      case requestBody =>
        cases hx
        by_cases hr : BodyReadable env.limits t
        · by_cases hu : Urlencoded env.lib t
          · obtain ⟨r1, r2⟩ := hf.req.read
            have e : t.readReq.reqBody.memBuf = t.reqBody.memBuf := r2
            have ek : t.readReq.known = t.known := by simp only [Tx.known, Tx.readReq, r2, Tx.facts]
            refine ⟨_, _, C44_request_body env t hr hu hf.req.file, ⟨rfl, rfl, rfl, rfl, rfl, rfl⟩, ?_, ek, .inl ⟨(shown_iff hl).2 ⟨hr, hu⟩, rfl⟩⟩
            exact ⟨r1, hf.resp, ek.trans hf.told, hf.early, by rw [e]; exact hf.cache, by rw [e]; exact hf.good, by rw [ek]; exact hf.plain⟩
          · exact ⟨_, t, (C44_content_type env t).1 hu, .refl _, hf, rfl, .inr ⟨fun h => hu ((shown_iff hl).1 h).2, rfl⟩⟩
        · exact ⟨_, t, (C44_gate env t hr).1, .refl _, hf, rfl, .inr ⟨fun h => hr ((shown_iff hl).1 h).1, rfl⟩⟩
      case responseBody =>
        cases hx
        obtain ⟨r1, r2⟩ := hf.resp.read
        by_cases hr : env.limits.responseBodyAccess = true ∧ t.respBody.memBuf ≠ []
        · have hn : (t.respBody.len == 0) = false := by
            simp only [Buf.len, hf.resp.length, beq_eq_false_iff_ne, ne_eq, List.length_eq_zero_iff]; exact hr.2
          have e : t.respBody.string = (t.respBody.string.1, t.respBody.string.2) := rfl
          rw [string_mem hf.resp.file] at e
          have ek : ({ t with respBody := t.respBody.string.1 } : Tx).known = t.known := by simp only [Tx.known, r2, Tx.facts]
          refine ⟨[t.respBody.memBuf], { t with respBody := t.respBody.string.1 }, ?_, ⟨rfl, rfl, rfl, rfl, rfl, rfl⟩, ?_, ek, .inl ⟨hr, rfl⟩⟩
          · simp only [Var.fetch, fetchResponseBody, hr.1, hn]
            rw [e]
            simp only [Bool.not_true, Bool.or_self, Bool.false_eq_true, if_false]
          · exact ⟨hf.req, r1, ek.trans hf.told, hf.early, hf.cache, hf.good, by rw [ek]; exact hf.plain⟩
        · refine ⟨[], t, ?_, .refl _, hf, rfl, .inr ⟨hr, rfl⟩⟩
          simp only [Var.fetch, fetchResponseBody]
          rw [if_pos]
          simp only [Bool.or_eq_true, Bool.not_eq_true', beq_iff_eq, Buf.len, hf.resp.length, List.length_eq_zero_iff]
          cases ha : env.limits.responseBodyAccess with
          | false => exact .inl rfl
          | true => exact .inr (Classical.byContradiction fun hc => hr ⟨ha, hc⟩)
      case argsPost =>
        obtain ⟨hA, hqp⟩ := hcov rfl
        have hq : ∃ o ∈ hs, ∃ p, phaseOf o = some p ∧ q ≤ p := by
          obtain ⟨o, ho, hop⟩ := hph
          exact ⟨o, ho, p, hop, hqp⟩
        obtain ⟨m, u, h1, h2, h3, h4, h5, h6⟩ := post_values hA hq hf f
        cases hx
        exact ⟨_, u, h5, h2, h3, h4, m, h1, f.keep, hP rfl, f.fetch_perm _ _⟩
      case argsPostNames =>
        obtain ⟨hA, hqp⟩ := hcov rfl
        have hq : ∃ o ∈ hs, ∃ p, phaseOf o = some p ∧ q ≤ p := by
          obtain ⟨o, ho, hop⟩ := hph
          exact ⟨o, ho, p, hop, hqp⟩
        obtain ⟨m, u, h1, h2, h3, h4, h5, h6⟩ := post_values hA hq hf f
        cases hx
        exact ⟨_, u, h6, h2, h3, h4, m, h1, f.names_nodup _ _, fun k => by rw [f.mem_names, hP rfl]⟩
      case args =>
        obtain ⟨hA, hqp⟩ := hcov rfl
        have hq : ∃ o ∈ hs, ∃ p, phaseOf o = some p ∧ q ≤ p := by
          obtain ⟨o, ho, hop⟩ := hph
          exact ⟨o, ho, p, hop, hqp⟩
        obtain ⟨m, u, h1, h2, h3, h4, h5, h6⟩ := post_values hA hq hf f
        cases hx
        refine ⟨fetchArgsGet env f t ++ f.fetch env.ord m, u, by simp only [Var.fetch, h5, Res.bind_ok'], h2, h3, h4, m, h1, f.keep, hP rfl, ?_⟩
        rw [List.filter_append, List.flatMap_append]
        exact (get_values env f t).1.append (f.fetch_perm _ _)
      case argsNames =>
        obtain ⟨hA, hqp⟩ := hcov rfl
        have hq : ∃ o ∈ hs, ∃ p, phaseOf o = some p ∧ q ≤ p := by
          obtain ⟨o, ho, hop⟩ := hph
          exact ⟨o, ho, p, hop, hqp⟩
        obtain ⟨m, u, h1, h2, h3, h4, h5, h6⟩ := post_values hA hq hf f
        cases hx
        obtain ⟨_, g1, g2⟩ := get_values env f t
        exact ⟨fetchArgsGetNames env f t ++ f.names env.ord m, u, by simp only [Var.fetch, h6, Res.bind_ok'], h2, h3, h4, m, _, _, h1,
          ⟨g1, fun k => by rw [g2, hP rfl]⟩, ⟨f.names_nodup _ _, fun k => by rw [f.mem_names, hP rfl]⟩, .refl _⟩

/-! ### Histories -/

theorem Buf.InMem.write_fits {m f : Int} {b : Buf} (h : b.InMem m f) {p : Bytes} (hm : (b.memBuf.length : Int) + p.length ≤ m)
    (hf : (b.memBuf.length : Int) + p.length ≤ f) (io : IOFault) :
    ∃ b' k e, b.write p io = .ok (b', k, e) ∧ b'.InMem m f ∧ b'.memBuf = b.memBuf ++ p := by
  have e1 := h.length
  have e2 := h.memLimit
  have e3 := h.fileLimit
  have : b.write p io = .ok ({ b with memBuf := b.memBuf ++ p, length := b.length + p.length }, p.length, none) := by
    simp only [Buf.write, h.readed, h.file]
    rw [if_neg (by simp), if_neg (by omega), if_neg (by omega)]
  exact ⟨_, _, _, this, ⟨h.readed, h.file, by simp [e1], e2, e3⟩, rfl⟩

theorem Buf.InMem.write_refused {m f : Int} {b : Buf} (h : b.InMem m f) {p : Bytes} (hf : f < (b.memBuf.length : Int) + p.length)
    (io : IOFault) : ∃ k e, b.write p io = .ok (b, k, e) := by
  have e1 := h.length
  have e3 := h.fileLimit
  have : b.write p io = .ok (b, 0, some .outOfFileLimit) := by
    simp only [Buf.write, h.readed]
    rw [if_neg (by simp), if_pos (by omega)]
  exact ⟨_, _, this⟩

theorem learn_told {op : Op} (h1 : ∀ p io, op ≠ .appendRequestBody p io) (h2 : ∀ p io, op ≠ .appendResponseBody p io) (k : Known) :
    learn k op = { k with facts := told k.facts op } := by
  cases op
  case appendRequestBody => exact absurd rfl (h1 _ _)
  case appendResponseBody => exact absurd rfl (h2 _ _)
  all_goals rfl

theorem learn_req (k : Known) (op : Op) : (learn k op).req = k.req ++ (chunkOf false op).getD [] := by
  cases op <;> try (simp [learn, chunkOf]; done)
  case appendResponseBody p io => simp only [learn, chunkOf]; split <;> simp

theorem learned_req (ops : List Op) (k : Known) : (ops.foldl learn k).req = k.req ++ sent false ops := by
  induction ops generalizing k with
  | nil => simp [sent]
  | cons op ops ih =>
    rw [List.foldl_cons, ih, learn_req]
    simp [sent]

theorem known_sent {t : Tx} {pre : List Op} (h : t.known = pre.foldl learn {}) : t.reqBody.memBuf = sent false pre := by
  have h : t.known.req = (pre.foldl learn ({} : Known)).req := by rw [h]
  rw [learned_req] at h
  simpa [Tx.known] using h

/-- The bodies are as the calls made them. -/
theorem body_follows {env : Env} {A : Prop} {q : Int} {ops pre post : List Op} {op : Op} (he : ops = pre ++ op :: post)
    (hform : A → FormSettled env.lib q ops) (hsize : (sent false ops).length ≤ 131072) :
    Follows (bodyView env A q) learn pre op := by
  have snoc : ∀ {k k' : Known}, k = pre.foldl learn {} → k' = learn k op → k' = (pre ++ [op]).foldl learn {} := by
    rintro k k' rfl rfl
    rw [List.foldl_append]; rfl
  have hpl : A → ¬ b!"multipart/" <+: declared env.lib ((pre ++ [op]).foldl learn {}) := fun hA =>
    (hform hA).plain _ ⟨post, by rw [he]; simp⟩
  have back : (∀ o ∈ pre ++ [op], ∀ p, phaseOf o = some p → p < q) → ∀ o ∈ pre, ∀ p, phaseOf o = some p → p < q :=
    fun h o ho => h o (List.mem_append_left _ ho)
  have fwd : (∃ o ∈ pre ++ [op], ∃ p, phaseOf o = some p ∧ q ≤ p) →
      (∃ o ∈ pre, ∃ p, phaseOf o = some p ∧ q ≤ p) ∨ ∃ p, phaseOf op = some p ∧ q ≤ p := by
    rintro ⟨o, ho, p, h⟩
    rcases List.mem_append.1 ho with ho | ho
    · exact .inl ⟨o, ho, p, h⟩
    · rw [List.mem_singleton.1 ho] at h; exact .inr ⟨p, h⟩
  constructor
  · intro h1 h2 t hf
    have hf : BodyFine env.lib A q pre t := hf
    obtain ⟨b1, b2, b3⟩ := hear_bodies t op
    have hkn : (t.hear op).known = learn t.known op := by
      rw [learn_told h1 h2]
      simp only [Tx.known, b1, b2, hear_facts t op]
    have hkn' := snoc hf.told hkn
    refine ⟨?_, hkn⟩
    refine {
        req := by rw [b1]; exact hf.req
        resp := by rw [b2]; exact hf.resp
        told := hkn'
        early := fun hA hh => by rw [b3]; exact hf.early hA (back hh)
        cache := by rw [b3, b1]; exact hf.cache
        good := fun hA hh => ?_
        plain := fun hA => by rw [hkn']; exact hpl hA }
    rw [b1]
    rcases fwd hh with hh | ⟨p, hp, hqp⟩
    · exact hf.good hA hh
    · have hs := hform hA
      have e1 : t.reqBody.memBuf = sent false pre := known_sent hf.told
      have e2 : sent false ops = sent false pre := by
        rw [he]
        simp only [sent, List.flatMap_append, List.flatMap_cons]
        have hop : (chunkOf false op).getD [] = [] := by
          cases op <;> first | rfl | exact absurd rfl (h1 _ _)
        have hpost : ∀ o ∈ post, (chunkOf false o).getD [] = [] := by
          intro o ho
          cases o <;> try rfl
          rename_i c io
          obtain ⟨a, b, rfl⟩ := List.append_of_mem ho
          have := hs.settled (pre ++ op :: a) c io b (by rw [he]; simp) op (by simp) p hp
          omega
        rw [hop, List.flatMap_eq_nil_iff.2 hpost]
        simp
      have := hs.wellFormed
      rw [learned_req, e2] at this
      rw [e1]; simpa using this
  · intro p io eop t hf
    subst eop
    have hf : BodyFine env.lib A q pre t := hf
    have e1 : t.reqBody.memBuf = sent false pre := known_sent hf.told
    have hfit : t.reqBody.memBuf.length + p.length ≤ 131072 := by
      rw [e1]
      rw [he] at hsize
      simp only [sent, List.flatMap_append, List.flatMap_cons, chunkOf, Option.getD_some, List.length_append] at hsize ⊢
      omega
    obtain ⟨b', k, e, hw, w1, w2⟩ := hf.req.write_fits (p := p) (by omega) (by omega) io
    have hkn : ({ t with reqBody := b' } : Tx).known = learn t.known (.appendRequestBody p io) := by
      simp only [Tx.known, learn, w2, Tx.facts]
    have hkn' := snoc hf.told hkn
    have hlt : A → ∀ o ∈ pre, ∀ p, phaseOf o = some p → p < q := fun hA => (hform hA).settled pre p io post he
    refine ⟨b', k, e, hw, ?_, hkn⟩
    exact {
      req := w1
      resp := hf.resp
      told := hkn'
      early := fun hA _ => hf.early hA (hlt hA)
      cache := fun hA => .inl (hf.early hA (hlt hA))
      good := fun hA hh => by
        rcases fwd hh with ⟨o, ho, p, hp, hqp⟩ | ⟨p, hp, _⟩
        · have := hlt hA o ho p hp
          omega
        · cases hp
      plain := fun hA => by rw [hkn']; exact hpl hA }
  · intro p io eop t hf
    subst eop
    have hf : BodyFine env.lib A q pre t := hf
    have key : ∃ b' k e, t.respBody.write p io = .ok (b', k, e) ∧ b'.InMem 524228 524228 ∧
        ({ t with respBody := b' } : Tx).known = learn t.known (.appendResponseBody p io) := by
      by_cases hfit : t.respBody.memBuf.length + p.length ≤ 524228
      · obtain ⟨b', k, e, hw, w1, w2⟩ := hf.resp.write_fits (p := p) (by omega) (by omega) io
        refine ⟨b', k, e, hw, w1, .trans ?_ (if_pos hfit).symm⟩
        simp only [Tx.known, w2, Tx.facts]
      · obtain ⟨k, e, hw⟩ := hf.resp.write_refused (p := p) (by omega) io
        exact ⟨_, k, e, hw, hf.resp, (if_neg hfit).symm⟩
    obtain ⟨b', k, e, hw, w1, hkn⟩ := key
    have hkn' := snoc hf.told hkn
    refine ⟨b', k, e, hw, ?_, hkn⟩
    exact {
      req := hf.req
      resp := w1
      told := hkn'
      early := fun hA hh => hf.early hA (back hh)
      cache := hf.cache
      good := fun hA hh => by
        rcases fwd hh with hh | ⟨p, hp, _⟩
        · exact hf.good hA hh
        · cases hp
      plain := fun hA => by rw [hkn']; exact hpl hA }

/-! ### The switches of a loaded text -/

theorem takeChain_others {α : Type} {g : Dire → Option α} (hg : ∀ r c, g (.rule r c) = none) : ∀ ds : List Dire,
    (takeChain ds).2.1.filterMap g ++ (takeChain ds).2.2.filterMap g = ds.filterMap g := by
  intro ds
  fun_induction takeChain ds with
  | case1 => rfl
  | case2 r ds => simp [hg]
  | case3 r ds ih => simp_all
  | case4 d ds h ih => simp_all [List.filterMap_cons]; split <;> simp_all

theorem group_others {α : Type} {g : Dire → Option α} (hg : ∀ r c, g (.rule r c) = none) (n : Nat) : ∀ ds : List Dire, ds.length ≤ n →
    (group ds).filterMap g = ds.filterMap g := by
  induction n with
  | zero => intro ds h; cases ds with | nil => rw [group] | cons => cases h
  | succ n ih =>
    intro ds h
    cases ds with
    | nil => rw [group]
    | cons d ds =>
      simp only [List.length_cons, Nat.add_le_add_iff_right] at h
      by_cases hd : ∃ r, d = .rule r true
      · obtain ⟨r, rfl⟩ := hd
        rw [group, List.filterMap_cons, List.filterMap_cons, hg, hg]
        simp only [List.filterMap_append]
        rw [ih _ (Nat.le_trans (takeChain_length ds) h), takeChain_others hg]
      · have : group (d :: ds) = d :: group ds := by
          cases d with
          | rule r c => cases c with
            | true => exact absurd ⟨r, rfl⟩ hd
            | false => exact C57_group_single r ds
          | _ => exact C57_group_other (by simp) ds
        rw [this, List.filterMap_cons, List.filterMap_cons, ih ds h]

theorem pairs_switches {lib : Lib} {dirs : List PDir} {ds : List Dire} (h : Pairs (DirMeans lib) dirs ds) :
    reqBodies ds = (dirs.filterMap fun | .reqBody b => some b | _ => none) ∧
    resBodies ds = (dirs.filterMap fun | .resBody b => some b | _ => none) := by
  simp only [reqBodies, resBodies]
  induction h with
  | nil => exact ⟨rfl, rfl⟩
  | cons hd _ ih => cases hd <;> simp [ih.1, ih.2]

theorem loaded_limits {lib : Lib} {dirs : List PDir} {ds : List Dire} (h : Pairs (DirMeans lib) dirs ds) :
    (DireSet.execute (group ds) newEngine).limits =
      { newDefaultLimits with requestBodyAccess := reqAccess dirs, responseBodyAccess := respAccess dirs } := by
  rw [(C58_switches (group ds) newEngine).2.1]
  obtain ⟨h1, h2⟩ := pairs_switches h
  have e1 : reqBodies (group ds) = reqBodies ds := group_others (fun _ _ => rfl) _ ds (Nat.le_refl _)
  have e2 : resBodies (group ds) = resBodies ds := group_others (fun _ _ => rfl) _ ds (Nat.le_refl _)
  rw [e1, e2, h1, h2]
  rfl

/-- What the host has told and the bodies accepted, as seen by the machine. -/
def Spec.bodySight (lib : Lib) (req resp : Bool) : Sight Known where
  learn := learn
  facts := Known.facts
  holds := HoldsAll lib req resp

/-- C88.  Load any text of well-formed directives (with no `allow:request` in a response
phase), and make any calls in any order that send at most 131072 bytes of request body.
If rules read arguments from the request body, they do so from some phase `q` on, by
which the form is settled.  Then the verdicts the host is shown — status, whether
disruptive, and log lines — are those of the reference machine on the chains of the
text, seeing what has been told and the bodies accepted so far, as far as the access
directives show them. -/
theorem C88_machine {lib : Lib} {vo : VarOrd} {ord : IterOrd} {text : Bytes} {dirs : List PDir} (ht : Program text dirs)
    (hok : ∀ d ∈ dirs, DirOk lib d) (hret : NoReturn (chainsOf (rulesIn dirs))) :
    ∃ set, DireSet.addSecLangString lib vo [] text = .ok (set, none) ∧
      ∀ {ops : List Op} {q : Int}, (sent false ops).length ≤ 131072 →
      (∀ c ∈ chainsOf (rulesIn dirs), 1 ≤ chainPhase c → (∃ p ∈ c, ∃ v ∈ p.vars, readsArgs v.tk = true) → q ≤ chainPhase c ∧ FormSettled lib q ops) →
      ∀ n, (chainsOf (rulesIn dirs)).length + 2 ≤ n → ∃ t' os tr,
        (set.execute newEngine).newTransaction.steps ((set.execute newEngine).env lib ord) (set.execute newEngine).ruleSet n ops = .ok (t', os, tr) ∧
        shown os = (Spec.run (bodySight lib (reqAccess dirs) (respAccess dirs)) (chainsOf (rulesIn dirs)) { known := {} } ops).2 := by
  obtain ⟨ds, hds, hload, hcar⟩ := loaded_carried (vo := vo) ht hok
  refine ⟨group ds, hload, fun {ops q} hsize hform n hn => ?_⟩
  have hlim := loaded_limits hds
  have e : (DireSet.execute (group ds) newEngine).newTransaction = newTransaction
      { newDefaultLimits with requestBodyAccess := reqAccess dirs, responseBodyAccess := respAccess dirs } := by rw [← hlim]; rfl
  obtain ⟨t', os, tr, g1, _, g3⟩ := steps_machine (env := (DireSet.execute (group ds) newEngine).env lib ord)
    (V := bodyView _ (FormSettled lib q ops) q) (S := bodySight lib (reqAccess dirs) (respAccess dirs)) (h := []) (m := { known := {} })
    (t := (DireSet.execute (group ds) newEngine).newTransaction) (n := n) (ops := ops)
    ⟨rfl, fun k p => by
      show HoldsAll lib (reqAccess dirs) (respAccess dirs) k p ↔ HoldsBy lib (ListsAll lib (DireSet.execute (group ds) newEngine).limits.requestBodyAccess
        (DireSet.execute (group ds) newEngine).limits.responseBodyAccess k) p
      rw [hlim]
      exact .rfl⟩ hcar
    (fun c hcm h1 p hp v hv ha => ((hform c hcm h1 ⟨p, hp, v, hv, ha⟩).symm)) hret hn
    (fun a op b e => body_follows e id hsize) {
      know := rfl, phase := rfl, verdict := rfl, chosen := rfl, aborted := rfl
      low := Int.le_refl 0
      high := by show (0 : Int) ≤ 7; omega
      fine := by
        rw [e]
        exact {
          req := ⟨rfl, rfl, rfl, rfl, rfl⟩
          resp := ⟨rfl, rfl, rfl, rfl, rfl⟩
          told := rfl
          early := fun _ _ => rfl
          cache := fun _ => .inl rfl
          good := fun _ ⟨o, ho, _⟩ => by cases ho
          plain := fun hA => hA.plain [] (List.nil_prefix) } }
  exact ⟨t', os, tr, g1, g3⟩

/-- Reading the verdict settles nothing new. -/
theorem Spec.FormSettled.result {lib : Lib} {q : Int} {ops : List Op} (h : FormSettled lib q ops) : FormSettled lib q (ops ++ [.result]) where
  low := h.low
  high := h.high
  settled := by
    intro pre p io post e
    rcases List.eq_nil_or_concat post with rfl | ⟨b, x, rfl⟩
    · obtain ⟨_, e2⟩ := List.append_inj' e rfl
      cases e2
    · rw [List.concat_eq_append, ← List.cons_append, ← List.append_assoc] at e
      obtain ⟨e1, _⟩ := List.append_inj' e rfl
      exact h.settled pre p io b e1
  wellFormed := by rw [List.foldl_append]; exact h.wellFormed
  plain := by
    rintro pre ⟨post, e⟩
    rcases List.eq_nil_or_concat post with rfl | ⟨b, x, rfl⟩
    · rw [List.append_nil] at e
      rw [e, List.foldl_append]
      exact h.plain ops (List.prefix_refl _)
    · rw [List.concat_eq_append, ← List.append_assoc] at e
      obtain ⟨e1, _⟩ := List.append_inj' e rfl
      exact h.plain pre ⟨b, e1⟩

/-- C84.  Take any text of well-formed directives whose rules deny, log, block or
describe, load it into a new engine and make any calls on a new transaction that
neither move the cursor nor abort nor read the verdict, sending at most 131072 bytes of
request body.  If rules read arguments from the request body, they do so from some
phase `q` on, by which the form is settled.  Then the transaction is denied exactly if
some chain of the text with a `deny` in it had its phase processed, and all its
conditions held of what had been told and of the bodies accepted by then, as far as
the access directives show them. -/
theorem C84_policy {lib : Lib} {vo : VarOrd} {ord : IterOrd} {text : Bytes} {dirs : List PDir} (ht : Program text dirs)
    (hok : ∀ d ∈ dirs, DirOk lib d) (hm : ∀ p ∈ rulesIn dirs, ∀ a ∈ p.acts.action, Spec.Mild a) {ops : List Op}
    (hops : ∀ o ∈ ops, o.keepsCursor = true ∧ o.aborts = false ∧ o.readsVerdict = false)
    (hsize : (sent false ops).length ≤ 131072) {q : Int}
    (hform : ∀ c ∈ chainsOf (rulesIn dirs), 1 ≤ chainPhase c → (∃ p ∈ c, ∃ v ∈ p.vars, readsArgs v.tk = true) →
      q ≤ chainPhase c ∧ FormSettled lib q ops) :
    ∃ set, DireSet.addSecLangString lib vo [] text = .ok (set, none) ∧
      ∀ n ≥ (chainsOf (rulesIn dirs)).length + 2, ∃ t' os i tr,
        (set.execute newEngine).newTransaction.steps ((set.execute newEngine).env lib ord) (set.execute newEngine).ruleSet n
          (ops ++ [.result]) = .ok (t', os ++ [.intervention i], tr) ∧
        (i.disruptive = true ↔ ∃ c ∈ chainsOf (rulesIn dirs), ∃ k, 1 ≤ chainPhase c ∧
          ProcessedBy (fun pre => pre.foldl learn {}) ops (chainPhase c) k ∧
          Denies c ∧ ∀ p ∈ c, HoldsAll lib (reqAccess dirs) (respAccess dirs) k p) ∧
        i.status = if i.disruptive then 403 else 200 := by
  obtain ⟨set, h1, h2⟩ := C88_machine (vo := vo) (ord := ord) ht hok (mild_noReturn hm)
  refine ⟨set, h1, fun n hn => ?_⟩
  obtain ⟨t', os, tr, g1, g2⟩ := h2 (ops := ops ++ [.result]) (q := q) (by simpa [sent, chunkOf] using hsize)
    (fun c hc h1 h2 => ⟨(hform c hc h1 h2).1, (hform c hc h1 h2).2.result⟩) n hn
  obtain ⟨is, i, k1, k2, k3⟩ := machine_verdict (S := bodySight lib (reqAccess dirs) (respAccess dirs)) (k0 := {}) (chains := chainsOf (rulesIn dirs))
    (fun c hc p hp => hm p (mem_chainsOf hc hp)) (fun c hc => chain_five ht hc) hops
  obtain ⟨os', rfl⟩ := shown_last g1 (g2.trans k1)
  exact ⟨t', os', i, tr, g1, k2, k3⟩

/-- Deny a form in which `q` is "evil". -/
def formText : Bytes := b!"SecRequestBodyAccess On\nSecRule ARGS_POST:q \"@rx evil\" \"id:1,phase:3,deny\"\n"

def formRule : PRule where
  vars := [{ tk := .argsPost, index := b!"q" }]
  op := { tk := .rx, arg := b!"evil" }
  acts := { id := 1, phase := 3, action := [⟨.deny, []⟩] }

def formDirs : List PDir := [.reqBody true, .rule formRule]

theorem formText_program : Program formText formDirs := (C53_exact id _ _).1 (by decide +kernel)

theorem formText_ok : ∀ d ∈ formDirs, DirOk lib d := by
  have no : ∀ {s : Bytes} {P : Bytes → Prop}, isRegex s = false → ∀ re, IsRegex s re → P re := by
    intro s P h re hre
    rw [(isRegex_iff s).2 ⟨re, hre⟩] at h; cases h
  intro d hd
  simp only [formDirs, List.mem_cons, List.not_mem_nil, or_false] at hd
  rcases hd with rfl | rfl
  · trivial
  · exact {
      vars := by intro v hv; rw [List.mem_singleton.1 hv]; exact ⟨by simp, fun _ => no (by decide)⟩
      op := ⟨_, .rx rfl rfl⟩
      acts := by intro a ha; rw [List.mem_singleton.1 ha]; exact .inl ⟨_, .deny⟩ }

/-- A form posted in two pieces. -/
def formOps (x y : Bytes) : List Op :=
  [.processConnection [] [] [] [], .processRequestURL none b!"POST" [],
    .processRequestHeader (some [(b!"Content-Type", [b!"application/x-www-form-urlencoded"])]),
    .appendRequestBody x {}, .appendRequestBody y {}, .processRequestBody]

theorem formOps_settled (x y : Bytes) : FormSettled lib 3 (formOps x y) where
  low := by omega
  high := by omega
  wellFormed := rfl
  settled := by
    intro pre p io post e o ho q' hq
    rcases pre with _ | ⟨o1, _ | ⟨o2, _ | ⟨o3, _ | ⟨o4, _ | ⟨o5, _ | ⟨o6, pre⟩⟩⟩⟩⟩⟩ <;>
      simp only [formOps, List.nil_append, List.cons_append, List.cons.injEq, reduceCtorEq, false_and, and_false, List.nil_eq,
        List.append_eq_nil_iff] at e
    · obtain ⟨rfl, rfl, rfl, _⟩ := e
      simp only [List.mem_cons, List.not_mem_nil, or_false] at ho
      rcases ho with rfl | rfl | rfl <;> cases hq <;> decide
    · obtain ⟨rfl, rfl, rfl, rfl, _⟩ := e
      simp only [List.mem_cons, List.not_mem_nil, or_false] at ho
      rcases ho with rfl | rfl | rfl | rfl <;> cases hq <;> decide
  plain := by
    have no : ¬ b!"multipart/" <+: b!"application/x-www-form-urlencoded" := by decide
    rintro pre ⟨post, e⟩
    rcases pre with _ | ⟨o1, _ | ⟨o2, _ | ⟨o3, _ | ⟨o4, _ | ⟨o5, _ | ⟨o6, pre⟩⟩⟩⟩⟩⟩ <;>
      simp only [formOps, List.nil_append, List.cons_append, List.cons.injEq, List.append_eq_nil_iff] at e
    · decide
    · obtain ⟨rfl, _⟩ := e; decide
    · obtain ⟨rfl, rfl, _⟩ := e; decide
    · obtain ⟨rfl, rfl, rfl, _⟩ := e; decide
    · obtain ⟨rfl, rfl, rfl, rfl, _⟩ := e; exact no
    · obtain ⟨rfl, rfl, rfl, rfl, rfl, _⟩ := e; exact no
    · obtain ⟨rfl, rfl, rfl, rfl, rfl, rfl, rfl, _⟩ := e; exact no

/-- The hypotheses of C88 are met by this text and these calls. -/
example (x y : Bytes) (hsize : x.length + y.length ≤ 131072) : ∃ set, DireSet.addSecLangString lib varOrd [] formText = .ok (set, none) ∧
    ∃ t' os tr, (set.execute newEngine).newTransaction.steps ((set.execute newEngine).env lib Sample.ord) (set.execute newEngine).ruleSet 3
        (formOps x y ++ [.result]) = .ok (t', os, tr) ∧
      shown os = (Spec.run (bodySight lib true false) [[formRule]] { known := {} } (formOps x y ++ [.result])).2 := by
  obtain ⟨set, h1, h2⟩ := C88_machine (vo := varOrd) (ord := Sample.ord) formText_program formText_ok (by
    intro c hc _ p hp a ha
    have hc : c = [formRule] := by simpa using (show c ∈ [[formRule]] from hc)
    subst hc
    rw [List.mem_singleton.1 hp] at ha
    rw [List.mem_singleton.1 ha]
    intro h; cases h)
  refine ⟨set, h1, h2 (q := 3) (by simpa [formOps, sent, chunkOf] using hsize) ?_ 3 (by decide)⟩
  intro c hc _ _
  have hc : c = [formRule] := by simpa using (show c ∈ [[formRule]] from hc)
  subst hc
  exact ⟨by decide, (formOps_settled x y).result⟩

/-- Such a form is denied exactly if the pieces make "evil". -/
example (x y : Bytes) (hsize : x.length + y.length ≤ 131072) : ∃ set, DireSet.addSecLangString lib varOrd [] formText = .ok (set, none) ∧
    ∀ n ≥ 3, ∃ t' os i tr,
      (set.execute newEngine).newTransaction.steps ((set.execute newEngine).env lib Sample.ord) (set.execute newEngine).ruleSet n
        (formOps x y ++ [.result]) = .ok (t', os ++ [.intervention i], tr) ∧ (i.disruptive = true ↔ x ++ y = b!"evil") := by
  have hm : ∀ p ∈ rulesIn formDirs, ∀ a ∈ p.acts.action, Spec.Mild a := by
    intro p hp a ha
    have hp : p = formRule := by simpa using (show p ∈ [formRule] from hp)
    subst hp
    rw [List.mem_singleton.1 ha]; exact .inl rfl
  have hops : ∀ o ∈ formOps x y, o.keepsCursor = true ∧ o.aborts = false ∧ o.readsVerdict = false := by
    intro o ho
    simp only [formOps, List.mem_cons, List.not_mem_nil, or_false] at ho
    rcases ho with rfl | rfl | rfl | rfl | rfl | rfl <;> exact ⟨rfl, rfl, rfl⟩
  obtain ⟨set, h1, h2⟩ := C84_policy (vo := varOrd) (ord := Sample.ord) (q := 3) formText_program formText_ok hm hops (by simpa [formOps, sent, chunkOf] using hsize) (by
      intro c hc _ _
      have hc : c = [formRule] := by simpa using (show c ∈ [[formRule]] from hc)
      subst hc
      exact ⟨by decide, formOps_settled x y⟩)
  refine ⟨set, h1, fun n hn => ?_⟩
  obtain ⟨t', os, i, tr, g1, g2, _⟩ := h2 n hn
  refine ⟨t', os, i, tr, g1, g2.trans ?_⟩
  have hk : applySelectors lib.rx {} (selectors formRule.vars .argsPost false) = some { incl := [b!"q"] } := rfl
  constructor
  · rintro ⟨c, hc, k, _, ⟨pre, call, post, e, hp, _, rfl⟩, _, hall⟩
    have hc : c = [formRule] := by simpa using (show c ∈ [[formRule]] from hc)
    subst hc
    have hreq : ((pre ++ [call]).foldl learn ({} : Known)).req = x ++ y := by
      rcases pre with _ | ⟨o1, _ | ⟨o2, _ | ⟨o3, _ | ⟨o4, _ | ⟨o5, _ | ⟨o6, pre⟩⟩⟩⟩⟩⟩ <;>
        simp only [formOps, List.nil_append, List.cons_append, List.cons.injEq, List.nil_eq, List.append_eq_nil_iff, reduceCtorEq, and_false] at e
      · obtain ⟨rfl, _⟩ := e; cases hp
      · obtain ⟨rfl, rfl, _⟩ := e; cases hp
      · obtain ⟨rfl, rfl, rfl, _⟩ := e; cases hp
      · obtain ⟨rfl, rfl, rfl, rfl, _⟩ := e; cases hp
      · obtain ⟨rfl, rfl, rfl, rfl, rfl, _⟩ := e; cases hp
      · obtain ⟨rfl, rfl, rfl, rfl, rfl, rfl, _⟩ := e; rfl
    obtain ⟨v, hv, z, htest, hacc⟩ := hall formRule (.head _)
    rw [List.mem_singleton.1 hv] at htest
    obtain ⟨vals, ⟨m, hm, keep, _, hperm⟩, hz⟩ := htest
    have hz := hperm.mem_iff.1 hz
    have : z = x ++ y := by
      rcases hm with ⟨_, _, rfl⟩ | ⟨_, rfl⟩
      · obtain ⟨e, he, hze⟩ := List.mem_flatMap.1 hz
        have he := (List.mem_filter.1 he).1
        rw [List.mem_singleton.1 (show e ∈ [(b!"q", [((pre ++ [call]).foldl learn ({} : Known)).req])] from he)] at hze
        rw [← hreq]; exact List.mem_singleton.1 hze
      · cases hz
    subst this
    rcases hacc.2 rfl with ⟨_, f, hf, hm⟩ | ⟨k, n, hk, _⟩
    · cases hf; exact beq_iff_eq.1 hm
    · cases hk
  · intro he
    refine ⟨[formRule], .head _, _, (by decide), ⟨(formOps x y).take 5, _, _, rfl, rfl, ?_, rfl⟩, ⟨formRule, .head _, _, .head _, rfl⟩, ?_⟩
    · intro o ho q hq
      simp only [formOps, List.take_succ_cons, List.take_zero, List.mem_cons, List.not_mem_nil, or_false] at ho
      rcases ho with rfl | rfl | rfl | rfl | rfl <;> cases hq <;> decide
    · intro p hp
      rw [List.mem_singleton.1 hp]
      refine ⟨_, .head _, x ++ y, ⟨[x ++ y], ⟨[(b!"q", [x ++ y])], ?_, ⟨_, fun k => keep_picked hk k, ?_⟩⟩, .head _⟩, ?_⟩
      · refine .inl ⟨⟨rfl, .inl rfl, ?_⟩, ?_, rfl⟩
        · show x ++ y ≠ []
          rw [he]; decide
        · exact ⟨[], rfl⟩
      · exact .refl _
      · exact ⟨fun _ => rfl, fun _ => .inl ⟨rfl, _, rfl, by rw [he]; decide⟩⟩

end Verif
