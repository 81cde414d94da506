import Verif.Proofs.Safe
import Verif.Spec.Body
/-! How the body variables read, parse and cache the request body. -/
namespace Verif

theorem lookup_filter_ne {β : Type} (k k' : BodyType) (h : k' ≠ k) : ∀ (c : List (BodyType × β)),
    (c.filter (fun e => e.1 != k)).lookup k' = c.lookup k' := by
  intro c
  induction c with
  | nil => rfl
  | cons e c ih =>
    obtain ⟨a, b⟩ := e
    by_cases ha : a = k
    · subst ha
      have h1 : (k' == a) = false := by simpa using h
      simp [List.lookup, h1, ih]
    · have h1 : (a != k) = true := by simpa using ha
      rw [List.filter_cons]
      simp only [h1, if_true, List.lookup]
      cases k' == a <;> simp [ih]

theorem setCache_same (t : Tx) (k : BodyType) (v : Parsed) : (t.setCache k v).cache.lookup k = some v := by
  simp [Tx.setCache]

theorem setCache_other (t : Tx) {k k' : BodyType} (v : Parsed) (h : k' ≠ k) :
    (t.setCache k v).cache.lookup k' = t.cache.lookup k' := by
  have h1 : (k' == k) = false := by simpa using h
  simp only [Tx.setCache, List.lookup, h1]
  exact lookup_filter_ne k k' h t.cache

theorem hasBodyMethod_iff (m : Bytes) : hasBodyMethod m = true ↔ m = b!"POST" ∨ m = b!"PUT" ∨ m = b!"PATCH" := by
  simp [hasBodyMethod, or_assoc]

theorem requestBodyParse_closed {env : Env} {t : Tx} (h : ¬ Spec.BodyReadable env.limits t) :
    requestBodyParse env t = .ok (t, none, .nil) := by
  simp only [requestBodyParse]
  split
  · rfl
  · rename_i hm
    split
    · rfl
    · rename_i ha
      refine absurd ⟨?_, ?_, ?_⟩ h
      · simp at ha; exact ha.1
      · rw [← hasBodyMethod_iff]; simpa using hm
      · simp at ha; exact ha.2

/-- The boundary parameter of the content type. -/
def boundaryOf (env : Env) (t : Tx) : Bytes :=
  (env.lib.mediaType (if headerGet t.reqHeader b!"Content-Type" = [] then b!"application/octet-stream"
    else headerGet t.reqHeader b!"Content-Type")).2

theorem requestBodyParse_open {env : Env} {t : Tx} (h : Spec.BodyReadable env.limits t) :
    requestBodyParse env t = requestBodyLoop env (Spec.mediaType env.lib t) (boundaryOf env t) [.urlencoded, .multipart] t := by
  obtain ⟨h1, h2, h3⟩ := h
  simp only [requestBodyParse, (hasBodyMethod_iff _).2 h2, h1, Spec.mediaType, boundaryOf]
  have : (t.reqBody.len == 0) = false := by simpa using h3
  simp [this]

theorem not_multipart_of_urlencoded {ct : Bytes} (h : b!"application/x-www-form-urlencoded" <+: ct) :
    ¬ b!"multipart/" <+: ct := by
  rintro ⟨s, hs⟩
  obtain ⟨s', hs'⟩ := h
  rw [← hs'] at hs
  simp at hs

theorem prefix_iff (tp : BodyType) (ct : Bytes) : tp.contentType.isPrefixOf ct = true ↔ tp.contentType <+: ct :=
  List.isPrefixOf_iff_prefix

theorem loop_other {env : Env} {ct bd : Bytes} {t : Tx} (h1 : ¬ b!"application/x-www-form-urlencoded" <+: ct)
    (h2 : ¬ b!"multipart/" <+: ct) : requestBodyLoop env ct bd [.urlencoded, .multipart] t = .ok (t, none, .nil) := by
  have e1 : BodyType.urlencoded.contentType.isPrefixOf ct = false := by
    rw [← Bool.not_eq_true, prefix_iff]; exact h1
  have e2 : BodyType.multipart.contentType.isPrefixOf ct = false := by
    rw [← Bool.not_eq_true, prefix_iff]; exact h2
  simp [requestBodyLoop, e1, e2]

theorem loop_skip {env : Env} {ct bd : Bytes} {t : Tx} (h : b!"application/x-www-form-urlencoded" <+: ct) :
    requestBodyLoop env ct bd [.multipart] t = .ok (t, none, .nil) := by
  have e2 : BodyType.multipart.contentType.isPrefixOf ct = false := by
    rw [← Bool.not_eq_true, prefix_iff]; exact not_multipart_of_urlencoded h
  simp [requestBodyLoop, e2]

theorem loop_cached {env : Env} {ct bd : Bytes} {t : Tx} {r : Parsed} (h : b!"application/x-www-form-urlencoded" <+: ct)
    (hc : t.cache.lookup .urlencoded = some r) :
    requestBodyLoop env ct bd [.urlencoded, .multipart] t =
      .ok (t, if r = .nil then none else some .urlencoded, if r = .nil then .nil else r) := by
  rw [requestBodyLoop]
  rw [if_neg (by rw [(prefix_iff .urlencoded ct).2 h]; simp)]
  simp only [hc]
  split
  · rw [loop_skip h]
  · rfl

theorem string_mem {b : Buf} (h : b.fileBuf = none) : b.string.2 = (b.memBuf, none) := by
  have h1 := b.initRead_same
  have h2 := h1.none.2 h
  simp [Buf.string, h2, h1.memBuf]

theorem string_spilled {b : Buf} (h : b.fileBuf ≠ none) : b.string.2 = (b.memBuf, some .outOfMemLimit) := by
  have h1 := b.initRead_same
  have h2 : b.initRead.fileBuf ≠ none := fun e => h (h1.none.1 e)
  have h3 : b.initRead.fileBuf.isSome = true := Option.isSome_iff_ne_none.2 h2
  simp [Buf.string, h3, h1.memBuf]

/-- The transaction after its request body was read. -/
def Tx.readReq (t : Tx) : Tx := { t with reqBody := t.reqBody.string.1 }

theorem parse_url_mem {env : Env} {bd : Bytes} {t : Tx} (h : t.reqBody.fileBuf = none) :
    parseBody env .urlencoded bd t =
      .ok (t.readReq, .values (env.lib.parseQuery t.reqBody.memBuf).1, (env.lib.parseQuery t.reqBody.memBuf).2) := by
  have e : t.reqBody.string = (t.reqBody.string.1, t.reqBody.string.2) := rfl
  rw [string_mem h] at e
  simp only [parseBody, Tx.readReq]
  rw [e]

theorem parse_url_spilled {env : Env} {bd : Bytes} {t : Tx} (h : t.reqBody.fileBuf ≠ none) :
    parseBody env .urlencoded bd t =
      .ok (t.readReq.abortWithError 413 errOutOfMemLimit, .nil, some errOutOfMemLimit) := by
  have e : t.reqBody.string = (t.reqBody.string.1, t.reqBody.string.2) := rfl
  rw [string_spilled h] at e
  simp only [parseBody, Tx.readReq]
  rw [e]

theorem loop_url_ok {env : Env} {ct bd : Bytes} {t : Tx} (h : b!"application/x-www-form-urlencoded" <+: ct)
    (hc : t.cache.lookup .urlencoded = none) (hm : t.reqBody.fileBuf = none)
    (hq : (env.lib.parseQuery t.reqBody.memBuf).2 = none) :
    requestBodyLoop env ct bd [.urlencoded, .multipart] t =
      .ok (t.readReq.setCache .urlencoded (.values (env.lib.parseQuery t.reqBody.memBuf).1), some .urlencoded,
        .values (env.lib.parseQuery t.reqBody.memBuf).1) := by
  rw [requestBodyLoop]
  rw [if_neg (by rw [(prefix_iff .urlencoded ct).2 h]; simp)]
  simp only [hc, parse_url_mem hm, hq, Res.bind_ok']
  simp

theorem loop_url_err {env : Env} {ct bd : Bytes} {t : Tx} {e : Err} (h : b!"application/x-www-form-urlencoded" <+: ct)
    (hc : t.cache.lookup .urlencoded = none) (hm : t.reqBody.fileBuf = none)
    (hq : (env.lib.parseQuery t.reqBody.memBuf).2 = some e) :
    requestBodyLoop env ct bd [.urlencoded, .multipart] t =
      .ok ({ t.readReq.setCache .urlencoded (.values (env.lib.parseQuery t.reqBody.memBuf).1) with reqBodyError := some e },
        none, .nil) := by
  rw [requestBodyLoop]
  rw [if_neg (by rw [(prefix_iff .urlencoded ct).2 h]; simp)]
  simp only [hc, parse_url_mem hm, hq, Res.bind_ok']

theorem loop_url_spilled {env : Env} {ct bd : Bytes} {t : Tx} (h : b!"application/x-www-form-urlencoded" <+: ct)
    (hc : t.cache.lookup .urlencoded = none) (hm : t.reqBody.fileBuf ≠ none) :
    requestBodyLoop env ct bd [.urlencoded, .multipart] t =
      .ok ({ (t.readReq.abortWithError 413 errOutOfMemLimit).setCache .urlencoded .nil with reqBodyError := some errOutOfMemLimit },
        none, .nil) := by
  rw [requestBodyLoop]
  rw [if_neg (by rw [(prefix_iff .urlencoded ct).2 h]; simp)]
  simp only [hc, parse_url_spilled hm, Res.bind_ok']

theorem loop_multi {env : Env} {ct bd : Bytes} {t : Tx} (h : b!"multipart/" <+: ct) :
    requestBodyLoop env ct bd [.urlencoded, .multipart] t = match t.cache.lookup .multipart with
      | some r => .ok (t, if r = .nil then none else some .multipart, if r = .nil then .nil else r)
      | none => match env.lib.readForm t.reqBody.content bd env.limits.requestBodyInMem with
        | (.ok m, pos) => .ok (({ t with reqBody := t.reqBody.afterForm pos } : Tx).setCache .multipart (.form (some m)),
            some .multipart, .form (some m))
        | (.tooLarge, pos) => .ok ({ (({ t with reqBody := t.reqBody.afterForm pos } : Tx).abortWithError 413 errMessageTooLarge).setCache
            .multipart .nil with reqBodyError := some errMessageTooLarge }, none, .nil)
        | (.err e, pos) => .ok ({ ({ t with reqBody := t.reqBody.afterForm pos } : Tx).setCache .multipart (.form none) with
            reqBodyError := some e }, none, .nil)
        | (.hang, _) => .fuel := by
  have e1 : BodyType.urlencoded.contentType.isPrefixOf ct = false := by
    rw [← Bool.not_eq_true, prefix_iff]; exact fun hu => not_multipart_of_urlencoded hu h
  have e2 : BodyType.multipart.contentType.isPrefixOf ct = true := (prefix_iff .multipart ct).2 h
  simp only [requestBodyLoop, e1, e2, Bool.not_false, Bool.not_true, if_true, Bool.false_eq_true, if_false]
  cases hc : t.cache.lookup .multipart with
  | some r => dsimp only; split <;> rfl
  | none =>
    dsimp only
    rcases hr : env.lib.readForm t.reqBody.content bd env.limits.requestBodyInMem with ⟨res, pos⟩
    cases res <;> simp [parseBody, hr]

end Verif
