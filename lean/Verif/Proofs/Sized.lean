import Verif.Proofs.Amount
import Verif.Proofs.Phase
import Verif.Proofs.Body
import Verif.Proofs.Buffer
/-! What a transaction holds of bodies is no more than what was sent. -/
namespace Verif
open Spec

/-- The bodies in memory, and what was made of them, are no larger than what was sent. -/
structure Sized (req resp form : Nat) (t : Tx) : Prop where
  reqMem : t.reqBody.memBuf.length ≤ req
  respMem : t.respBody.memBuf.length ≤ resp
  values : ∀ m, t.cache.lookup .urlencoded = some (.values m) → Within (req + 1) m
  forms : ∀ m, t.cache.lookup .multipart = some (.form (some m)) → Within form m

variable {env : Env} {req resp form : Nat}

theorem Sized.congr {t u : Tx} (h : Sized req resp form t) (h1 : u.cache = t.cache) (h2 : u.reqBody = t.reqBody) (h3 : u.respBody = t.respBody) :
    Sized req resp form u :=
  ⟨by rw [h2]; exact h.reqMem, by rw [h3]; exact h.respMem, by rw [h1]; exact h.values, by rw [h1]; exact h.forms⟩

theorem Spec.Within.mono {a b : Nat} {m : GoMap} (h : Within a m) (hab : a ≤ b) : Within b m := ⟨by have := h.1; omega, by have := h.2; omega⟩

theorem Sized.mono {t : Tx} {req' resp' : Nat} (h : Sized req resp form t) (h1 : req ≤ req') (h2 : resp ≤ resp') : Sized req' resp' form t :=
  ⟨by have := h.reqMem; omega, by have := h.respMem; omega, fun m hm => (h.values m hm).mono (by omega), h.forms⟩

theorem Sized.new (l : Limits) : Sized 0 0 form (newTransaction l) := by
  constructor
  · simp [newTransaction, newBuffer]
  · simp [newTransaction, newBuffer]
  · intro m h; cases h
  · intro m h; cases h

theorem memBuf_string (b : Buf) : b.string.1.memBuf = b.memBuf ∧ b.string.2.1 = b.memBuf := by
  simp only [Buf.string, Buf.initRead]
  split <;> exact ⟨rfl, rfl⟩

theorem memBuf_afterForm (b : Buf) (n : Nat) : (b.afterForm n).memBuf = b.memBuf := by
  simp only [Buf.afterForm]
  split
  · rfl
  · split
    · rename_i b' _ h; exact (Buf.read_same h).memBuf
    · rfl

/-- Parsing a body: what is remembered is within the bounds. -/
theorem Sized.parseBody (hl : env.lib.Frugal form) {t : Tx} (h : Sized req resp form t) {tp : BodyType} {bd : Bytes} {t' : Tx} {p : Parsed} {e : Option Err}
    (hp : parseBody env tp bd t = .ok (t', p, e)) : Sized req resp form t' ∧ Sized req resp form (t'.setCache tp p) := by
  have key : ∀ u : Tx, u.cache = t.cache → u.reqBody.memBuf = t.reqBody.memBuf → u.respBody = t.respBody → Sized req resp form u := by
    intro u h1 h2 h3
    exact ⟨by rw [h2]; exact h.reqMem, by rw [h3]; exact h.respMem, by rw [h1]; exact h.values, by rw [h1]; exact h.forms⟩
  have set : ∀ (u : Tx) (p : Parsed), Sized req resp form u → (∀ m, tp = .urlencoded → p = .values m → Within (req + 1) m) →
      (∀ m, tp = .multipart → p = .form (some m) → Within form m) → Sized req resp form (u.setCache tp p) := by
    intro u p hu h1 h2
    refine ⟨hu.reqMem, hu.respMem, ?_, ?_⟩
    · intro m hm
      cases tp with
      | urlencoded => rw [setCache_same] at hm; exact h1 m rfl (by cases hm; rfl)
      | multipart => rw [setCache_other u p (by decide)] at hm; exact hu.values m hm
    · intro m hm
      cases tp with
      | urlencoded => rw [setCache_other u p (by decide)] at hm; exact hu.forms m hm
      | multipart => rw [setCache_same] at hm; exact h2 m rfl (by cases hm; rfl)
  cases tp with
  | urlencoded =>
    have hs := memBuf_string t.reqBody
    simp only [Verif.parseBody] at hp
    split at hp
    · simp only [Res.ok.injEq, Prod.mk.injEq] at hp
      obtain ⟨rfl, rfl, rfl⟩ := hp
      have hu := key (({ t with reqBody := t.reqBody.string.1 } : Tx).abortWithError 413 errOutOfMemLimit) rfl hs.1 rfl
      exact ⟨hu, set _ _ hu (by intro m _ h; cases h) (by intro m h; cases h)⟩
    · simp only [Res.ok.injEq, Prod.mk.injEq] at hp
      obtain ⟨rfl, rfl, rfl⟩ := hp
      have hu := key ({ t with reqBody := t.reqBody.string.1 } : Tx) rfl hs.1 rfl
      refine ⟨hu, set _ _ hu ?_ (by intro m h; cases h)⟩
      intro m _ hm
      have e : m = (env.lib.parseQuery t.reqBody.string.2.1).1 := by cases hm; rfl
      rw [e, hl.query, hs.2]
      exact (parseQuery_within _).mono (by have := h.reqMem; omega)
  | multipart =>
    simp only [Verif.parseBody] at hp
    have hu := key ({ t with reqBody := t.reqBody.afterForm (env.lib.readForm t.reqBody.content bd env.limits.requestBodyInMem).2 } : Tx) rfl
      (memBuf_afterForm _ _) rfl
    split at hp
    · rename_i m hm
      simp only [Res.ok.injEq, Prod.mk.injEq] at hp
      obtain ⟨rfl, rfl, rfl⟩ := hp
      refine ⟨hu, set _ _ hu (by intro m h; cases h) ?_⟩
      intro m' _ he
      cases he
      exact hl.form _ _ _ _ hm
    · simp only [Res.ok.injEq, Prod.mk.injEq] at hp
      obtain ⟨rfl, rfl, rfl⟩ := hp
      have hu' : Sized req resp form (({ t with reqBody := t.reqBody.afterForm (env.lib.readForm t.reqBody.content bd env.limits.requestBodyInMem).2 } : Tx).abortWithError 413 errMessageTooLarge) :=
        hu.congr rfl rfl rfl
      exact ⟨hu', set _ _ hu' (by intro m h; cases h) (by intro m _ h; cases h)⟩
    · simp only [Res.ok.injEq, Prod.mk.injEq] at hp
      obtain ⟨rfl, rfl, rfl⟩ := hp
      exact ⟨hu, set _ _ hu (by intro m h; cases h) (by intro m _ h; cases h)⟩
    · cases hp

theorem Sized.loop (hl : env.lib.Frugal form) {ct bd : Bytes} : ∀ {tps : List BodyType} {t : Tx}, Sized req resp form t → ∀ {t' : Tx} {tp : Option BodyType} {p : Parsed},
    requestBodyLoop env ct bd tps t = .ok (t', tp, p) → Sized req resp form t' ∧ ∀ k, tp = some k → t'.cache.lookup k = some p := by
  intro tps
  induction tps with
  | nil => intro t h t' tp p hp; cases hp; exact ⟨h, by intro k hk; cases hk⟩
  | cons k tps ih =>
    intro t h t' tp p hp
    rw [requestBodyLoop] at hp
    split at hp
    · exact ih h hp
    split at hp
    · rename_i r hr
      split at hp
      · exact ih h hp
      · cases hp; exact ⟨h, by intro k' hk; cases hk; exact hr⟩
    · obtain ⟨⟨t1, r, e⟩, h1, h2⟩ := Res.bind_eq_ok.1 hp
      have hh := (h.parseBody hl h1).2
      dsimp only at h2
      split at h2
      · cases h2; exact ⟨hh.congr rfl rfl rfl, by intro k' hk; cases hk⟩
      · split at h2
        · exact ih hh h2
        · cases h2; exact ⟨hh, by intro k' hk; cases hk; exact setCache_same _ _ _⟩

theorem Sized.parse (hl : env.lib.Frugal form) {t : Tx} (h : Sized req resp form t) {t' : Tx} {tp : Option BodyType} {p : Parsed}
    (hp : requestBodyParse env t = .ok (t', tp, p)) : Sized req resp form t' ∧ ∀ k, tp = some k → t'.cache.lookup k = some p := by
  rw [requestBodyParse] at hp
  split at hp
  · cases hp; exact ⟨h, by intro k hk; cases hk⟩
  split at hp
  · cases hp; exact ⟨h, by intro k hk; cases hk⟩
  · exact h.loop hl hp

theorem size_fetch_nil (f : Filter) (o : IterOrd) : size (f.fetch o []) = 0 ∧ size (f.names o []) = 0 := by
  have h1 := size_fetch f o []
  have h2 := size_names f o []
  simp only [List.flatMap_nil, List.map_nil, size_nil] at h1 h2
  omega

theorem Sized.argsPost (hl : env.lib.Frugal form) {t : Tx} (h : Sized req resp form t) {f : Filter} {t' : Tx} {vs : List Bytes}
    (hp : fetchArgsPost env f t = .ok (vs, t')) : size vs ≤ max (req + 1) form ∧ Sized req resp form t' := by
  obtain ⟨⟨t1, tp, p⟩, h1, h2⟩ := Res.bind_eq_ok.1 hp
  obtain ⟨g1, g2⟩ := h.parse hl h1
  dsimp only at h2
  split at h2
  · cases h2
    have := (g1.values _ (g2 _ rfl)).1
    have := size_fetch f env.ord ‹GoMap›
    exact ⟨by omega, g1⟩
  · cases h2
    have := (g1.forms _ (g2 _ rfl)).1
    have := size_fetch f env.ord ‹GoMap›
    exact ⟨by omega, g1⟩
  · cases h2; exact ⟨by simp [size], g1⟩

theorem Sized.argsPostNames (hl : env.lib.Frugal form) {t : Tx} (h : Sized req resp form t) {f : Filter} {t' : Tx} {vs : List Bytes}
    (hp : fetchArgsPostNames env f t = .ok (vs, t')) : size vs ≤ max (req + 1) form ∧ Sized req resp form t' := by
  obtain ⟨⟨t1, tp, p⟩, h1, h2⟩ := Res.bind_eq_ok.1 hp
  obtain ⟨g1, g2⟩ := h.parse hl h1
  dsimp only at h2
  split at h2
  · cases h2
    have := (g1.values _ (g2 _ rfl)).2
    have := size_names f env.ord ‹GoMap›
    exact ⟨by omega, g1⟩
  · cases h2
    have := (g1.forms _ (g2 _ rfl)).2
    have := size_names f env.ord ‹GoMap›
    exact ⟨by omega, g1⟩
  · cases h2
  · cases h2; exact ⟨by simp [size], g1⟩

theorem size_argsGet (hl : env.lib.Frugal form) (f : Filter) (t : Tx) :
    size (fetchArgsGet env f t) ≤ querySize t ∧ size (fetchArgsGetNames env f t) ≤ querySize t := by
  simp only [fetchArgsGet, fetchArgsGetNames, querySize]
  cases t.url with
  | none => simp [size]
  | some u =>
    dsimp only
    rw [hl.query]
    have h := parseQuery_within u.rawQuery
    have := size_fetch f env.ord (parseQuery u.rawQuery).1
    have := size_names f env.ord (parseQuery u.rawQuery).1
    exact ⟨by have := h.1; omega, by have := h.2; omega⟩

/-- Looking at a variable shows no more than its bound, and leaves the bodies within theirs. -/
theorem Sized.fetch (hl : env.lib.Frugal form) : ∀ {v : Var} {t : Tx}, v.Library → Sized req resp form t → ∀ {vs : List Bytes} {t' : Tx},
    v.fetch env t = .ok (vs, t') → size vs ≤ atMost t req resp form v ∧ Sized req resp form t' := by
  have hs1 : ∀ v : Bytes, size [v] = v.length + 1 := fun v => by simp [size]
  intro v
  induction v with
  | args g p =>
    intro t _ h vs t' hv
    obtain ⟨⟨x, t1⟩, h1, h2⟩ := Res.bind_eq_ok.1 hv
    cases h2
    have := h.argsPost hl h1
    have := (size_argsGet hl g t).1
    rw [size_append, atMost]
    exact ⟨by omega, by simp_all⟩
  | argsNames g p =>
    intro t _ h vs t' hv
    obtain ⟨⟨x, t1⟩, h1, h2⟩ := Res.bind_eq_ok.1 hv
    cases h2
    have := h.argsPostNames hl h1
    have := (size_argsGet hl g t).2
    rw [size_append, atMost]
    exact ⟨by omega, by simp_all⟩
  | argsGet f => intro t _ h vs t' hv; cases hv; exact ⟨(size_argsGet hl f t).1, h⟩
  | argsGetNames f => intro t _ h vs t' hv; cases hv; exact ⟨(size_argsGet hl f t).2, h⟩
  | argsPost f => intro t _ h vs t' hv; exact h.argsPost hl hv
  | argsPostNames f => intro t _ h vs t' hv; exact h.argsPostNames hl hv
  | queryString =>
    intro t _ h vs t' hv; cases hv
    refine ⟨?_, h⟩
    simp only [atMost, querySize]
    cases t.url <;> simp [size]
  | remoteAddr => intro t _ h vs t' hv; cases hv; exact ⟨Nat.le_of_eq (hs1 _), h⟩
  | requestBasename =>
    intro t _ h vs t' hv; cases hv
    refine ⟨?_, h⟩
    simp only [atMost]
    cases t.url with
    | none => simp [size]
    | some u => have := basename_length u.path; simp [hs1]; omega
  | requestBody =>
    intro t _ h vs t' hv
    simp only [Var.fetch, Res.ok.injEq] at hv
    simp only [fetchRequestBody] at hv
    have hs := memBuf_string t.reqBody
    have hu : Sized req resp form { t with reqBody := t.reqBody.string.1 } :=
      ⟨by dsimp only; rw [hs.1]; exact h.reqMem, h.respMem, h.values, h.forms⟩
    have hr := h.reqMem
    repeat' split at hv
    all_goals first
      | (cases hv; refine ⟨?_, h⟩; exact Nat.zero_le _)
      | (cases hv; refine ⟨?_, hu.congr rfl rfl rfl⟩; exact Nat.zero_le _)
      | (cases hv; refine ⟨?_, hu⟩; rw [hs1]; show t.reqBody.string.2.1.length + 1 ≤ req + 1; rw [hs.2]; omega)
  | requestCookies f =>
    intro t _ h vs t' hv; cases hv
    refine ⟨?_, h⟩
    simp only [atMost, cookieSize]
    cases t.reqHeader with
    | none => simp [size]
    | some g => exact Nat.le_trans (size_fetch f env.ord _) (readCookie_within g).1
  | requestCookiesNames f =>
    intro t _ h vs t' hv; cases hv
    refine ⟨?_, h⟩
    simp only [atMost, cookieSize]
    cases t.reqHeader with
    | none => simp [size]
    | some g => exact Nat.le_trans (size_names f env.ord _) (readCookie_within g).2
  | requestFilename =>
    intro t _ h vs t' hv; cases hv
    refine ⟨?_, h⟩
    simp only [atMost]
    cases t.url <;> simp [size]
  | requestHeaders f => intro t _ h vs t' hv; cases hv; exact ⟨size_fetch f env.ord _, h⟩
  | requestHeadersNames f =>
    intro t _ h vs t' hv; cases hv
    refine ⟨?_, h⟩
    cases t.url with
    | none => simp [size]
    | some _ => exact size_names f env.ord _
  | requestMethod => intro t _ h vs t' hv; cases hv; exact ⟨Nat.le_of_eq (hs1 _), h⟩
  | requestProtocol => intro t _ h vs t' hv; cases hv; exact ⟨Nat.le_of_eq (hs1 _), h⟩
  | requestUri =>
    intro t _ h vs t' hv; cases hv
    refine ⟨?_, h⟩
    simp only [atMost, fetchRequestUri]
    cases t.url with
    | none => simp [size]
    | some u =>
      dsimp only
      rw [hl.url, hs1]
      have := urlString_length { u with scheme := [], host := [], opaque_ := [], user := none } rfl rfl rfl rfl
      dsimp only at this
      simp only [Option.map_some, Option.getD_some]
      omega
  | responseBody =>
    intro t _ h vs t' hv
    simp only [Var.fetch, Res.ok.injEq] at hv
    simp only [fetchResponseBody] at hv
    have hs := memBuf_string t.respBody
    have hu : Sized req resp form { t with respBody := t.respBody.string.1 } :=
      ⟨h.reqMem, by dsimp only; rw [hs.1]; exact h.respMem, h.values, h.forms⟩
    have hr := h.respMem
    repeat' split at hv
    all_goals first
      | (cases hv; refine ⟨?_, h⟩; exact Nat.zero_le _)
      | (cases hv; refine ⟨?_, hu.congr rfl rfl rfl⟩; exact Nat.zero_le _)
      | (cases hv; refine ⟨?_, hu⟩; rw [hs1]; show t.respBody.string.2.1.length + 1 ≤ resp + 1; rw [hs.2]; omega)
  | responseContentLength =>
    intro t _ h vs t' hv; cases hv
    refine ⟨?_, h⟩
    simp only [atMost]
    split
    · rw [hs1]; omega
    · rw [hs1, show (b!"0" : Bytes).length = 1 by decide]; omega
  | responseContentType =>
    intro t _ h vs t' hv; cases hv
    refine ⟨?_, h⟩
    rw [atMost, hs1, hl.media]
    split
    · have := parseMediaType_length env.lib.lowerHi b!"application/octet-stream"
      rw [show (b!"application/octet-stream" : Bytes).length = 24 by decide] at this
      omega
    · have := parseMediaType_length env.lib.lowerHi (headerGet t.respHeader b!"Content-Type")
      omega
  | responseHeaders f => intro t _ h vs t' hv; cases hv; exact ⟨size_fetch f env.ord _, h⟩
  | responseHeadersNames f => intro t _ h vs t' hv; cases hv; exact ⟨size_names f env.ord _, h⟩
  | responseProtocol => intro t _ h vs t' hv; cases hv; exact ⟨Nat.le_of_eq (hs1 _), h⟩
  | responseStatus => intro t _ h vs t' hv; cases hv; exact ⟨Nat.le_of_eq (hs1 _), h⟩
  | count v ih =>
    intro t hvl h vs t' hv
    obtain ⟨⟨x, t1⟩, h1, h2⟩ := Res.bind_eq_ok.1 hv
    cases h2
    obtain ⟨g1, g2⟩ := ih hvl h h1
    have := length_le_size x
    have := itoa_length x.length
    rw [hs1, atMost]
    exact ⟨by omega, g2⟩
  | custom f => intro t hvl; exact absurd hvl (by simp [Var.Library])

end Verif
