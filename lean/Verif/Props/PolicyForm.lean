import Verif.Props.PolicyBody
import Verif.Props.Files
/-!
C133: the reference machine, and the verdict of a whole rule text, when the request body
is a multipart form.
-/
namespace Verif
open Sample Spec

/-! ### What is known -/

/-- `m` are the arguments in the request body, if it is a form with these fields. -/
def Spec.SentArgs (access : Bool) (fs : List (Bytes × Bytes)) (k : Known) (m : GoMap) : Prop :=
  (Posted access k ∧ m = fs.map fun f => (f.1, [f.2])) ∨ (¬ Posted access k ∧ m = [])

/-- `vals` are, in some order, the values of a variable restricted to the names in
`P`, given what is known and the fields of the form in the request body. -/
def Spec.ListsForm (lib : Lib) (req resp : Bool) (fs : List (Bytes × Bytes)) (k : Known) (P : Bytes → Prop) (vals : List Bytes) : VarTok → Prop
  | .argsPost => ∃ m, SentArgs req fs k m ∧ ValuesIn P m vals
  | .args => ∃ m, SentArgs req fs k m ∧ ValuesIn P (getArgs lib k ++ m) vals
  | .argsPostNames => ∃ m, SentArgs req fs k m ∧ NamesIn P m vals
  | .argsNames => ∃ m a b, SentArgs req fs k m ∧ NamesIn P (getArgs lib k) a ∧ NamesIn P m b ∧ vals.Perm (a ++ b)
  | tk => ListsAll lib req resp k P vals tk

/-- The condition of a written rule, given what is known and the fields of the form. -/
def Spec.HoldsForm (lib : Lib) (req resp : Bool) (fs : List (Bytes × Bytes)) (k : Known) (p : PRule) : Prop :=
  HoldsBy lib (ListsForm lib req resp fs k) p

/-- The request body is a multipart form by the time it is read: from phase `q` on no chunk
is appended and the request declares this boundary, and the body has these parts, the line of
the last delimiter being ended within the first 4096 bytes. -/
structure Spec.FormSent (q : Int) (bnd : Bytes) (ps : List (Option Bytes × Bytes)) (ops : List Op) : Prop where
  low : 1 ≤ q
  high : q ≤ 5
  settled : ∀ pre p io post, ops = pre ++ .appendRequestBody p io :: post → ∀ o ∈ pre, ∀ q', phaseOf o = some q' → q' < q
  boundary : Boundary bnd
  declared : ∀ pre, pre <+: ops → (∃ o ∈ pre, ∃ p, phaseOf o = some p ∧ q ≤ p) → BoundaryIs (pre.foldl learn {}).facts.headers bnd
  form : ∃ w rest, FormText bnd ps (w ++ b!"\r\n" ++ rest) (sent false ops) ∧ Blanks w ∧ (sent false ops).length ≤ 4096 + rest.length

/-! ### The view -/

theorem parts_other {bnd text : Bytes} {ps : List (Option Bytes × Bytes)} (h : Parts bnd ps text) : otherBytes ps ≤ text.length := by
  induction h with
  | nil => simp [otherBytes]
  | cons _ _ _ _ _ ih =>
    simp only [otherBytes, List.map_cons, List.sum_cons, List.length_append] at ih ⊢
    split <;> omega

theorem Spec.FormSent.reads {lib : Lib} (hl : lib.ReadsForms) {q : Int} {bnd : Bytes} {ps : List (Option Bytes × Bytes)} {ops : List Op}
    (h : FormSent q bnd ps ops) (hsize : (sent false ops).length ≤ 131072) {l : Limits} (hlim : l.requestBodyInMem = 131072) :
    lib.readForm (some (sent false ops)) bnd l.requestBodyInMem = (.ok (addPairs [] (fieldsOf ps)), 4096) := by
  obtain ⟨w, rest, h1, h2, h3⟩ := h.form
  refine readForm_ended hl h.boundary h1 h2 h3 ⟨?_, by rw [hlim]; decide⟩
  obtain ⟨parts, hp, e⟩ := h1
  have := parts_other hp
  rw [e] at hsize
  simp only [List.length_append] at hsize
  rw [hlim]
  omega

theorem Spec.SentArgs.unique {a : Bool} {fs : List (Bytes × Bytes)} {k : Known} {m m' : GoMap} (h : SentArgs a fs k m) (h' : SentArgs a fs k m') : m = m' := by
  rcases h with ⟨h1, rfl⟩ | ⟨h1, rfl⟩ <;> rcases h' with ⟨h3, rfl⟩ | ⟨h3, rfl⟩
  · rfl
  · exact absurd h1 h3
  · exact absurd h3 h1
  · rfl

theorem listsForm_plain {lib : Lib} {a b : Bool} {fs : List (Bytes × Bytes)} {k : Known} {P : Bytes → Prop} {tk : VarTok} {vals : List Bytes}
    (h : readsArgs tk = false) : ListsForm lib a b fs k P vals tk ↔ ListsAll lib a b k P vals tk := by
  cases tk <;> first | (cases h; done) | exact .rfl

theorem Spec.ListsForm.perm {lib : Lib} {a b : Bool} {fs : List (Bytes × Bytes)} {k : Known} {P : Bytes → Prop} {tk : VarTok} {vals vals' : List Bytes}
    (h : ListsForm lib a b fs k P vals tk) (h' : ListsForm lib a b fs k P vals' tk) : vals.Perm vals' := by
  cases tk
  case argsPost =>
    obtain ⟨m, h1, h2⟩ := h
    obtain ⟨m', h3, h4⟩ := h'
    rw [h3.unique h1] at h4
    exact h2.perm h4
  case args =>
    obtain ⟨m, h1, h2⟩ := h
    obtain ⟨m', h3, h4⟩ := h'
    rw [h3.unique h1] at h4
    exact h2.perm h4
  case argsPostNames =>
    obtain ⟨m, h1, h2⟩ := h
    obtain ⟨m', h3, h4⟩ := h'
    rw [h3.unique h1] at h4
    exact h2.perm h4
  case argsNames =>
    obtain ⟨m, x, y, h1, h2, h3, h4⟩ := h
    obtain ⟨m', x', y', g1, g2, g3, g4⟩ := h'
    rw [g1.unique h1] at g3
    exact h4.trans (((h2.perm g2).append (h3.perm g3)).trans g4.symm)
  all_goals exact ListsAll.perm ((listsForm_plain rfl).1 h) ((listsForm_plain rfl).1 h')

/-- The state of the bodies after the calls `h`: in memory; the form (of interest if `A`) is not
parsed before a call for phase `q`, and there from then on. -/
structure FormFine (lib : Lib) (l : Limits) (bnd : Bytes) (fs : List (Bytes × Bytes)) (A : Prop) (q : Int) (h : List Op) (t : Tx) : Prop where
  req : t.reqBody.InMem 131072 134217728
  resp : t.respBody.InMem 524228 524228
  told : t.known = h.foldl learn {}
  early : A → (∀ o ∈ h, ∀ p, phaseOf o = some p → p < q) → t.cache.lookup .multipart = none
  cache : A → t.cache.lookup .multipart = none ∨ t.cache.lookup .multipart = some (.form (some (addPairs [] fs)))
  good : A → (∃ o ∈ h, ∃ p, phaseOf o = some p ∧ q ≤ p) →
    lib.readForm (some t.reqBody.memBuf) bnd l.requestBodyInMem = (.ok (addPairs [] fs), 4096)
  said : A → (∃ o ∈ h, ∃ p, phaseOf o = some p ∧ q ≤ p) → BoundaryIs t.known.facts.headers bnd

theorem Buf.InMem.form {m f : Int} {b : Buf} (h : b.InMem m f) (n : Nat) : (b.afterForm n).InMem m f ∧ (b.afterForm n).memBuf = b.memBuf := by
  have hs := b.afterForm_same n
  refine ⟨⟨hs.readed.trans h.readed, hs.none.2 h.file, ?_, hs.memLimit.trans h.memLimit, hs.fileLimit.trans h.fileLimit⟩, hs.memBuf⟩
  rw [hs.length, hs.memBuf, h.length]

theorem unmapped_values (keep : Bytes → Bool) (fs : List (Bytes × Bytes)) :
    (((fs.map fun f => (f.1, [f.2])).filter fun e => keep e.1).flatMap Prod.snd) = (fs.filter fun c => keep c.1).map Prod.snd := by
  induction fs with
  | nil => rfl
  | cons a fs ih =>
    simp only [List.map_cons, List.filter_cons]
    split <;> simp_all

theorem unmapped_names (fs : List (Bytes × Bytes)) : (fs.map fun f => (f.1, [f.2])).map Prod.fst = fs.map Prod.fst := by
  simp

/-- Reading the request body for its arguments. -/
theorem form_view {env : Env} (hm : env.lib.ReadsMedia) {bnd : Bytes} {fs : List (Bytes × Bytes)} {A : Prop} {q : Int} {hs : List Op} {t : Tx} (hA : A)
    (hq : ∃ o ∈ hs, ∃ p, phaseOf o = some p ∧ q ≤ p) (h : FormFine env.lib env.limits bnd fs A q hs t) :
    ∃ u, Untouched t u ∧ FormFine env.lib env.limits bnd fs A q hs u ∧ u.known = t.known ∧
      ((Posted env.limits.requestBodyAccess t.known ∧ requestBodyParse env t = .ok (u, some .multipart, .form (some (addPairs [] fs)))) ∨
        (¬ Posted env.limits.requestBodyAccess t.known ∧ requestBodyParse env t = .ok (u, none, .nil))) := by
  have hl := h.req.length
  by_cases hr : BodyReadable env.limits t
  · obtain ⟨g1, g2⟩ := boundaryIs_reads hm (h.said hA hq : BoundaryIs t.reqHeader bnd)
    rcases h.cache hA with hc | hc
    · obtain ⟨r1, r2⟩ := h.req.form 4096
      have ek : (({ t with reqBody := t.reqBody.afterForm 4096 } : Tx).setCache .multipart (.form (some (addPairs [] fs)))).known = t.known := by
        simp only [Tx.known, Tx.setCache, r2, Tx.facts]
      refine ⟨({ t with reqBody := t.reqBody.afterForm 4096 } : Tx).setCache .multipart (.form (some (addPairs [] fs))),
        ⟨rfl, rfl, rfl, rfl, rfl, rfl⟩, ?_, ek, .inl ⟨(posted_iff hl).2 hr, ?_⟩⟩
      · have e : (({ t with reqBody := t.reqBody.afterForm 4096 } : Tx).setCache .multipart (.form (some (addPairs [] fs)))).reqBody.memBuf =
          t.reqBody.memBuf := r2
        refine ⟨r1, h.resp, ek.trans h.told, fun _ hlt => ?_, fun _ => .inr (setCache_same _ _ _), ?_, ?_⟩
        · obtain ⟨o, ho, p, hp, hle⟩ := hq
          have := hlt o ho p hp
          omega
        · rw [e]; exact h.good
        · rw [ek]; exact h.said
      · have hcon : t.reqBody.content = some t.reqBody.memBuf := by simp only [Buf.content, h.req.file]
        rw [requestBodyParse_open hr, g2, loop_multi g1, hc]
        simp only [hcon, h.good hA hq]
    · refine ⟨t, .refl _, h, rfl, .inl ⟨(posted_iff hl).2 hr, ?_⟩⟩
      rw [requestBodyParse_open hr, g2, loop_multi g1, hc]
      simp
  · exact ⟨t, .refl _, h, rfl, .inr ⟨fun hh => hr ((posted_iff hl).1 hh), requestBodyParse_closed hr⟩⟩

theorem form_values {env : Env} (hm : env.lib.ReadsMedia) {bnd : Bytes} {fs : List (Bytes × Bytes)} {A : Prop} {q : Int} {hs : List Op} {t : Tx} (hA : A)
    (hq : ∃ o ∈ hs, ∃ p, phaseOf o = some p ∧ q ≤ p) (h : FormFine env.lib env.limits bnd fs A q hs t) (f : Filter) :
    ∃ m u vals names, SentArgs env.limits.requestBodyAccess fs t.known m ∧ Untouched t u ∧ FormFine env.lib env.limits bnd fs A q hs u ∧ u.known = t.known ∧
      fetchArgsPost env f t = .ok (vals, u) ∧ fetchArgsPostNames env f t = .ok (names, u) ∧
      vals.Perm ((m.filter fun e => f.keep e.1).flatMap Prod.snd) ∧ names.Nodup ∧ ∀ k, k ∈ names ↔ k ∈ m.map Prod.fst ∧ f.keep k = true := by
  obtain ⟨u, h2, h3, h4, ⟨h1, h5⟩ | ⟨h1, h5⟩⟩ := form_view hm hA hq h
  · have hs := shown_pairs f env.ord fs
    refine ⟨_, u, f.fetch env.ord (addPairs [] fs), f.names env.ord (addPairs [] fs), .inl ⟨h1, rfl⟩, h2, h3, h4, ?_, ?_, ?_, hs.once, ?_⟩
    · simp only [fetchArgsPost, h5, Res.bind_ok']
    · simp only [fetchArgsPostNames, h5, Res.bind_ok']
    · rw [unmapped_values]; exact hs.values
    · intro k; rw [unmapped_names]; exact hs.names k
  · refine ⟨[], u, [], [], .inr ⟨h1, rfl⟩, h2, h3, h4, ?_, ?_, .refl _, .nil, by simp⟩
    · simp only [fetchArgsPost, h5, Res.bind_ok']
    · simp only [fetchArgsPostNames, h5, Res.bind_ok']

/-- The view of what the host has told and of the bodies, the request body being a form with the
fields `fs`; `A` says whether arguments of the request body are read, `q` from which phase on. -/
def formView (env : Env) (hm : env.lib.ReadsMedia) (bnd : Bytes) (fs : List (Bytes × Bytes)) (A : Prop) (q : Int) : View env where
  K := Known
  know := Tx.known
  facts := Known.facts
  fine := FormFine env.lib env.limits bnd fs A q
  lists := fun k P vals tk => ListsForm env.lib env.limits.requestBodyAccess env.limits.responseBodyAccess fs k P vals tk
  covers := fun p tk => readsArgs tk = true → A ∧ q ≤ p
  know_core := fun {t u} h => by
    have : u.core.known = t.core.known := by rw [h]
    exact this
  facts_know := fun _ => rfl
  fine_core := fun {hs t u} h hf => by
    have e1 : u.core.reqBody = t.core.reqBody := by rw [h]
    have e2 : u.core.respBody = t.core.respBody := by rw [h]
    have e3 : u.core.cache = t.core.cache := by rw [h]
    have e4 : u.core.known = t.core.known := by rw [h]
    have e1 : u.reqBody = t.reqBody := e1
    have e2 : u.respBody = t.respBody := e2
    have e3 : u.cache = t.cache := e3
    have e4 : u.known = t.known := e4
    obtain ⟨h1, h2, h0, h3, h4, h5, h6⟩ := hf
    exact ⟨e1 ▸ h1, e2 ▸ h2, e4.trans h0, by rw [e3]; exact h3, by rw [e3]; exact h4, by rw [e1]; exact h5, by rw [e4]; exact h6⟩
  perm := fun h h' => ListsForm.perm h h'
  fetch := fun {hs p t tk f x P} hcov hph hx hP hf => by
    by_cases hrb : readsBody tk = false
    · obtain ⟨vals, h1, h2⟩ := fetch_lists hrb hx hP t
      exact ⟨vals, t, h1, .refl _, hf, rfl, (listsForm_plain (by cases tk <;> first | rfl | cases hrb)).2 ((listsAll_plain hrb).2 h2)⟩
    · have hl := hf.req.length
      cases tk <;> first | (exact absurd rfl hrb) | skip
      case requestBody =>
        cases hx
        by_cases hr : BodyReadable env.limits t
        · by_cases hu : Urlencoded env.lib t
          · obtain ⟨r1, r2⟩ := hf.req.read
            have e : t.readReq.reqBody.memBuf = t.reqBody.memBuf := r2
            have ek : t.readReq.known = t.known := by simp only [Tx.known, Tx.readReq, r2, Tx.facts]
            refine ⟨_, _, C44_request_body env t hr hu hf.req.file, ⟨rfl, rfl, rfl, rfl, rfl, rfl⟩, ?_, ek, .inl ⟨(shown_iff hl).2 ⟨hr, hu⟩, rfl⟩⟩
            exact ⟨r1, hf.resp, ek.trans hf.told, hf.early, hf.cache, by rw [e]; exact hf.good, by rw [ek]; exact hf.said⟩
          · exact ⟨_, t, (C44_content_type env t).1 hu, .refl _, hf, rfl, .inr ⟨fun h => hu ((shown_iff hl).1 h).2, rfl⟩⟩
        · exact ⟨_, t, (C44_gate env t hr).1, .refl _, hf, rfl, .inr ⟨fun h => hr ((shown_iff hl).1 h).1, rfl⟩⟩
      case responseBody =>
        cases hx
        obtain ⟨r1, r2⟩ := hf.resp.read
        by_cases hr : env.limits.responseBodyAccess = true ∧ t.respBody.memBuf ≠ []
        · have hn : (t.respBody.len == 0) = false := by
            simp only [Buf.len, hf.resp.length, beq_eq_false_iff_ne, ne_eq, List.length_eq_zero_iff]; exact hr.2
          have e : t.respBody.string = (t.respBody.string.1, t.respBody.string.2) := rfl
          rw [string_mem hf.resp.file] at e
          have ek : ({ t with respBody := t.respBody.string.1 } : Tx).known = t.known := by simp only [Tx.known, r2, Tx.facts]
          refine ⟨[t.respBody.memBuf], { t with respBody := t.respBody.string.1 }, ?_, ⟨rfl, rfl, rfl, rfl, rfl, rfl⟩, ?_, ek, .inl ⟨hr, rfl⟩⟩
          · simp only [Var.fetch, fetchResponseBody, hr.1, hn]
            rw [e]
            simp only [Bool.not_true, Bool.or_self, Bool.false_eq_true, if_false]
          · exact ⟨hf.req, r1, ek.trans hf.told, hf.early, hf.cache, hf.good, by rw [ek]; exact hf.said⟩
        · refine ⟨[], t, ?_, .refl _, hf, rfl, .inr ⟨hr, rfl⟩⟩
          simp only [Var.fetch, fetchResponseBody]
          rw [if_pos]
          simp only [Bool.or_eq_true, Bool.not_eq_true', beq_iff_eq, Buf.len, hf.resp.length, List.length_eq_zero_iff]
          cases ha : env.limits.responseBodyAccess with
          | false => exact .inl rfl
          | true => exact .inr (Classical.byContradiction fun hc => hr ⟨ha, hc⟩)
      case argsPost =>
        obtain ⟨hA, hqp⟩ := hcov rfl
        have hq : ∃ o ∈ hs, ∃ p, phaseOf o = some p ∧ q ≤ p := by
          obtain ⟨o, ho, hop⟩ := hph
          exact ⟨o, ho, p, hop, hqp⟩
        obtain ⟨m, u, vals, names, h1, h2, h3, h4, h5, h6, hv, hn, hk⟩ := form_values hm hA hq hf f
        cases hx
        exact ⟨_, u, h5, h2, h3, h4, m, h1, f.keep, hP rfl, hv⟩
      case argsPostNames =>
        obtain ⟨hA, hqp⟩ := hcov rfl
        have hq : ∃ o ∈ hs, ∃ p, phaseOf o = some p ∧ q ≤ p := by
          obtain ⟨o, ho, hop⟩ := hph
          exact ⟨o, ho, p, hop, hqp⟩
        obtain ⟨m, u, vals, names, h1, h2, h3, h4, h5, h6, hv, hn, hk⟩ := form_values hm hA hq hf f
        cases hx
        exact ⟨_, u, h6, h2, h3, h4, m, h1, hn, fun k => by rw [hk, hP rfl]⟩
      case args =>
        obtain ⟨hA, hqp⟩ := hcov rfl
        have hq : ∃ o ∈ hs, ∃ p, phaseOf o = some p ∧ q ≤ p := by
          obtain ⟨o, ho, hop⟩ := hph
          exact ⟨o, ho, p, hop, hqp⟩
        obtain ⟨m, u, vals, names, h1, h2, h3, h4, h5, h6, hv, hn, hk⟩ := form_values hm hA hq hf f
        cases hx
        refine ⟨fetchArgsGet env f t ++ vals, u, by simp only [Var.fetch, h5, Res.bind_ok'], h2, h3, h4, m, h1, f.keep, hP rfl, ?_⟩
        rw [List.filter_append, List.flatMap_append]
        exact (get_values env f t).1.append hv
      case argsNames =>
        obtain ⟨hA, hqp⟩ := hcov rfl
        have hq : ∃ o ∈ hs, ∃ p, phaseOf o = some p ∧ q ≤ p := by
          obtain ⟨o, ho, hop⟩ := hph
          exact ⟨o, ho, p, hop, hqp⟩
        obtain ⟨m, u, vals, names, h1, h2, h3, h4, h5, h6, hv, hn, hk⟩ := form_values hm hA hq hf f
        cases hx
        obtain ⟨_, g1, g2⟩ := get_values env f t
        exact ⟨fetchArgsGetNames env f t ++ names, u, by simp only [Var.fetch, h6, Res.bind_ok'], h2, h3, h4, m, _, _, h1,
          ⟨g1, fun k => by rw [g2, hP rfl]⟩, ⟨hn, fun k => by rw [hk, hP rfl]⟩, .refl _⟩

/-! ### Histories -/

/-- The bodies are as the calls made them. -/
theorem form_follows {env : Env} (hm : env.lib.ReadsMedia) (hl : env.lib.ReadsForms) (hlim : env.limits.requestBodyInMem = 131072) {A : Prop} {q : Int}
    {bnd : Bytes} {ps : List (Option Bytes × Bytes)} {ops pre post : List Op} {op : Op} (he : ops = pre ++ op :: post)
    (hform : A → FormSent q bnd ps ops) (hsize : (sent false ops).length ≤ 131072) :
    Follows (formView env hm bnd (fieldsOf ps) A q) learn pre op := by
  have snoc : ∀ {k k' : Known}, k = pre.foldl learn {} → k' = learn k op → k' = (pre ++ [op]).foldl learn {} := by
    rintro k k' rfl rfl
    rw [List.foldl_append]; rfl
  have hpl : A → (∃ o ∈ pre ++ [op], ∃ p, phaseOf o = some p ∧ q ≤ p) → BoundaryIs ((pre ++ [op]).foldl learn {}).facts.headers bnd := fun hA =>
    (hform hA).declared _ ⟨post, by rw [he]; simp⟩
  have back : (∀ o ∈ pre ++ [op], ∀ p, phaseOf o = some p → p < q) → ∀ o ∈ pre, ∀ p, phaseOf o = some p → p < q :=
    fun h o ho => h o (List.mem_append_left _ ho)
  have fwd : (∃ o ∈ pre ++ [op], ∃ p, phaseOf o = some p ∧ q ≤ p) →
      (∃ o ∈ pre, ∃ p, phaseOf o = some p ∧ q ≤ p) ∨ ∃ p, phaseOf op = some p ∧ q ≤ p := by
    rintro ⟨o, ho, p, h⟩
    rcases List.mem_append.1 ho with ho | ho
    · exact .inl ⟨o, ho, p, h⟩
    · rw [List.mem_singleton.1 ho] at h; exact .inr ⟨p, h⟩
  constructor
  · intro h1 h2 t hf
    have hf : FormFine env.lib env.limits bnd (fieldsOf ps) A q pre t := hf
    obtain ⟨b1, b2, b3⟩ := hear_bodies t op
    have hkn : (t.hear op).known = learn t.known op := by
      rw [learn_told h1 h2]
      simp only [Tx.known, b1, b2, hear_facts t op]
    have hkn' := snoc hf.told hkn
    refine ⟨?_, hkn⟩
    refine {
        req := by rw [b1]; exact hf.req
        resp := by rw [b2]; exact hf.resp
        told := hkn'
        early := fun hA hh => by rw [b3]; exact hf.early hA (back hh)
        cache := by rw [b3]; exact hf.cache
        good := fun hA hh => ?_
        said := fun hA => by rw [hkn']; exact hpl hA }
    rw [b1]
    rcases fwd hh with hh | ⟨p, hp, hqp⟩
    · exact hf.good hA hh
    · have hs := hform hA
      have e1 : t.reqBody.memBuf = sent false pre := known_sent hf.told
      have e2 : sent false ops = sent false pre := by
        rw [he]
        simp only [sent, List.flatMap_append, List.flatMap_cons]
        have hop : (chunkOf false op).getD [] = [] := by
          cases op <;> first | rfl | exact absurd rfl (h1 _ _)
        have hpost : ∀ o ∈ post, (chunkOf false o).getD [] = [] := by
          intro o ho
          cases o <;> try rfl
          rename_i c io
          obtain ⟨a, b, rfl⟩ := List.append_of_mem ho
          have := hs.settled (pre ++ op :: a) c io b (by rw [he]; simp) op (by simp) p hp
          omega
        rw [hop, List.flatMap_eq_nil_iff.2 hpost]
        simp
      have := hs.reads hl hsize hlim
      rw [e2] at this
      rw [e1]; exact this
  · intro p io eop t hf
    subst eop
    have hf : FormFine env.lib env.limits bnd (fieldsOf ps) A q pre t := hf
    have e1 : t.reqBody.memBuf = sent false pre := known_sent hf.told
    have hfit : t.reqBody.memBuf.length + p.length ≤ 131072 := by
      rw [e1]
      rw [he] at hsize
      simp only [sent, List.flatMap_append, List.flatMap_cons, chunkOf, Option.getD_some, List.length_append] at hsize ⊢
      omega
    obtain ⟨b', k, e, hw, w1, w2⟩ := hf.req.write_fits (p := p) (by omega) (by omega) io
    have hkn : ({ t with reqBody := b' } : Tx).known = learn t.known (.appendRequestBody p io) := by
      simp only [Tx.known, learn, w2, Tx.facts]
    have hkn' := snoc hf.told hkn
    have hlt : A → ∀ o ∈ pre, ∀ p, phaseOf o = some p → p < q := fun hA => (hform hA).settled pre p io post he
    refine ⟨b', k, e, hw, ?_, hkn⟩
    exact {
      req := w1
      resp := hf.resp
      told := hkn'
      early := fun hA _ => hf.early hA (hlt hA)
      cache := fun hA => .inl (hf.early hA (hlt hA))
      good := fun hA hh => by
        rcases fwd hh with ⟨o, ho, p, hp, hqp⟩ | ⟨p, hp, _⟩
        · have := hlt hA o ho p hp
          omega
        · cases hp
      said := fun hA => by rw [hkn']; exact hpl hA }
  · intro p io eop t hf
    subst eop
    have hf : FormFine env.lib env.limits bnd (fieldsOf ps) A q pre t := hf
    have key : ∃ b' k e, t.respBody.write p io = .ok (b', k, e) ∧ b'.InMem 524228 524228 ∧
        ({ t with respBody := b' } : Tx).known = learn t.known (.appendResponseBody p io) := by
      by_cases hfit : t.respBody.memBuf.length + p.length ≤ 524228
      · obtain ⟨b', k, e, hw, w1, w2⟩ := hf.resp.write_fits (p := p) (by omega) (by omega) io
        refine ⟨b', k, e, hw, w1, .trans ?_ (if_pos hfit).symm⟩
        simp only [Tx.known, w2, Tx.facts]
      · obtain ⟨k, e, hw⟩ := hf.resp.write_refused (p := p) (by omega) io
        exact ⟨_, k, e, hw, hf.resp, (if_neg hfit).symm⟩
    obtain ⟨b', k, e, hw, w1, hkn⟩ := key
    have hkn' := snoc hf.told hkn
    refine ⟨b', k, e, hw, ?_, hkn⟩
    exact {
      req := hf.req
      resp := w1
      told := hkn'
      early := fun hA hh => hf.early hA (back hh)
      cache := hf.cache
      good := fun hA hh => by
        rcases fwd hh with hh | ⟨p, hp, _⟩
        · exact hf.good hA hh
        · cases hp
      said := fun hA => by rw [hkn']; exact hpl hA }

/-! ### The theorems -/

/-- What the host has told, the bodies accepted, and the fields of the form, as seen by the machine. -/
def Spec.formSight (lib : Lib) (req resp : Bool) (fs : List (Bytes × Bytes)) : Sight Known where
  learn := learn
  facts := Known.facts
  holds := HoldsForm lib req resp fs

/-- C133.  Load any text of well-formed directives (with no `allow:request` in a response
phase), and make any calls in any order that send at most 131072 bytes of request body.
If rules read arguments from the request body, they do so from some phase `q` on, by
which the body is a multipart form with the parts `ps`.  Then the verdicts the host is shown
are those of the reference machine on the chains of the text, seeing what has been told, the
bodies accepted, and the fields among `ps` as arguments - and nothing of the other parts. -/
theorem C133_machine {lib : Lib} (hm : lib.ReadsMedia) (hl : lib.ReadsForms) {vo : VarOrd} {ord : IterOrd} {text : Bytes} {dirs : List PDir}
    (ht : Program text dirs) (hok : ∀ d ∈ dirs, DirOk lib d) (hret : NoReturn (chainsOf (rulesIn dirs))) :
    ∃ set, DireSet.addSecLangString lib vo [] text = .ok (set, none) ∧
      ∀ {ops : List Op} {q : Int} {bnd : Bytes} {ps : List (Option Bytes × Bytes)}, (sent false ops).length ≤ 131072 →
      (∀ c ∈ chainsOf (rulesIn dirs), 1 ≤ chainPhase c → (∃ p ∈ c, ∃ v ∈ p.vars, readsArgs v.tk = true) → q ≤ chainPhase c ∧ FormSent q bnd ps ops) →
      ∀ n, (chainsOf (rulesIn dirs)).length + 2 ≤ n → ∃ t' os tr,
        (set.execute newEngine).newTransaction.steps ((set.execute newEngine).env lib ord) (set.execute newEngine).ruleSet n ops = .ok (t', os, tr) ∧
        shown os = (Spec.run (formSight lib (reqAccess dirs) (respAccess dirs) (fieldsOf ps)) (chainsOf (rulesIn dirs)) { known := {} } ops).2 := by
  obtain ⟨ds, hds, hload, hcar⟩ := loaded_carried (vo := vo) ht hok
  refine ⟨group ds, hload, fun {ops q bnd ps} hsize hform n hn => ?_⟩
  have hlim := loaded_limits hds
  have hmem : ((DireSet.execute (group ds) newEngine).env lib ord).limits.requestBodyInMem = 131072 := by
    show (DireSet.execute (group ds) newEngine).limits.requestBodyInMem = 131072
    rw [hlim]; rfl
  have e : (DireSet.execute (group ds) newEngine).newTransaction = newTransaction
      { newDefaultLimits with requestBodyAccess := reqAccess dirs, responseBodyAccess := respAccess dirs } := by rw [← hlim]; rfl
  obtain ⟨t', os, tr, g1, _, g3⟩ := steps_machine (env := (DireSet.execute (group ds) newEngine).env lib ord)
    (V := formView _ hm bnd (fieldsOf ps) (FormSent q bnd ps ops) q) (S := formSight lib (reqAccess dirs) (respAccess dirs) (fieldsOf ps)) (h := [])
    (m := { known := {} }) (t := (DireSet.execute (group ds) newEngine).newTransaction) (n := n) (ops := ops)
    ⟨rfl, fun k p => by
      show HoldsForm lib (reqAccess dirs) (respAccess dirs) (fieldsOf ps) k p ↔ HoldsBy lib (ListsForm lib
        (DireSet.execute (group ds) newEngine).limits.requestBodyAccess (DireSet.execute (group ds) newEngine).limits.responseBodyAccess (fieldsOf ps) k) p
      rw [hlim]
      exact .rfl⟩ hcar
    (fun c hcm h1 p hp v hv ha => ((hform c hcm h1 ⟨p, hp, v, hv, ha⟩).symm)) hret hn
    (fun a op b e => form_follows hm hl hmem e id hsize) {
      know := rfl, phase := rfl, verdict := rfl, chosen := rfl, aborted := rfl
      low := Int.le_refl 0
      high := by show (0 : Int) ≤ 7; omega
      fine := by
        rw [e]
        exact {
          req := ⟨rfl, rfl, rfl, rfl, rfl⟩
          resp := ⟨rfl, rfl, rfl, rfl, rfl⟩
          told := rfl
          early := fun _ _ => rfl
          cache := fun _ => .inl rfl
          good := fun _ ⟨o, ho, _⟩ => by cases ho
          said := fun _ ⟨o, ho, _⟩ => by cases ho } }
  exact ⟨t', os, tr, g1, g3⟩

theorem Spec.FormSent.result {q : Int} {bnd : Bytes} {ps : List (Option Bytes × Bytes)} {ops : List Op} (h : FormSent q bnd ps ops) :
    FormSent q bnd ps (ops ++ [.result]) where
  low := h.low
  high := h.high
  settled := by
    intro pre p io post e
    rcases List.eq_nil_or_concat post with rfl | ⟨b, x, rfl⟩
    · obtain ⟨_, e2⟩ := List.append_inj' e rfl
      cases e2
    · rw [List.concat_eq_append, ← List.cons_append, ← List.append_assoc] at e
      obtain ⟨e1, _⟩ := List.append_inj' e rfl
      exact h.settled pre p io b e1
  boundary := h.boundary
  declared := by
    rintro pre ⟨post, e⟩ hp
    rcases List.eq_nil_or_concat post with rfl | ⟨b, x, rfl⟩
    · rw [List.append_nil] at e
      subst e
      rw [List.foldl_append]
      refine h.declared ops (List.prefix_refl _) ?_
      obtain ⟨o, ho, p, h1, h2⟩ := hp
      rcases List.mem_append.1 ho with ho | ho
      · exact ⟨o, ho, p, h1, h2⟩
      · rw [List.mem_singleton.1 ho] at h1; cases h1
    · rw [List.concat_eq_append, ← List.append_assoc] at e
      obtain ⟨e1, _⟩ := List.append_inj' e rfl
      exact h.declared pre ⟨b, e1⟩ hp
  form := by
    have : sent false (ops ++ [.result]) = sent false ops := by simp [sent, chunkOf]
    rw [this]; exact h.form

/-- C133, for rules that deny, log, block or describe: the transaction is denied exactly if
some chain of the text with a `deny` in it had its phase processed, and all its conditions
held of what had been told, the bodies accepted by then, and the fields of the form. -/
theorem C133_policy {lib : Lib} (hmt : lib.ReadsMedia) (hl : lib.ReadsForms) {vo : VarOrd} {ord : IterOrd} {text : Bytes} {dirs : List PDir}
    (ht : Program text dirs) (hok : ∀ d ∈ dirs, DirOk lib d) (hm : ∀ p ∈ rulesIn dirs, ∀ a ∈ p.acts.action, Spec.Mild a) {ops : List Op}
    (hops : ∀ o ∈ ops, o.keepsCursor = true ∧ o.aborts = false ∧ o.readsVerdict = false)
    (hsize : (sent false ops).length ≤ 131072) {q : Int} {bnd : Bytes} {ps : List (Option Bytes × Bytes)}
    (hform : ∀ c ∈ chainsOf (rulesIn dirs), 1 ≤ chainPhase c → (∃ p ∈ c, ∃ v ∈ p.vars, readsArgs v.tk = true) →
      q ≤ chainPhase c ∧ FormSent q bnd ps ops) :
    ∃ set, DireSet.addSecLangString lib vo [] text = .ok (set, none) ∧
      ∀ n ≥ (chainsOf (rulesIn dirs)).length + 2, ∃ t' os i tr,
        (set.execute newEngine).newTransaction.steps ((set.execute newEngine).env lib ord) (set.execute newEngine).ruleSet n
          (ops ++ [.result]) = .ok (t', os ++ [.intervention i], tr) ∧
        (i.disruptive = true ↔ ∃ c ∈ chainsOf (rulesIn dirs), ∃ k, 1 ≤ chainPhase c ∧
          ProcessedBy (fun pre => pre.foldl learn {}) ops (chainPhase c) k ∧
          Denies c ∧ ∀ p ∈ c, HoldsForm lib (reqAccess dirs) (respAccess dirs) (fieldsOf ps) k p) ∧
        i.status = if i.disruptive then 403 else 200 := by
  obtain ⟨set, h1, h2⟩ := C133_machine hmt hl (vo := vo) (ord := ord) ht hok (mild_noReturn hm)
  refine ⟨set, h1, fun n hn => ?_⟩
  obtain ⟨t', os, tr, g1, g2⟩ := h2 (ops := ops ++ [.result]) (q := q) (bnd := bnd) (ps := ps) (by simpa [sent, chunkOf] using hsize)
    (fun c hc h1 h2 => ⟨(hform c hc h1 h2).1, (hform c hc h1 h2).2.result⟩) n hn
  obtain ⟨is, i, k1, k2, k3⟩ := machine_verdict (S := formSight lib (reqAccess dirs) (respAccess dirs) (fieldsOf ps)) (k0 := {}) (chains := chainsOf (rulesIn dirs))
    (fun c hc p hp => hm p (mem_chainsOf hc hp)) (fun c hc => chain_five ht hc) hops
  obtain ⟨os', rfl⟩ := shown_last g1 (g2.trans k1)
  exact ⟨t', os', i, tr, g1, k2, k3⟩

/-! ### Example -/

/-- Deny a form in which `a` is "evil". -/
def sentText : Bytes := b!"SecRequestBodyAccess On\nSecRule ARGS_POST:a \"@rx evil\" \"id:1,phase:3,deny\"\n"

def sentRule : PRule where
  vars := [{ tk := .argsPost, index := b!"a" }]
  op := { tk := .rx, arg := b!"evil" }
  acts := { id := 1, phase := 3, action := [⟨.deny, []⟩] }

def sentDirs : List PDir := [.reqBody true, .rule sentRule]

theorem sentText_program : Program sentText sentDirs := (C53_exact id _ _).1 (by decide +kernel)

theorem sentText_ok : ∀ d ∈ sentDirs, DirOk formLib d := by
  have no : ∀ {s : Bytes} {P : Bytes → Prop}, isRegex s = false → ∀ re, IsRegex s re → P re := by
    intro s P h re hre
    rw [(isRegex_iff s).2 ⟨re, hre⟩] at h; cases h
  intro d hd
  simp only [sentDirs, List.mem_cons, List.not_mem_nil, or_false] at hd
  rcases hd with rfl | rfl
  · trivial
  · exact {
      vars := by intro v hv; rw [List.mem_singleton.1 hv]; exact ⟨by simp, fun _ => no (by decide)⟩
      op := ⟨_, .rx rfl rfl⟩
      acts := by intro a ha; rw [List.mem_singleton.1 ha]; exact .inl ⟨_, .deny⟩ }

/-- The form: the field `a`, and a part that is no field. -/
def sentBody (v : Bytes) : Bytes :=
  b!"--foo\r\ncontent-disposition: form-data; name=\"a\"\r\n\r\n" ++ v ++ b!"\r\n--foo\r\n\r\nevil\r\n--foo--\r\n"

def sentOps (x y : Bytes) : List Op :=
  [.processConnection [] [] [] [], .processRequestURL none b!"POST" [],
    .processRequestHeader (some [(b!"Content-Type", [b!"MultIpart/mixed; Boundary=foo"])]),
    .appendRequestBody x {}, .appendRequestBody y {}, .processRequestBody]

theorem sentBody_form {v : Bytes} (h : 13 ∉ v) (hd : v.head? ≠ some 45) :
    FormText b!"foo" [(some b!"a", v), (none, b!"evil")] ([] ++ b!"\r\n" ++ []) (sentBody v) := by
  have hp : Parts b!"foo" [(some b!"a", v), (none, b!"evil")] _ :=
    .cons a_line (.field a_field) a_plain ((noDelimiter_plain h hd).notEnded ⟨by decide, by decide⟩)
      (.cons (ls := []) .nil (.skipped (.bare (by simp [Lacks]))) (by simp [Lacks]) ((noDelimiter_plain (by decide) (by decide)).notEnded ⟨by decide, by decide⟩) .nil)
  refine ⟨_, hp, ?_⟩
  simp [sentBody, List.append_assoc]

theorem sentOps_sent {x y v : Bytes} (hxy : x ++ y = sentBody v) (h : 13 ∉ v) (hd : v.head? ≠ some 45) (hlen : (sentBody v).length ≤ 4096) :
    FormSent 3 b!"foo" [(some b!"a", v), (none, b!"evil")] (sentOps x y) where
  low := by omega
  high := by omega
  settled := by
    intro pre p io post e o ho q' hq
    rcases pre with _ | ⟨o1, _ | ⟨o2, _ | ⟨o3, _ | ⟨o4, _ | ⟨o5, _ | ⟨o6, pre⟩⟩⟩⟩⟩⟩ <;>
      simp only [sentOps, List.nil_append, List.cons_append, List.cons.injEq, reduceCtorEq, false_and, and_false, List.nil_eq,
        List.append_eq_nil_iff] at e
    · obtain ⟨rfl, rfl, rfl, _⟩ := e
      simp only [List.mem_cons, List.not_mem_nil, or_false] at ho
      rcases ho with rfl | rfl | rfl <;> cases hq <;> decide
    · obtain ⟨rfl, rfl, rfl, rfl, _⟩ := e
      simp only [List.mem_cons, List.not_mem_nil, or_false] at ho
      rcases ho with rfl | rfl | rfl | rfl <;> cases hq <;> decide
  boundary := ⟨by decide, by decide⟩
  declared := by
    rintro pre ⟨post, e⟩ ⟨o, ho, p, hp, hle⟩
    rcases pre with _ | ⟨o1, _ | ⟨o2, _ | ⟨o3, pre⟩⟩⟩ <;>
      simp only [sentOps, List.nil_append, List.cons_append, List.cons.injEq] at e
    · cases ho
    · obtain ⟨rfl, _⟩ := e
      rw [List.mem_singleton.1 ho] at hp; cases hp; exact absurd hle (by decide)
    · obtain ⟨rfl, rfl, _⟩ := e
      simp only [List.mem_cons, List.not_mem_nil, or_false] at ho
      rcases ho with rfl | rfl <;> cases hp <;> exact absurd hle (by decide)
    · obtain ⟨rfl, rfl, rfl, e⟩ := e
      have hkeep : ∀ ops : List Op, (∀ o ∈ ops, (∃ b, o = .appendRequestBody b {}) ∨ o = .processRequestBody) → ∀ k : Known,
          (ops.foldl learn k).facts.headers = k.facts.headers := by
        intro ops hops
        induction ops with
        | nil => intro k; rfl
        | cons o ops ih =>
          intro k
          rw [List.foldl_cons, ih fun o ho => hops o (.tail _ ho)]
          rcases hops o (.head _) with ⟨b, rfl⟩ | rfl <;> rfl
      have hpre : ∀ o ∈ pre, (∃ b, o = .appendRequestBody b {}) ∨ o = .processRequestBody := by
        intro o ho
        have : o ∈ pre ++ post := List.mem_append_left _ ho
        rw [e] at this
        simp only [List.mem_cons, List.not_mem_nil, or_false] at this
        rcases this with rfl | rfl | rfl
        · exact .inl ⟨_, rfl⟩
        · exact .inl ⟨_, rfl⟩
        · exact .inr rfl
      simp only [List.foldl_cons]
      rw [hkeep pre hpre]
      exact foo_is []
  form := by
    have e : sent false (sentOps x y) = sentBody v := by
      rw [← hxy]; simp [sentOps, sent, chunkOf]
    rw [e]
    exact ⟨_, _, sentBody_form h hd, by simp [Blanks], by simpa using hlen⟩

/-- Such a form, sent in two pieces cut anywhere, is denied exactly if `a` is "evil", though there is an "evil" in a part that
is no field. -/
example (x y v : Bytes) (hxy : x ++ y = sentBody v) (h : 13 ∉ v) (hd : v.head? ≠ some 45) (hlen : (sentBody v).length ≤ 4096) :
    ∃ set, DireSet.addSecLangString formLib varOrd [] sentText = .ok (set, none) ∧
    ∀ n ≥ 3, ∃ t' os i tr,
      (set.execute newEngine).newTransaction.steps ((set.execute newEngine).env formLib Sample.ord) (set.execute newEngine).ruleSet n
        (sentOps x y ++ [.result]) = .ok (t', os ++ [.intervention i], tr) ∧ (i.disruptive = true ↔ v = b!"evil") := by
  have hm : ∀ p ∈ rulesIn sentDirs, ∀ a ∈ p.acts.action, Spec.Mild a := by
    intro p hp a ha
    have hp : p = sentRule := by simpa using (show p ∈ [sentRule] from hp)
    subst hp
    rw [List.mem_singleton.1 ha]; exact .inl rfl
  have hops : ∀ o ∈ sentOps x y, o.keepsCursor = true ∧ o.aborts = false ∧ o.readsVerdict = false := by
    intro o ho
    simp only [sentOps, List.mem_cons, List.not_mem_nil, or_false] at ho
    rcases ho with rfl | rfl | rfl | rfl | rfl | rfl <;> exact ⟨rfl, rfl, rfl⟩
  have e : sent false (sentOps x y) = sentBody v := by
    rw [← hxy]; simp [sentOps, sent, chunkOf]
  obtain ⟨set, h1, h2⟩ := C133_policy (lib := formLib) formEnv_media formLib_reads (vo := varOrd) (ord := Sample.ord) (q := 3) sentText_program sentText_ok hm hops
    (by rw [e]; omega) (by
      intro c hc _ _
      have hc : c = [sentRule] := by simpa using (show c ∈ [[sentRule]] from hc)
      subst hc
      exact ⟨by decide, sentOps_sent hxy h hd hlen⟩)
  refine ⟨set, h1, fun n hn => ?_⟩
  obtain ⟨t', os, i, tr, g1, g2, _⟩ := h2 n hn
  refine ⟨t', os, i, tr, g1, g2.trans ?_⟩
  have hk : applySelectors formLib.rx {} (selectors sentRule.vars .argsPost false) = some { incl := [b!"a"] } := rfl
  constructor
  · rintro ⟨c, hc, k, _, _, _, hall⟩
    have hc : c = [sentRule] := by simpa using (show c ∈ [[sentRule]] from hc)
    subst hc
    obtain ⟨w, hw, z, htest, hacc⟩ := hall sentRule (.head _)
    rw [List.mem_singleton.1 hw] at htest
    obtain ⟨vals, ⟨m, hm, keep, _, hperm⟩, hz⟩ := htest
    have hz := hperm.mem_iff.1 hz
    have : z = v := by
      rcases hm with ⟨_, rfl⟩ | ⟨_, rfl⟩
      · obtain ⟨e, he, hze⟩ := List.mem_flatMap.1 hz
        have he := (List.mem_filter.1 he).1
        rw [List.mem_singleton.1 (show e ∈ [(b!"a", [v])] from he)] at hze
        exact List.mem_singleton.1 hze
      · cases hz
    subst this
    rcases hacc.2 rfl with ⟨_, f, hf, hm⟩ | ⟨k, n, hk, _⟩
    · cases hf; exact beq_iff_eq.1 hm
    · cases hk
  · intro he
    refine ⟨[sentRule], .head _, _, (by decide), ⟨(sentOps x y).take 5, _, _, rfl, rfl, ?_, rfl⟩, ⟨sentRule, .head _, _, .head _, rfl⟩, ?_⟩
    · intro o ho q hq
      simp only [sentOps, List.take_succ_cons, List.take_zero, List.mem_cons, List.not_mem_nil, or_false] at ho
      rcases ho with rfl | rfl | rfl | rfl | rfl <;> cases hq <;> decide
    · intro p hp
      rw [List.mem_singleton.1 hp]
      refine ⟨_, .head _, v, ⟨[v], ⟨[(b!"a", [v])], ?_, ⟨_, fun k => keep_picked hk k, ?_⟩⟩, .head _⟩, ?_⟩
      · refine .inl ⟨⟨rfl, .inl rfl, ?_⟩, rfl⟩
        show x ++ y ≠ []
        rw [hxy]; simp [sentBody]
      · exact .refl _
      · exact ⟨fun _ => rfl, fun _ => .inl ⟨rfl, _, rfl, by rw [he]; decide⟩⟩

end Verif
