import Verif.Proofs.Form
import Verif.Props.Multipart
import Verif.Props.Query
/-! C123: the fields of a multipart form. -/
namespace Verif
open Sample Spec

/-- What a program that reads does, by what `ReadForm` makes of the bytes so far; `err` gives the
text of errors. -/
def AsForm (err : FormFail → Err) (s : FormStep) (x : Nat ⊕ FormRes) : Prop :=
  match s with
  | .form m => x = .inr (.ok m)
  | .tooLarge => x = .inr .tooLarge
  | .failed e => x = .inr (.err (err e))
  | .more k => x = .inl (4096 - k)
  | .unknown => True

/-- The library's `ReadForm` is that of Go: a program with a buffer of 4096 bytes which, as long
as it gets bytes, does what `readFormOn` says (if it says anything). -/
def Lib.ReadsForms (lib : Lib) : Prop :=
  ∃ g err, lib.Runs g ∧ ∀ bnd m h, (∀ a ∈ h, a.1 ≠ [] ∧ a.2 = none) → AsForm err (readFormOn lib.lowerHi bnd m (h.flatMap Prod.fst)) (g bnd m h)

/-- The request has a multipart body with this boundary, by its Content-Type. -/
def Spec.BoundaryIs (h : Option GoMap) (bnd : Bytes) : Prop :=
  ∃ m params w ps, Declares h m params ∧ MediaType m ∧ b!"multipart/" <+: m ∧ Params ps params w ∧ Distinct ps ∧ (Blank w ∨ LoneSemicolon w) ∧
    (∀ p ∈ ps, 42 ∉ p.1) ∧ (b!"boundary", bnd) ∈ ps

/-- The body of the request, not looked at before. -/
structure Spec.FreshBody (env : Env) (t : Tx) (bnd body : Bytes) : Prop where
  readable : BodyReadable env.limits t
  declared : BoundaryIs t.reqHeader bnd
  boundary : Boundary bnd
  content : t.reqBody.content = some body
  fresh : t.cache.lookup .multipart = none

/-- The memory limit: not negative, far from overflow, and enough for what is not a field. -/
def Spec.Room (l : Limits) (ps : List (Option Bytes × Bytes)) : Prop :=
  otherBytes ps ≤ l.requestBodyInMem ∧ l.requestBodyInMem + 10485760 < 2 ^ 63

/-! ### The library function -/

theorem readForm_first {lib : Lib} (hl : lib.ReadsForms) {bnd c : Bytes} {mm : Int} (hb : Boundary bnd) (hm : mm + 10485760 < 2 ^ 63) (hc : c ≠ []) {form : GoMap}
    (h : readFormOn lib.lowerHi bnd mm (c.take 4096) = .form form) : lib.readForm (some c) bnd mm = (.ok form, 4096) := by
  obtain ⟨g, err, hg, hf⟩ := hl
  have h0 := hf bnd mm [] (by simp)
  rw [List.flatMap_nil, readFormOn_nothing _ hb hm] at h0
  have hne : c.take 4096 ≠ [] := by simpa using hc
  have h1 := hf bnd mm [(c.take 4096, none)] (by simpa using hne)
  simp only [List.flatMap_cons, List.flatMap_nil, List.append_nil, h] at h1
  refine (hg.runs (some c) bnd mm _ _ (by simp)).2 (.ask h0 ?_ (.stop h1))
  exact ⟨by simp [hc], rfl⟩

/-- The error depends on the reason only. -/
theorem readForm_second {lib : Lib} (hl : lib.ReadsForms) : ∃ err : FormFail → Err, ∀ {bnd c : Bytes} {mm : Int} (_ : Boundary bnd) (_ : mm + 10485760 < 2 ^ 63) (_ : c ≠ [])
    {k : Nat} {e : FormFail}
    (_ : readFormOn lib.lowerHi bnd mm (c.take 4096) = .more k) (_ : readFormOn lib.lowerHi bnd mm (c.take 4096 ++ c.take (4096 - k)) = .failed e),
    lib.readForm (some c) bnd mm = (.err (err e), 4096 - k) := by
  obtain ⟨g, err, hg, hf⟩ := hl
  refine ⟨err, fun {bnd c mm} hb hm hc {k e} h h' => ?_⟩
  have h0 := hf bnd mm [] (by simp)
  rw [List.flatMap_nil, readFormOn_nothing _ hb hm] at h0
  have hk := readFormOn_more h
  have hne : c.take 4096 ≠ [] := by simpa using hc
  have hne' : c.take (4096 - k) ≠ [] := by
    simp only [ne_eq, List.take_eq_nil_iff, not_or]
    exact ⟨by omega, hc⟩
  have h1 := hf bnd mm [(c.take 4096, none)] (by simpa using hne)
  simp only [List.flatMap_cons, List.flatMap_nil, List.append_nil, h] at h1
  have h2 := hf bnd mm [(c.take 4096, none), (c.take (4096 - k), none)] (by
    intro a ha
    simp only [List.mem_cons, List.not_mem_nil, or_false] at ha
    rcases ha with rfl | rfl
    · exact ⟨hne, rfl⟩
    · exact ⟨hne', rfl⟩)
  simp only [List.flatMap_cons, List.flatMap_nil, List.append_nil, h'] at h2
  exact ((hg.runs (some c) bnd mm _ _ (by simp)).2 (.ask h0 ⟨by simp [hc], rfl⟩ (.ask h1 ⟨by simp [hc], rfl⟩ (.stop h2))))

/-- Without a boundary nothing is read. -/
theorem readForm_nameless {lib : Lib} (hl : lib.ReadsForms) (c : Option Bytes) (mm : Int) : ∃ e, lib.readForm c [] mm = (.err e, 0) := by
  obtain ⟨g, err, hg, hf⟩ := hl
  have h0 := hf [] mm [] (by simp)
  exact ⟨_, (hg.runs c [] mm _ _ (by simp)).2 (.stop h0)⟩

/-! ### What is shown -/

theorem boundaryIs_reads {env : Env} (hm : env.lib.ReadsMedia) {t : Tx} {bnd : Bytes} (h : BoundaryIs t.reqHeader bnd) :
    b!"multipart/" <+: mediaType env.lib t ∧ boundaryOf env t = bnd := by
  obtain ⟨m, params, w, ps, hd, hmt, hp, hps, hds, hw, hs, hb⟩ := h
  have hne := declares_ne hd hmt
  have e : env.lib.mediaType (headerGet t.reqHeader b!"Content-Type") = (m, bnd) := by
    rw [hm, parseMediaType_boundary _ hd hmt hps hds hw hs, lookup_distinct hds hb]
    rfl
  refine ⟨?_, by simp only [boundaryOf, if_neg hne, e]⟩
  have : mediaType env.lib t = m := by simp only [mediaType, if_neg hne, e]
  rw [this]
  exact hp

/-- C123: the fields of a multipart form that fits in the reader's buffer are shown by
ARGS_POST and ARGS_POST_NAMES, for any selector, whether or not the line of the last
delimiter is ended (RFC 2046 5.1.1 does not demand it). -/
def C123_statement : Prop :=
  ∀ (env : Env) (t : Tx) (bnd body tail : Bytes) (ps : List (Option Bytes × Bytes)) (f : Filter), env.lib.ReadsMedia → env.lib.ReadsForms →
    FreshBody env t bnd body → FormText bnd ps tail body → (tail = [] ∨ ∃ rest, tail = b!"\r\n" ++ rest) → body.length ≤ 4096 → Room env.limits ps →
    ∃ vals names t', (Var.argsPost f).fetch env t = .ok (vals, t') ∧ (Var.argsPostNames f).fetch env t = .ok (names, t') ∧ Shown f (fieldsOf ps) vals names

/-- `ReadForm` on such a form. -/
theorem readForm_ended {lib : Lib} (hl : lib.ReadsForms) {l : Limits} {bnd body w rest : Bytes} {ps : List (Option Bytes × Bytes)} (hb : Boundary bnd)
    (hf : FormText bnd ps (w ++ b!"\r\n" ++ rest) body) (hw : Blanks w) (hlen : body.length ≤ 4096 + rest.length) (hr : Room l ps) :
    lib.readForm (some body) bnd l.requestBodyInMem = (.ok (addPairs [] (fieldsOf ps)), 4096) := by
  obtain ⟨parts, hp, e⟩ := hf
  have e1 : body = parts ++ (dashed bnd ++ 45 :: 45 :: (w ++ 13 :: 10 :: rest)) := by
    rw [e]
    show parts ++ [45, 45] ++ bnd ++ [45, 45] ++ (w ++ [13, 10] ++ rest) = _
    simp [dashed]
  have hlen' : parts.length + (bnd.length + 6 + w.length) ≤ 4096 := by
    rw [e1] at hlen
    simp only [List.length_append, List.length_cons, dashed] at hlen
    omega
  have htake : body.take 4096 = parts ++ (dashed bnd ++ 45 :: 45 :: (w ++ 13 :: 10 :: rest.take (4096 - (parts.length + (bnd.length + 6 + w.length))))) := by
    have e2 : body = (parts ++ (dashed bnd ++ 45 :: 45 :: (w ++ [13, 10]))) ++ rest := by rw [e1]; simp
    have hL : (parts ++ (dashed bnd ++ 45 :: 45 :: (w ++ [13, 10]))).length = parts.length + (bnd.length + 6 + w.length) := by simp [dashed]; omega
    rw [e2, List.take_append, hL, List.take_of_length_le (by omega)]
    simp
  have hroom := hr.1
  have hform : readFormOn lib.lowerHi bnd l.requestBodyInMem (body.take 4096) = .form (addPairs [] (fieldsOf ps)) := by
    rw [htake]
    exact readFormOn_ended _ hb (by omega) hp hw (by omega) _ hr.1 (by omega) hr.2
  have hne : body ≠ [] := by rw [e1]; simp [dashed]
  exact readForm_first hl hb hr.2 hne hform

/-- C123, what is true: so it is if the line of the last delimiter is ended (after spaces and
tabs, maybe) within the reader's buffer, whatever follows. -/
theorem C123_fields_partial {env : Env} {t : Tx} {bnd body w rest : Bytes} {ps : List (Option Bytes × Bytes)} (f : Filter) (hm : env.lib.ReadsMedia)
    (hl : env.lib.ReadsForms) (h : FreshBody env t bnd body) (hf : FormText bnd ps (w ++ b!"\r\n" ++ rest) body) (hw : Blanks w)
    (hlen : body.length ≤ 4096 + rest.length) (hr : Room env.limits ps) :
    ∃ vals names t', (Var.argsPost f).fetch env t = .ok (vals, t') ∧ (Var.argsPostNames f).fetch env t = .ok (names, t') ∧ Shown f (fieldsOf ps) vals names := by
  have hread := readForm_ended hl h.boundary hf hw hlen hr
  obtain ⟨g1, g2⟩ := boundaryIs_reads hm h.declared
  refine ⟨_, _, ({ t with reqBody := t.reqBody.afterForm 4096 } : Tx).setCache .multipart (.form (some (addPairs [] (fieldsOf ps)))), ?_, ?_, shown_pairs f env.ord _⟩ <;>
    simp only [Var.fetch, fetchArgsPost, fetchArgsPostNames, requestBodyParse_open h.readable, g2, loop_multi g1, h.fresh, h.content, hread, Res.bind_ok']

/-- The body of a form that fits in the reader's buffer, with nothing but `w`, spaces and tabs,
after the last delimiter. -/
def Spec.CutForm (l : Limits) (bnd w : Bytes) (ps : List (Option Bytes × Bytes)) (body : Bytes) : Prop :=
  FormText bnd ps w body ∧ ps ≠ [] ∧ body.length ≤ 4096 ∧ Room l ps

/-- The error is the same for all such forms. -/
theorem readForm_cut {lib : Lib} (hl : lib.ReadsForms) {l : Limits} {bnd w : Bytes} (hb : Boundary bnd) (hw : Blanks w) :
    ∃ x, ∀ ps body, CutForm l bnd w ps body → lib.readForm (some body) bnd l.requestBodyInMem = (.err x, 4096 - (bnd.length + 4 + w.length)) := by
  obtain ⟨err, hsec⟩ := readForm_second hl
  refine ⟨err (.expecting ((dashed bnd ++ [45, 45]) ++ (w ++ (dashed bnd ++ [13, 10])))), fun ps body ⟨hf, hps, hlen, hr⟩ => ?_⟩
  obtain ⟨parts, hp, e⟩ := hf
  have e1 : body = parts ++ (dashed bnd ++ 45 :: 45 :: w) := by
    rw [e]
    show parts ++ [45, 45] ++ bnd ++ [45, 45] ++ w = _
    simp [dashed]
  have hL : body.length = parts.length + (bnd.length + 4 + w.length) := by rw [e1]; simp [dashed]; omega
  obtain ⟨p, hp1⟩ : ∃ p, parts = dashed bnd ++ 13 :: 10 :: p := by
    cases hp with
    | nil => exact absurd rfl hps
    | @cons ls n head content more ps _ _ _ _ _ =>
      refine ⟨head ++ b!"\r\n" ++ content ++ b!"\r\n" ++ more, ?_⟩
      show [45, 45] ++ bnd ++ [13, 10] ++ head ++ [13, 10] ++ content ++ [13, 10] ++ more = _
      simp [dashed]
  have hL' : parts.length = bnd.length + 4 + p.length := by rw [hp1]; simp [dashed]; omega
  have htake : body.take 4096 = body := List.take_of_length_le hlen
  have hroom := hr.1
  have h1 : readFormOn lib.lowerHi bnd l.requestBodyInMem (body.take 4096) = .more (bnd.length + 4 + w.length) := by
    rw [htake, e1]
    exact readFormOn_open _ hb (by omega) hp hw (by omega) hr.1 (by omega) hr.2
  have h2 : readFormOn lib.lowerHi bnd l.requestBodyInMem (body.take 4096 ++ body.take (4096 - (bnd.length + 4 + w.length))) =
      .failed (.expecting ((dashed bnd ++ [45, 45]) ++ (w ++ (dashed bnd ++ [13, 10])))) := by
    have e2 : body = (dashed bnd ++ [13, 10]) ++ (p ++ (dashed bnd ++ 45 :: 45 :: w)) := by rw [e1, hp1]; simp
    have e3 : body.take (4096 - (bnd.length + 4 + w.length)) = dashed bnd ++ 13 :: 10 ::
        (p ++ (dashed bnd ++ 45 :: 45 :: w)).take (4096 - (bnd.length + 4 + w.length) - (bnd.length + 4)) := by
      have hd : (dashed bnd ++ [13, 10]).length = bnd.length + 4 := by simp [dashed]
      conv => lhs; rw [e2]
      rw [List.take_append, hd, List.take_of_length_le (by omega)]
      simp
    rw [htake, e3, e1]
    have e4 : ∀ z, parts ++ (dashed bnd ++ 45 :: 45 :: w) ++ z = parts ++ (dashed bnd ++ 45 :: 45 :: (w ++ z)) := by intro z; simp
    rw [e4]
    exact readFormOn_again _ hb (by omega) hp hps hw (by omega) _ hr.1 (by omega) hr.2
  have hne : body ≠ [] := by rw [e1]; simp [dashed]
  exact hsec hb hr.2 hne h1 h2

/-- C123, what is false: with nothing (or only spaces and tabs) after the last delimiter, no
field is shown, whatever the fields are: the reader looks for the end of the line, reads the
beginning of the body again, and takes both for one line.  The next time the names are
asked for, the program panics. -/
theorem C123_cut {env : Env} {t : Tx} {bnd body w : Bytes} {ps : List (Option Bytes × Bytes)} (f : Filter) (hm : env.lib.ReadsMedia)
    (hl : env.lib.ReadsForms) (h : FreshBody env t bnd body) (hf : FormText bnd ps w body) (hps : ps ≠ []) (hw : Blanks w)
    (hlen : body.length ≤ 4096) (hr : Room env.limits ps) :
    ∃ t', (Var.argsPost f).fetch env t = .ok ([], t') ∧ (Var.argsPostNames f).fetch env t = .ok ([], t') ∧ t'.reqBodyError ≠ none ∧
      ∀ f', (Var.argsPost f').fetch env t' = .ok ([], t') ∧ (Var.argsPostNames f').fetch env t' = .panic := by
  obtain ⟨x, hx⟩ := readForm_cut hl (l := env.limits) h.boundary hw
  have hread := hx ps body ⟨hf, hps, hlen, hr⟩
  obtain ⟨g1, g2⟩ := boundaryIs_reads hm h.declared
  refine ⟨{ ({ t with reqBody := t.reqBody.afterForm (4096 - (bnd.length + 4 + w.length)) } : Tx).setCache .multipart (.form none) with reqBodyError := some x }, ?_, ?_, by simp, fun f' => ?_⟩
  · simp only [Var.fetch, fetchArgsPost, requestBodyParse_open h.readable, g2, loop_multi g1, h.fresh, h.content, hread, Res.bind_ok']
  · simp only [Var.fetch, fetchArgsPostNames, requestBodyParse_open h.readable, g2, loop_multi g1, h.fresh, h.content, hread, Res.bind_ok']
  · have hlk : ((.multipart, .form none) :: t.cache.filter (fun e => e.1 != .multipart) : List (BodyType × Parsed)).lookup .multipart = some (.form none) := rfl
    have hrd : ∀ u : Tx, u.method = t.method → u.reqBody.len = t.reqBody.len → BodyReadable env.limits u := fun u h1 h2 =>
      ⟨h.readable.1, by rw [h1]; exact h.readable.2.1, by rw [h2]; exact h.readable.2.2⟩
    have hsame := (t.reqBody.afterForm_same (4096 - (bnd.length + 4 + w.length)))
    have hrd' := hrd { ({ t with reqBody := t.reqBody.afterForm (4096 - (bnd.length + 4 + w.length)) } : Tx).setCache .multipart (.form none) with reqBodyError := some x } rfl
      hsame.1
    refine ⟨?_, (names_panic_iff f' _).2 ⟨hrd', g1, rfl⟩⟩
    simp only [Var.fetch, fetchArgsPost]
    rw [requestBodyParse_open hrd', loop_multi (show b!"multipart/" <+: mediaType env.lib { ({ t with reqBody := t.reqBody.afterForm (4096 - (bnd.length + 4 + w.length)) } : Tx).setCache .multipart (.form none) with reqBodyError := some x } from g1)]
    rfl

/-! ### What rules can tell of such a form -/

theorem Buf.afterForm_content (b : Buf) (n : Nat) : (b.afterForm n).content = b.content := by
  have hs := b.afterForm_same n
  have hf := b.afterForm_file n
  have h1 := hs.file
  simp only [Buf.content, hs.memBuf]
  simp only [Buf.fileState] at hf
  cases h2 : (b.afterForm n).fileBuf <;> cases h3 : b.fileBuf <;> simp_all

/-- Two bodies that are such forms, with the same boundary and the same end. -/
structure BothCut (env : Env) (bnd w : Bytes) (h : Option GoMap) (b c : Buf) : Prop where
  declared : BoundaryIs h bnd
  left : b.len ≠ 0 ∧ ∃ ps body, b.content = some body ∧ CutForm env.limits bnd w ps body
  right : c.len ≠ 0 ∧ ∃ ps body, c.content = some body ∧ CutForm env.limits bnd w ps body

theorem bothCut_reads {env : Env} (hm : env.lib.ReadsMedia) (hl : env.lib.ReadsForms) {bnd w : Bytes} (hb : Boundary bnd) (hw : Blanks w) :
    ReadsAlike env (BothCut env bnd w) where
  type := fun {h b c} hQ => by
    have := (boundaryIs_reads hm (t := { typed [] [] with reqHeader := h }) hQ.declared).1
    simp only [mediaType] at this
    intro hp
    have hp' := List.isPrefixOf_iff_prefix.1 hp
    obtain ⟨x, hx⟩ := this
    obtain ⟨y, hy⟩ := hp'
    rw [← hx] at hy
    cases hy
  len := fun hQ => by simp [hQ.left.1, hQ.right.1]
  form := fun {h b c bnd'} hQ e => by
    have := (boundaryIs_reads hm (t := { typed [] [] with reqHeader := h }) hQ.declared).2
    simp only [boundaryOf] at this
    rw [this] at e
    subst e
    obtain ⟨_, ps, body, h1, h2⟩ := hQ.left
    obtain ⟨_, ps', body', h3, h4⟩ := hQ.right
    obtain ⟨x, hx⟩ := readForm_cut hl (l := env.limits) hb hw
    rw [h1, h3, hx _ _ h2, hx _ _ h4]
    exact .inl rfl
  after := fun {h b c} p hQ => by
    refine ⟨hQ.declared, ?_, ?_⟩
    · rw [Buf.afterForm_content, Buf.len, (b.afterForm_same p).length]; exact hQ.left
    · rw [Buf.afterForm_content, Buf.len, (c.afterForm_same p).length]; exact hQ.right

/-- C123, for the verdicts: under every rule set without parts written by the host, no output of
any sequence of further calls (that adds nothing to the body and sets no other boundary)
depends on what is in such a form. -/
theorem C123_cut_unseen {env : Env} (hm : env.lib.ReadsMedia) (hl : env.lib.ReadsForms) {bnd w : Bytes} (hb : Boundary bnd) (hw : Blanks w) {rs : RuleSet} (hrs : rs.Stock) (n : Nat) :
    ∀ {ops : List Op}, (∀ p io, .appendRequestBody p io ∉ ops) → (∀ hd, .processRequestHeader hd ∈ ops → BoundaryIs (orEmpty hd) bnd) →
    ∀ {t u : Tx}, Duo (BothCut env bnd w) t u →
    (t.steps env rs n ops).Both (fun x y => Duo (BothCut env bnd w) x.1 y.1 ∧ x.2 = y.2) (u.steps env rs n ops)
  | [], _, _, _, _, h => .ok ⟨h, rfl⟩
  | op :: ops, ha, hh, t, u, h => by
    simp only [Tx.steps]
    refine (step_twin (bothCut_reads hm hl hb hw).fetch hrs n (fun p io e => absurd (by rw [e]; exact List.mem_cons_self) (ha p io))
      (fun h' e _ _ _ hQ => ⟨hh h' (by rw [e]; exact List.mem_cons_self), hQ.left, hQ.right⟩) h).bind fun x y hxy => ?_
    refine (C123_cut_unseen hm hl hb hw hrs n (fun p io hm => ha p io (List.mem_cons_of_mem _ hm))
      (fun h' hm => hh h' (List.mem_cons_of_mem _ hm)) hxy.1).bind fun x' y' hxy' => ?_
    exact .ok ⟨hxy'.1, by simp only [hxy.2, hxy'.2]⟩

/-- C123, for rules loaded from a text: whatever the text, of two such forms sent (in whatever
chunks) in place of each other, whichever is sent, the later calls give the same. -/
theorem C123_loaded_blind {lib : Lib} (hm : lib.ReadsMedia) (hl : lib.ReadsForms) {vo : VarOrd} {ord : IterOrd} {text : Bytes} {set : DireSet}
    (hload : DireSet.addSecLangString lib vo [] text = .ok (set, none)) (n : Nat) {bnd w : Bytes} (hb : Boundary bnd) (hw : Blanks w) {t : Tx}
    (hd : BoundaryIs t.reqHeader bnd) {cs ds : List (Bytes × IOFault)} {t1 t2 : Tx} {o1 o2 : List Out × Trace}
    (h1 : t.steps ((set.execute newEngine).env lib ord) (set.execute newEngine).ruleSet n (cs.map fun c => .appendRequestBody c.1 c.2) = .ok (t1, o1))
    (h2 : t.steps ((set.execute newEngine).env lib ord) (set.execute newEngine).ruleSet n (ds.map fun c => .appendRequestBody c.1 c.2) = .ok (t2, o2))
    {ps1 ps2 : List (Option Bytes × Bytes)} {b1 b2 : Bytes} (hb1 : t1.reqBody.content = some b1) (hb2 : t2.reqBody.content = some b2)
    (hl1 : t1.reqBody.len ≠ 0) (hl2 : t2.reqBody.len ≠ 0)
    (hc1 : CutForm ((set.execute newEngine).env lib ord).limits bnd w ps1 b1) (hc2 : CutForm ((set.execute newEngine).env lib ord).limits bnd w ps2 b2)
    {ops : List Op} (ha : ∀ p io, .appendRequestBody p io ∉ ops) (hh : ∀ hd, .processRequestHeader hd ∈ ops → BoundaryIs (orEmpty hd) bnd) :
    (t1.steps ((set.execute newEngine).env lib ord) (set.execute newEngine).ruleSet n ops).Both (fun x y => x.2 = y.2)
      (t2.steps ((set.execute newEngine).env lib ord) (set.execute newEngine).ruleSet n ops) := by
  have e1 := appends_rest h1
  have e2 := appends_rest h2
  have h : Duo (BothCut ((set.execute newEngine).env lib ord) bnd w) t1 t2 := by
    refine ⟨?_, ?_, ⟨hl1, _, _, hb1, hc1⟩, ⟨hl2, _, _, hb2, hc2⟩⟩
    · rw [e1, e2]
    · rw [e1]; exact hd
  exact Res.Both.imp (C123_cut_unseen (env := (set.execute newEngine).env lib ord) hm hl hb hw (loaded_stock hload) n ha hh h) fun _ _ h => h.2

/-- C123: so a form shows the same to rules in either encoding. -/
theorem C123_as_urlencoded {env : Env} {t u : Tx} {bnd body w rest : Bytes} {ps : List (Option Bytes × Bytes)} {qs : List Piece} (f : Filter) (hm : env.lib.ReadsMedia)
    (hl : env.lib.ReadsForms) (hq : env.lib.parseQuery = parseQuery) (h : FreshBody env t bnd body) (hf : FormText bnd ps (w ++ b!"\r\n" ++ rest) body) (hw : Blanks w)
    (hlen : body.length ≤ 4096 + rest.length) (hr : Room env.limits ps)
    (hu : BodyReadable env.limits u) (hut : b!"application/x-www-form-urlencoded" <+: mediaType env.lib u) (hum : u.reqBody.fileBuf = none)
    (huc : u.cache.lookup .urlencoded = none) (huq : Query u.reqBody.memBuf qs) (hbr : .broken ∉ qs) (he : argsOf qs = fieldsOf ps) :
    ∃ v1 v2 n1 n2 t' u', (Var.argsPost f).fetch env t = .ok (v1, t') ∧ (Var.argsPost f).fetch env u = .ok (v2, u') ∧ v1.Perm v2 ∧
      (Var.argsPostNames f).fetch env t = .ok (n1, t') ∧ (Var.argsPostNames f).fetch env u = .ok (n2, u') ∧ ∀ k, k ∈ n1 ↔ k ∈ n2 := by
  obtain ⟨v1, n1, t', h1, h2, h3⟩ := C123_fields_partial f hm hl h hf hw hlen hr
  obtain ⟨v2, n2, u', h4, h5, h6⟩ := (C69_body hq hu hut hum huc huq f).1 hbr
  rw [he] at h6
  exact ⟨v1, v2, n1, n2, t', u', h1, h4, h3.values.trans h6.values.symm, h2, h5, fun k => (h3.names k).trans (h6.names k).symm⟩

/-- C109: where the boundary is dropped (`C109_malformed`), nothing of the body is read or
shown. -/
theorem C109_malformed_nothing {env : Env} {t : Tx} {m params w : Bytes} {ps : List (Bytes × Bytes)} (f : Filter)
    (hl : env.lib.ReadsMedia) (hfm : env.lib.ReadsForms) (hr : BodyReadable env.limits t) (hd : Declares t.reqHeader m params) (hm : MediaType m) (hp : b!"multipart/" <+: m)
    (hps : Params ps params w) (hds : Distinct ps) (hc : t.cache.lookup .multipart = none)
    (hb : ¬ Blank w) (hl' : ¬ LoneSemicolon w) (hn : ∀ n v text rest, Param n v text rest → w ≠ text ++ rest) :
    ∃ t', (Var.argsPost f).fetch env t = .ok ([], t') ∧ t'.reqBody = t.reqBody ∧ t'.reqBodyError ≠ none := by
  have hne := declares_ne hd hm
  have e : env.lib.mediaType (headerGet t.reqHeader b!"Content-Type") = (m, []) := by
    rw [hl, parseMediaType_malformed _ hd hm hps hds hb hl' hn]
  have e1 : mediaType env.lib t = m := by simp only [mediaType, if_neg hne, e]
  have e2 : boundaryOf env t = [] := by simp only [boundaryOf, if_neg hne, e]
  obtain ⟨x, hx⟩ := readForm_nameless hfm t.reqBody.content env.limits.requestBodyInMem
  refine ⟨{ ({ t with reqBody := t.reqBody.afterForm 0 } : Tx).setCache .multipart (.form none) with reqBodyError := some x }, ?_, rfl, by simp⟩
  simp only [Var.fetch, fetchArgsPost, requestBodyParse_open hr, e1, e2, loop_multi hp, hc, hx, Res.bind_ok']

/-! ### A library, and examples -/

/-- A program that does what `readFormOn` says, and fails where it says nothing. -/
def formProg (hi : Rune → Rune) (bnd : Bytes) (m : Int) : ReadProg := fun h =>
  match readFormOn hi bnd m (h.flatMap Prod.fst) with
  | .form m => .inr (.ok m)
  | .tooLarge => .inr .tooLarge
  | .more k => if h.all fun a => a.2.isNone then .inl (4096 - k) else .inr (.err b!"unexpected EOF")
  | .failed _ => .inr (.err b!"multipart")
  | .unknown => .inr (.err b!"multipart")

open Classical in
/-- The outcome of a program, if there is one. -/
noncomputable def outcome (g : ReadProg) (c : Option Bytes) : FormRes × Nat :=
  if h : ∃ x : FormRes × Nat, Plays (repeating c) g [] 0 x.1 x.2 then h.choose else (.hang, 0)

noncomputable def Sample.formLib : Lib := { mediaLib with readForm := fun c bnd m => outcome (formProg mediaLib.lowerHi bnd m) c }

theorem Sample.formLib_runs : formLib.Runs (formProg mediaLib.lowerHi) where
  asks := fun bnd m h k hk => by
    simp only [formProg] at hk
    split at hk
    · cases hk
    · cases hk
    · next hmore =>
      split at hk
      · cases hk
        have := readFormOn_more hmore
        omega
      · cases hk
    · cases hk
    · cases hk
  stops := fun bnd m h hk => by
    simp only [formProg] at hk
    split at hk
    · cases hk
    · cases hk
    · split at hk <;> cases hk
    · cases hk
    · cases hk
  runs := fun c bnd m r p hr => by
    show outcome _ c = (r, p) ↔ _
    rw [outcome]
    constructor
    · intro h
      split at h
      · next he =>
        have := he.choose_spec
        rw [h] at this
        exact this
      · cases h
        exact absurd rfl hr
    · intro h
      have he : ∃ x : FormRes × Nat, Plays (repeating c) (formProg mediaLib.lowerHi bnd m) [] 0 x.1 x.2 := ⟨(r, p), h⟩
      rw [dif_pos he]
      obtain ⟨h1, h2⟩ := plays_det (rd := repeating c) (fun _ _ _ _ _ _ => repeating_det) he.choose_spec h
      exact Prod.ext h1 h2

theorem Sample.formLib_reads : formLib.ReadsForms := by
  refine ⟨_, fun _ => b!"multipart", formLib_runs, fun bnd m h hh => ?_⟩
  have hall : (h.all fun a => a.2.isNone) = true := List.all_eq_true.2 fun a ha => by rw [(hh a ha).2]; rfl
  show AsForm _ (readFormOn mediaLib.lowerHi bnd m (h.flatMap Prod.fst)) (formProg mediaLib.lowerHi bnd m h)
  simp only [formProg]
  cases readFormOn mediaLib.lowerHi bnd m (h.flatMap Prod.fst) with
  | form m => rfl
  | tooLarge => rfl
  | failed => rfl
  | more k => simp only [AsForm, hall, if_true]
  | unknown => trivial

noncomputable def Sample.formEnv : Env := { env with lib := formLib }

theorem Sample.foo_is (body : Bytes) : BoundaryIs (typed (b!"MultIpart/mixed" ++ b!"; Boundary=foo") body).reqHeader b!"foo" :=
  ⟨_, _, _, _, mixed_declared _ (.inr ⟨_, rfl⟩), (isMediaType_iff _).1 (by decide +kernel), by decide, foo_params [] (by simp), by simp [Distinct],
    .inl Blank.nil, by intro p hp; rw [List.mem_singleton.1 hp]; decide, by simp⟩

/-- The field `a` with the value `evil`, and a part of no form. -/
def Sample.evilParts : Bytes := b!"--foo\r\ncontent-disposition: form-data; name=\"a\"\r\n\r\nevil\r\n--foo\r\n\r\nx\r\n"

theorem Sample.a_line : HeaderLines [(b!"content-disposition", b!"form-data; name=\"a\"")] b!"content-disposition: form-data; name=\"a\"\r\n" := by
  have := HeaderLines.cons (n := b!"content-disposition") (v := b!"form-data; name=\"a\"") (w := [32]) (w' := []) (by decide)
    (fun c hc => (validHeaderByte_iff c).1 (by revert hc; revert c; decide +kernel)) (by simp [Blanks]) (by simp [Blanks]) ⟨by decide, by decide, by decide⟩ .nil
  exact this

theorem Sample.a_form : OfForm b!"form-data; name=\"a\"" [(b!"name", b!"a")] := by
  refine ⟨b!"; name=\"a\"", [], ⟨[], b!"form-data", [], rfl, by simp [AsciiBlank], by simp [AsciiBlank], by decide +kernel, .inr ⟨_, rfl⟩⟩, ?_, by simp [Distinct],
    .inl Blank.nil, by simp⟩
  have := Param.mk (w1 := []) (w2 := [32]) (w3 := []) (w4 := []) (name := b!"name") (text := b!"\"a\"") (value := b!"a") (rest := [])
    Blank.nil (AsciiBlank.blank (by intro c hc; simp_all)) Blank.nil Blank.nil
    ⟨by decide, fun c hc => (token_iff c).1 (by revert hc; revert c; decide)⟩
    (.quoted (b := b!"a") (.char (by decide) (by decide) (by decide) (by decide) .nil))
  exact .cons (n := b!"name") (v := b!"a") (text := b!"; name=\"a\"") (s := []) this .nil

theorem Sample.a_field : IsField [(b!"content-disposition", b!"form-data; name=\"a\"")] b!"a" := by
  have hcv : CaseVariant b!"content-disposition" b!"Content-Disposition" := by
    rw [caseVariant_iff]; decide +kernel
  have ht : Lacks [(b!"content-disposition", b!"form-data; name=\"a\"")] b!"Content-Type" := by
    intro l hl
    rw [List.mem_singleton.1 hl, caseVariant_iff]; decide +kernel
  exact .mk ⟨[], b!"content-disposition", [], rfl, hcv, by simp [Lacks]⟩ a_form List.mem_cons_self (by decide) (by simp) ht

theorem Sample.a_plain : Lacks [(b!"content-disposition", b!"form-data; name=\"a\"")] b!"Content-Transfer-Encoding" := by
  intro l hl
  rw [List.mem_singleton.1 hl, caseVariant_iff]; decide +kernel

/-- No delimiter begins where there are no carriage returns, if the start is no dash. -/
theorem noDelimiter_plain {bnd v : Bytes} (h : 13 ∉ v) (hd : v.head? ≠ some 45) : NoDelimiter bnd v := by
  rintro ⟨x, y, e⟩
  have e' : x ++ (13 :: 10 :: 45 :: 45 :: bnd) ++ y = 13 :: 10 :: v := e
  cases x with
  | nil =>
    have e3 := (List.cons.inj (List.cons.inj e').2).2
    rw [← e3] at hd
    exact hd rfl
  | cons c x =>
    have e2 := (List.cons.inj e').2
    have hm : (13 : UInt8) ∈ 10 :: v := by
      rw [← e2]
      simp
    rcases List.mem_cons.1 hm with hm | hm
    · exact absurd hm (by decide)
    · exact h hm

theorem Sample.evil_parts : Parts b!"foo" [(some b!"a", b!"evil"), (none, b!"x")] evilParts := by
  have hp : Parts b!"foo" [(some b!"a", b!"evil"), (none, b!"x")] _ :=
    .cons a_line (.field a_field) a_plain ((noDelimiter_plain (by decide) (by decide)).notEnded ⟨by decide, by decide⟩)
      (.cons (ls := []) .nil (.skipped (.bare (by simp [Lacks]))) (by simp [Lacks]) ((noDelimiter_plain (by decide) (by decide)).notEnded ⟨by decide, by decide⟩) .nil)
  exact hp

theorem Sample.evil_fresh (body : Bytes) (h : body ≠ []) : FreshBody formEnv (typed (b!"MultIpart/mixed" ++ b!"; Boundary=foo") body) b!"foo" body where
  readable := ⟨rfl, .inl rfl, by
    have := List.length_pos_iff.2 h
    show body.length ≠ 0
    omega⟩
  declared := foo_is body
  boundary := ⟨by decide, by decide⟩
  content := rfl
  fresh := rfl

theorem Sample.formEnv_media : formEnv.lib.ReadsMedia := rfl

/-- With the line end, `evil` is shown. -/
example : ∃ vals names t', (Var.argsPost {}).fetch formEnv (typed (b!"MultIpart/mixed" ++ b!"; Boundary=foo") (evilParts ++ b!"--" ++ b!"foo" ++ b!"--" ++ b!" \r\nepilogue")) = .ok (vals, t') ∧
    (Var.argsPostNames {}).fetch formEnv (typed (b!"MultIpart/mixed" ++ b!"; Boundary=foo") (evilParts ++ b!"--" ++ b!"foo" ++ b!"--" ++ b!" \r\nepilogue")) = .ok (names, t') ∧
    Shown {} [(b!"a", b!"evil")] vals names :=
  C123_fields_partial (env := formEnv) (w := [32]) (rest := b!"epilogue") {} formEnv_media formLib_reads (evil_fresh _ (by decide)) ⟨_, evil_parts, rfl⟩
    (by simp [Blanks]) (by decide +kernel) ⟨by decide, by decide⟩

/-- The same header on three lines. -/
theorem Sample.a_folded : HeaderLines [(b!"content-disposition", b!"form-data; name=\"a\"")] b!"content-disposition: \r\n form-data;\r\n\t name=\"a\" \r\n" := by
  have := HeaderLines.hanging (n := b!"content-disposition") (v := b!"form-data;") (vs := [b!"name=\"a\""]) (w := [32]) (by decide)
    (fun c hc => (validHeaderByte_iff c).1 (by revert hc; revert c; decide +kernel)) (by simp [Blanks])
    (.cons (b := [32]) (w := []) (by decide) (by simp [Blanks]) (by simp [Blanks]) ⟨by decide, by decide, by decide⟩ (by decide)
      (.cons (b := [9, 32]) (w := [32]) (by decide) (by simp [Blanks]) (by simp [Blanks]) ⟨by decide, by decide, by decide⟩ (by decide) .nil)) .nil
  exact this

/-- And with the first piece where it belongs. -/
theorem Sample.a_folded' : HeaderLines [(b!"content-disposition", b!"form-data; name=\"a\"")] b!"content-disposition: form-data;\r\n name=\"a\"\r\n" := by
  have := HeaderLines.folded (n := b!"content-disposition") (v := b!"form-data;") (vs := [b!"name=\"a\""]) (w := [32]) (w' := []) (by decide)
    (fun c hc => (validHeaderByte_iff c).1 (by revert hc; revert c; decide +kernel)) (by simp [Blanks]) (by simp [Blanks]) ⟨by decide, by decide, by decide⟩ (by decide)
    (.cons (b := [32]) (w := []) (by decide) (by simp [Blanks]) (by simp [Blanks]) ⟨by decide, by decide, by decide⟩ (by decide) .nil) .nil
  exact this

/-- Two fields with such headers are shown. -/
example : ∃ vals names t', (Var.argsPost {}).fetch formEnv (typed (b!"MultIpart/mixed" ++ b!"; Boundary=foo")
      b!"--foo\r\ncontent-disposition: \r\n form-data;\r\n\t name=\"a\" \r\n\r\nevil\r\n--foo\r\ncontent-disposition: form-data;\r\n name=\"a\"\r\n\r\nx\r\n--foo--\r\n") = .ok (vals, t') ∧
    (Var.argsPostNames {}).fetch formEnv (typed (b!"MultIpart/mixed" ++ b!"; Boundary=foo")
      b!"--foo\r\ncontent-disposition: \r\n form-data;\r\n\t name=\"a\" \r\n\r\nevil\r\n--foo\r\ncontent-disposition: form-data;\r\n name=\"a\"\r\n\r\nx\r\n--foo--\r\n") = .ok (names, t') ∧
    Shown {} [(b!"a", b!"evil"), (b!"a", b!"x")] vals names := by
  have hp : Parts b!"foo" [(some b!"a", b!"evil"), (some b!"a", b!"x")] _ :=
    .cons a_folded (.field a_field) a_plain ((noDelimiter_plain (by decide) (by decide)).notEnded ⟨by decide, by decide⟩)
      (.cons a_folded' (.field a_field) a_plain ((noDelimiter_plain (by decide) (by decide)).notEnded ⟨by decide, by decide⟩) .nil)
  exact C123_fields_partial (env := formEnv) (w := []) (rest := []) {} formEnv_media formLib_reads (evil_fresh _ (by decide)) ⟨_, hp, rfl⟩
    (by simp [Blanks]) (by decide +kernel) ⟨by decide, by decide⟩

/-- What looks like a delimiter, and goes on, belongs to the value. -/
example : ∃ vals names t', (Var.argsPost {}).fetch formEnv (typed (b!"MultIpart/mixed" ++ b!"; Boundary=foo")
      (b!"--foo\r\ncontent-disposition: form-data; name=\"a\"\r\n\r\n--foot\r\nevil\r\n--fool\r\n" ++ b!"--" ++ b!"foo" ++ b!"--" ++ b!"\r\n")) = .ok (vals, t') ∧
    (Var.argsPostNames {}).fetch formEnv (typed (b!"MultIpart/mixed" ++ b!"; Boundary=foo")
      (b!"--foo\r\ncontent-disposition: form-data; name=\"a\"\r\n\r\n--foot\r\nevil\r\n--fool\r\n" ++ b!"--" ++ b!"foo" ++ b!"--" ++ b!"\r\n")) = .ok (names, t') ∧
    Shown {} [(b!"a", b!"--foot\r\nevil\r\n--fool")] vals names := by
  have hp : Parts b!"foo" [(some b!"a", b!"--foot\r\nevil\r\n--fool")] _ := .cons a_line (.field a_field) a_plain (by unfold NotEnded; decide +kernel) .nil
  exact C123_fields_partial (env := formEnv) (w := []) (rest := []) {} formEnv_media formLib_reads (evil_fresh _ (by decide)) ⟨_, hp, rfl⟩
    (by simp [Blanks]) (by decide +kernel) ⟨by decide, by decide⟩

/-- Without it, it is not. -/
example : ∃ t', (Var.argsPost {}).fetch formEnv (typed (b!"MultIpart/mixed" ++ b!"; Boundary=foo") (evilParts ++ b!"--" ++ b!"foo" ++ b!"--" ++ [])) = .ok ([], t') ∧
    t'.reqBodyError ≠ none ∧ (Var.argsPostNames {}).fetch formEnv t' = .panic := by
  obtain ⟨t', h1, _, h3, h4⟩ := C123_cut (env := formEnv) (w := []) {} formEnv_media formLib_reads (evil_fresh _ (by decide)) ⟨_, evil_parts, rfl⟩ (by simp)
    (by simp [Blanks]) (by decide +kernel) ⟨by decide, by decide⟩
  exact ⟨t', h1, h3, (h4 {}).2⟩

theorem C123_refuted : ¬ C123_statement := by
  intro h
  obtain ⟨vals, names, t', h1, _, h3⟩ := h formEnv _ _ _ _ _ {} formEnv_media formLib_reads (evil_fresh _ (by decide)) ⟨_, evil_parts, rfl⟩ (.inl rfl) (by decide +kernel)
    ⟨by decide, by decide⟩
  obtain ⟨t'', h4, _⟩ := C123_cut (env := formEnv) (w := []) {} formEnv_media formLib_reads (evil_fresh _ (by decide)) ⟨_, evil_parts, rfl⟩ (by simp)
    (by simp [Blanks]) (by decide +kernel) ⟨by decide, by decide⟩
  rw [h1] at h4
  cases h4
  have := h3.values.length_eq
  revert this
  decide

/-- A form with nothing in it, and `evil`, cannot be told apart by rules. -/
example {rs : RuleSet} (hrs : rs.Stock) (n : Nat) :
    ((typed (b!"MultIpart/mixed" ++ b!"; Boundary=foo") (evilParts ++ b!"--" ++ b!"foo" ++ b!"--" ++ [])).steps formEnv rs n [.processRequestBody, .result]).Both (fun x y => x.2 = y.2)
      ((typed (b!"MultIpart/mixed" ++ b!"; Boundary=foo") (b!"--foo\r\n\r\nx\r\n" ++ b!"--" ++ b!"foo" ++ b!"--" ++ [])).steps formEnv rs n [.processRequestBody, .result]) := by
  have hx : Parts b!"foo" [(none, b!"x")] b!"--foo\r\n\r\nx\r\n" := by
    have : NoDelimiter b!"foo" b!"x" := fun h => by
      have : (45 : UInt8) ∈ b!"\r\nx" := h.subset (by decide)
      revert this
      decide
    exact .cons (ls := []) .nil (.skipped (.bare (by simp [Lacks]))) (by simp [Lacks]) (this.notEnded ⟨by decide, by decide⟩) .nil
  refine Res.Both.imp (C123_cut_unseen (env := formEnv) (w := []) formEnv_media formLib_reads ⟨by decide, by decide⟩ (by simp [Blanks]) hrs n (by simp) (by simp)
    ⟨rfl, foo_is _, ⟨by decide, _, _, rfl, ⟨_, evil_parts, rfl⟩, by simp, by decide +kernel, by decide, by decide⟩,
      ⟨by decide, _, _, rfl, ⟨_, hx, rfl⟩, by simp, by decide +kernel, by decide, by decide⟩⟩) fun _ _ h => h.2

/-- The form as it would be sent in the other encoding. -/
example : ∃ v1 v2 n1 n2 t' u', (Var.argsPost {}).fetch formEnv (typed (b!"MultIpart/mixed" ++ b!"; Boundary=foo") (evilParts ++ b!"--" ++ b!"foo" ++ b!"--" ++ b!"\r\n")) = .ok (v1, t') ∧
    (Var.argsPost {}).fetch formEnv (typed b!"application/x-www-form-urlencoded" b!"a=evil") = .ok (v2, u') ∧ v1.Perm v2 ∧
    (Var.argsPostNames {}).fetch formEnv (typed (b!"MultIpart/mixed" ++ b!"; Boundary=foo") (evilParts ++ b!"--" ++ b!"foo" ++ b!"--" ++ b!"\r\n")) = .ok (n1, t') ∧
    (Var.argsPostNames {}).fetch formEnv (typed b!"application/x-www-form-urlencoded" b!"a=evil") = .ok (n2, u') ∧ ∀ k, k ∈ n1 ↔ k ∈ n2 := by
  have ht : mediaType formEnv.lib (typed b!"application/x-www-form-urlencoded" b!"a=evil") = b!"application/x-www-form-urlencoded" := by
    have : parseMediaType id b!"application/x-www-form-urlencoded" = (b!"application/x-www-form-urlencoded", []) := by decide +kernel
    exact congrArg Prod.fst this
  exact C123_as_urlencoded (env := formEnv) (u := typed b!"application/x-www-form-urlencoded" b!"a=evil") (w := []) (rest := []) (qs := [.arg b!"a" b!"evil"]) {}
    formEnv_media formLib_reads rfl (evil_fresh _ (by decide)) ⟨_, evil_parts, rfl⟩ (by simp [Blanks]) (by decide +kernel) ⟨by decide, by decide⟩
    ⟨rfl, .inl rfl, by decide⟩ (by rw [ht]; exact List.prefix_refl _) rfl rfl
    (.one (by decide) ((key_arg (p := b!"a=evil") (by decide) _ _).1 ⟨by decide +kernel, by decide +kernel⟩)) (by decide) rfl

/-- A content type with something else after the boundary. -/
example : ∃ t', (Var.argsPost {}).fetch formEnv (typed (b!"MultIpart/mixed" ++ (b!"; Boundary=foo" ++ b!"; x")) b!"--foo") = .ok ([], t') ∧
    t'.reqBody = (typed (b!"MultIpart/mixed" ++ (b!"; Boundary=foo" ++ b!"; x")) b!"--foo").reqBody ∧ t'.reqBodyError ≠ none := by
  have hc : consumeMediaParam b!"; x" = none := by decide +kernel
  refine C109_malformed_nothing (env := formEnv) (w := b!"; x") {} formEnv_media formLib_reads ⟨rfl, .inl rfl, by decide⟩ (mixed_declared _ (.inr ⟨_, rfl⟩)) mixed_media ⟨b!"mixed", rfl⟩
    (foo_params _ (by intro c hc; cases hc; exact not_token (.inr (.inr (by decide))))) (by simp [Distinct]) rfl
    (fun h => Blank.not_mem h (b := 59) (by decide) (by decide) (by decide)) (fun h => ?_) (fun n v text rest hp he => ?_)
  · have := (lone_iff _).2 h
    revert this
    decide +kernel
  · have := (consume_iff b!"; x" n v rest).2 ⟨text, hp, he⟩
    rw [hc] at this
    cases this

/-- The same, by calculation. -/
example : readFormOn id b!"foo" 8 (evilParts ++ b!"--foo--\r\n") = .form [(b!"a", [b!"evil"])] ∧
    readFormOn id b!"foo" 8 (evilParts ++ b!"--foo--") = .more 7 ∧ readFormOn id b!"foo" 8 (evilParts ++ b!"--foo--" ++ (evilParts ++ b!"--foo--")) = .failed (.expecting b!"--foo----foo\r\n") ∧
    readFormOn id [] 8 [] = .failed .noBoundary := by decide +kernel

/-- What ends no part, and lines that are continued. -/
example : readFormOn id b!"foo" 8 b!"preamble\r\n--foo \r\nContent-Disposition:form-data;\r\n name=b\r\n\r\n\r\n--food\r\n\r\n--foo-- \r\n" =
    .form [(b!"b", [b!"\r\n--food\r\n"])] := by decide +kernel

end Verif
