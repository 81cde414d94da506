import Verif.Props.Form
/-! C132: files in a multipart form. -/
namespace Verif
open Sample Spec

/-- A part with this name, by its header; `file` is the name of the file, empty if there is none. -/
structure Spec.PartNamed (ls : List (Bytes × Bytes)) (n file : Bytes) : Prop where
  params : ∃ d ps, FirstSays ls b!"Content-Disposition" d ∧ OfForm d ps ∧ (b!"name", n) ∈ ps ∧
    ((b!"filename", file) ∈ ps ∨ file = [] ∧ ∀ f, (b!"filename", f) ∉ ps)
  name : n ≠ []
  untyped : Lacks ls b!"Content-Type"
  plain : Lacks ls b!"Content-Transfer-Encoding"

/-- Parts, all of them with names; of each its name, the name of the file, and the content. -/
inductive Spec.NamedParts (bnd : Bytes) : List (Bytes × Bytes × Bytes) → Bytes → Prop
  | nil : NamedParts bnd [] []
  | cons {ls : List (Bytes × Bytes)} {n file head content more : Bytes} {ps : List (Bytes × Bytes × Bytes)} :
      HeaderLines ls head → PartNamed ls n file → NotEnded bnd content → NamedParts bnd ps more →
      NamedParts bnd ((n, file, content) :: ps) (b!"--" ++ bnd ++ b!"\r\n" ++ head ++ b!"\r\n" ++ content ++ b!"\r\n" ++ more)

/-- A form of such parts. -/
def Spec.NamedForm (bnd : Bytes) (ps : List (Bytes × Bytes × Bytes)) (text : Bytes) : Prop :=
  ∃ parts rest, NamedParts bnd ps parts ∧ text = parts ++ b!"--" ++ bnd ++ b!"--" ++ (b!"\r\n" ++ rest)

/-- The bytes of the contents. -/
def Spec.contentBytes (ps : List (Bytes × Bytes × Bytes)) : Nat := (ps.map fun p => p.2.2.length).sum

/-- C132: what is in a form that fits in the reader's buffer and the memory is shown by ARGS_POST, whether it is given as
the value of a field or as the content of a file. -/
def C132_statement : Prop :=
  ∀ (env : Env) (t : Tx) (bnd body : Bytes) (ps : List (Bytes × Bytes × Bytes)) (f : Filter), env.lib.ReadsMedia → env.lib.ReadsForms →
    FreshBody env t bnd body → NamedForm bnd ps body → body.length ≤ 4096 → contentBytes ps ≤ env.limits.requestBodyInMem →
    env.limits.requestBodyInMem + 10485760 < 2 ^ 63 →
    ∃ vals names t', (Var.argsPost f).fetch env t = .ok (vals, t') ∧ (Var.argsPostNames f).fetch env t = .ok (names, t') ∧
      Shown f (ps.map fun p => (p.1, p.2.2)) vals names

/-- The parts that are fields. -/
def Spec.asParts (ps : List (Bytes × Bytes × Bytes)) : List (Option Bytes × Bytes) := ps.map fun p => (if p.2.1 = [] then some p.1 else none, p.2.2)

theorem namedParts_parts {bnd text : Bytes} {ps : List (Bytes × Bytes × Bytes)} (h : NamedParts bnd ps text) : Parts bnd (asParts ps) text := by
  induction h with
  | nil => exact .nil
  | @cons ls n file head content more ps hl hn hc _ ih =>
    refine .cons hl ?_ hn.plain hc ih
    obtain ⟨d, qs, h1, h2, h3, h4⟩ := hn.params
    by_cases hf : file = []
    · subst hf
      rw [if_pos rfl]
      refine .field (.mk h1 h2 h3 hn.name (fun f hf => ?_) hn.untyped)
      rcases h4 with h4 | h4
      · obtain ⟨_, _, _, _, hd, _⟩ := h2
        have e1 := lookup_distinct hd h4
        have e2 := lookup_distinct hd hf
        rw [e1] at e2
        cases e2
        rfl
      · exact absurd hf (h4.2 f)
    · rw [if_neg hf]
      exact .file h1 h2 h3 hn.name (h4.resolve_right fun h => hf h.1) hf

theorem asParts_room : ∀ {ps : List (Bytes × Bytes × Bytes)}, otherBytes (asParts ps) ≤ contentBytes ps
  | [] => Nat.le_refl _
  | p :: ps => by
    have ih := asParts_room (ps := ps)
    simp only [otherBytes, asParts, contentBytes, List.map_cons, List.sum_cons] at ih ⊢
    have : (if (if p.2.1 = [] then some p.1 else none) = none then p.2.2.length else 0) ≤ p.2.2.length := by split <;> simp
    omega

theorem asParts_fields : ∀ (ps : List (Bytes × Bytes × Bytes)), fieldsOf (asParts ps) = (ps.filter fun p => p.2.1 = []).map fun p => (p.1, p.2.2)
  | [] => rfl
  | p :: ps => by
    have ih := asParts_fields ps
    simp only [fieldsOf, asParts] at ih ⊢
    by_cases hf : p.2.1 = []
    · simp [hf, ih]
    · simp [hf, ih]

/-- C132, what is true: the values of fields are shown, of files nothing is. -/
theorem C132_fields_partial {env : Env} {t : Tx} {bnd body : Bytes} {ps : List (Bytes × Bytes × Bytes)} (f : Filter) (hm : env.lib.ReadsMedia) (hl : env.lib.ReadsForms)
    (h : FreshBody env t bnd body) (hf : NamedForm bnd ps body) (hlen : body.length ≤ 4096) (hc : contentBytes ps ≤ env.limits.requestBodyInMem)
    (hmem : env.limits.requestBodyInMem + 10485760 < 2 ^ 63) :
    ∃ vals names t', (Var.argsPost f).fetch env t = .ok (vals, t') ∧ (Var.argsPostNames f).fetch env t = .ok (names, t') ∧
      Shown f ((ps.filter fun p => p.2.1 = []).map fun p => (p.1, p.2.2)) vals names := by
  obtain ⟨parts, rest, hp, e⟩ := hf
  rw [← asParts_fields]
  have hroom := asParts_room (ps := ps)
  exact C123_fields_partial (w := []) (rest := rest) f hm hl h ⟨parts, namedParts_parts hp, by rw [e]; rfl⟩ (by simp [Blanks]) (by omega) ⟨by omega, hmem⟩

/-! ### What rules can tell of files -/

/-- A form that is read to its end: the line of its last delimiter ends within the reader's buffer. -/
def Spec.EndedForm (l : Limits) (bnd : Bytes) (ps : List (Option Bytes × Bytes)) (body : Bytes) : Prop :=
  ∃ w rest, FormText bnd ps (w ++ b!"\r\n" ++ rest) body ∧ Blanks w ∧ body.length ≤ 4096 + rest.length ∧ Room l ps

/-- Two bodies that are forms with these fields. -/
structure BothFields (env : Env) (bnd : Bytes) (fs : List (Bytes × Bytes)) (h : Option GoMap) (b c : Buf) : Prop where
  declared : BoundaryIs h bnd
  left : b.len ≠ 0 ∧ ∃ ps body, b.content = some body ∧ EndedForm env.limits bnd ps body ∧ fieldsOf ps = fs
  right : c.len ≠ 0 ∧ ∃ ps body, c.content = some body ∧ EndedForm env.limits bnd ps body ∧ fieldsOf ps = fs

theorem bothFields_reads {env : Env} (hm : env.lib.ReadsMedia) (hl : env.lib.ReadsForms) {bnd : Bytes} (hb : Boundary bnd) {fs : List (Bytes × Bytes)} :
    ReadsAlike env (BothFields env bnd fs) where
  type := fun {h b c} hQ => by
    have := (boundaryIs_reads hm (t := { typed [] [] with reqHeader := h }) hQ.declared).1
    simp only [mediaType] at this
    intro hp
    have hp' := List.isPrefixOf_iff_prefix.1 hp
    obtain ⟨x, hx⟩ := this
    obtain ⟨y, hy⟩ := hp'
    rw [← hx] at hy
    cases hy
  len := fun hQ => by simp [hQ.left.1, hQ.right.1]
  form := fun {h b c bnd'} hQ e => by
    have := (boundaryIs_reads hm (t := { typed [] [] with reqHeader := h }) hQ.declared).2
    simp only [boundaryOf] at this
    rw [this] at e
    subst e
    obtain ⟨_, ps, body, h1, ⟨w, rest, h2, h3, h4, h5⟩, h6⟩ := hQ.left
    obtain ⟨_, ps', body', h1', ⟨w', rest', h2', h3', h4', h5'⟩, h6'⟩ := hQ.right
    rw [h1, h1', readForm_ended hl hb h2 h3 h4 h5, readForm_ended hl hb h2' h3' h4' h5', h6, h6']
    exact .inl rfl
  after := fun {h b c} p hQ => by
    refine ⟨hQ.declared, ?_, ?_⟩
    · rw [Buf.afterForm_content, Buf.len, (b.afterForm_same p).length]; exact hQ.left
    · rw [Buf.afterForm_content, Buf.len, (c.afterForm_same p).length]; exact hQ.right

/-- C132, for the verdicts: under every rule set without parts written by the host, no output of any sequence of further
calls (that adds nothing to the body and sets no other boundary) depends on anything in a form but the names and
values of its fields: not on the files, their names, types or number. -/
theorem C132_files_unseen {env : Env} (hm : env.lib.ReadsMedia) (hl : env.lib.ReadsForms) {bnd : Bytes} (hb : Boundary bnd) {fs : List (Bytes × Bytes)} {rs : RuleSet} (hrs : rs.Stock) (n : Nat) :
    ∀ {ops : List Op}, (∀ p io, .appendRequestBody p io ∉ ops) → (∀ hd, .processRequestHeader hd ∈ ops → BoundaryIs (orEmpty hd) bnd) →
    ∀ {t u : Tx}, Duo (BothFields env bnd fs) t u →
    (t.steps env rs n ops).Both (fun x y => Duo (BothFields env bnd fs) x.1 y.1 ∧ x.2 = y.2) (u.steps env rs n ops)
  | [], _, _, _, _, h => .ok ⟨h, rfl⟩
  | op :: ops, ha, hh, t, u, h => by
    simp only [Tx.steps]
    refine (step_twin (bothFields_reads hm hl hb).fetch hrs n (fun p io e => absurd (by rw [e]; exact List.mem_cons_self) (ha p io))
      (fun h' e _ _ _ hQ => ⟨hh h' (by rw [e]; exact List.mem_cons_self), hQ.left, hQ.right⟩) h).bind fun x y hxy => ?_
    refine (C132_files_unseen hm hl hb hrs n (fun p io hm => ha p io (List.mem_cons_of_mem _ hm))
      (fun h' hm => hh h' (List.mem_cons_of_mem _ hm)) hxy.1).bind fun x' y' hxy' => ?_
    exact .ok ⟨hxy'.1, by simp only [hxy.2, hxy'.2]⟩

/-- C132, for rules loaded from a text: whatever the text, of two forms with the same fields sent (in whatever chunks) in
place of each other, whichever is sent, the later calls give the same. -/
theorem C132_loaded_blind {lib : Lib} (hm : lib.ReadsMedia) (hl : lib.ReadsForms) {vo : VarOrd} {ord : IterOrd} {text : Bytes} {set : DireSet}
    (hload : DireSet.addSecLangString lib vo [] text = .ok (set, none)) (n : Nat) {bnd : Bytes} (hb : Boundary bnd) {t : Tx}
    (hd : BoundaryIs t.reqHeader bnd) {cs ds : List (Bytes × IOFault)} {t1 t2 : Tx} {o1 o2 : List Out × Trace}
    (h1 : t.steps ((set.execute newEngine).env lib ord) (set.execute newEngine).ruleSet n (cs.map fun c => .appendRequestBody c.1 c.2) = .ok (t1, o1))
    (h2 : t.steps ((set.execute newEngine).env lib ord) (set.execute newEngine).ruleSet n (ds.map fun c => .appendRequestBody c.1 c.2) = .ok (t2, o2))
    {ps1 ps2 : List (Option Bytes × Bytes)} {b1 b2 : Bytes} (hb1 : t1.reqBody.content = some b1) (hb2 : t2.reqBody.content = some b2)
    (hl1 : t1.reqBody.len ≠ 0) (hl2 : t2.reqBody.len ≠ 0)
    (hc1 : EndedForm ((set.execute newEngine).env lib ord).limits bnd ps1 b1) (hc2 : EndedForm ((set.execute newEngine).env lib ord).limits bnd ps2 b2)
    (hsame : fieldsOf ps1 = fieldsOf ps2)
    {ops : List Op} (ha : ∀ p io, .appendRequestBody p io ∉ ops) (hh : ∀ hd, .processRequestHeader hd ∈ ops → BoundaryIs (orEmpty hd) bnd) :
    (t1.steps ((set.execute newEngine).env lib ord) (set.execute newEngine).ruleSet n ops).Both (fun x y => x.2 = y.2)
      (t2.steps ((set.execute newEngine).env lib ord) (set.execute newEngine).ruleSet n ops) := by
  have e1 := appends_rest h1
  have e2 := appends_rest h2
  have h : Duo (BothFields ((set.execute newEngine).env lib ord) bnd (fieldsOf ps1)) t1 t2 := by
    refine ⟨?_, ?_, ⟨hl1, _, _, hb1, hc1, rfl⟩, ⟨hl2, _, _, hb2, hc2, hsame.symm⟩⟩
    · rw [e1, e2]
    · rw [e1]; exact hd
  exact Res.Both.imp (C132_files_unseen (env := (set.execute newEngine).env lib ord) hm hl hb (loaded_stock hload) n ha hh h) fun _ _ h => h.2

/-! ### Examples -/

/-- The same as the field `a` of the examples to C123, but for a file name. -/
def Sample.fileParts : Bytes := b!"--foo\r\ncontent-disposition: form-data; name=\"a\"; filename=x\r\n\r\nevil\r\n"

theorem Sample.file_line : HeaderLines [(b!"content-disposition", b!"form-data; name=\"a\"; filename=x")] b!"content-disposition: form-data; name=\"a\"; filename=x\r\n" := by
  have := HeaderLines.cons (n := b!"content-disposition") (v := b!"form-data; name=\"a\"; filename=x") (w := [32]) (w' := []) (by decide)
    (fun c hc => (validHeaderByte_iff c).1 (by revert hc; revert c; decide +kernel)) (by simp [Blanks]) (by simp [Blanks]) ⟨by decide, by decide, by decide⟩ .nil
  exact this

theorem Sample.file_form : OfForm b!"form-data; name=\"a\"; filename=x" [(b!"name", b!"a"), (b!"filename", b!"x")] := by
  refine ⟨b!"; name=\"a\"; filename=x", [], ⟨[], b!"form-data", [], rfl, by simp [AsciiBlank], by simp [AsciiBlank], by decide +kernel, .inr ⟨_, rfl⟩⟩, ?_, by simp [Distinct],
    .inl Blank.nil, by simp⟩
  have p1 := Param.mk (w1 := []) (w2 := [32]) (w3 := []) (w4 := []) (name := b!"name") (text := b!"\"a\"") (value := b!"a") (rest := b!"; filename=x")
    Blank.nil (AsciiBlank.blank (by intro c hc; simp_all)) Blank.nil Blank.nil
    ⟨by decide, fun c hc => (token_iff c).1 (by revert hc; revert c; decide)⟩
    (.quoted (b := b!"a") (.char (by decide) (by decide) (by decide) (by decide) .nil))
  have p2 := Param.mk (w1 := []) (w2 := [32]) (w3 := []) (w4 := []) (name := b!"filename") (text := b!"x") (value := b!"x") (rest := [])
    Blank.nil (AsciiBlank.blank (by intro c hc; simp_all)) Blank.nil Blank.nil
    ⟨by decide, fun c hc => (token_iff c).1 (by revert hc; revert c; decide)⟩
    (.token ⟨by decide, fun c hc => (token_iff c).1 (by revert hc; revert c; decide)⟩ (by simp))
  exact .cons (n := b!"name") (v := b!"a") (text := b!"; name=\"a\"") (s := b!"; filename=x") p1
    (.cons (n := b!"filename") (v := b!"x") (text := b!"; filename=x") (s := []) p2 .nil)

theorem Sample.file_named : PartNamed [(b!"content-disposition", b!"form-data; name=\"a\"; filename=x")] b!"a" b!"x" where
  params := ⟨_, _, ⟨[], b!"content-disposition", [], rfl, by rw [caseVariant_iff]; decide +kernel, by simp [Lacks]⟩, file_form, by simp, .inl (by simp)⟩
  name := by decide
  untyped := fun l hl => by rw [List.mem_singleton.1 hl, caseVariant_iff]; decide +kernel
  plain := fun l hl => by rw [List.mem_singleton.1 hl, caseVariant_iff]; decide +kernel

theorem Sample.a_named : PartNamed [(b!"content-disposition", b!"form-data; name=\"a\"")] b!"a" [] where
  params := ⟨_, _, ⟨[], b!"content-disposition", [], rfl, by rw [caseVariant_iff]; decide +kernel, by simp [Lacks]⟩, a_form, by simp, .inr ⟨rfl, by simp⟩⟩
  name := by decide
  untyped := fun l hl => by rw [List.mem_singleton.1 hl, caseVariant_iff]; decide +kernel
  plain := fun l hl => by rw [List.mem_singleton.1 hl, caseVariant_iff]; decide +kernel

theorem Sample.file_parts : NamedParts b!"foo" [(b!"a", b!"x", b!"evil")] fileParts :=
  .cons file_line file_named ((noDelimiter_plain (by decide) (by decide)).notEnded ⟨by decide, by decide⟩) .nil

/-- A field and a file: of the two `evil`, one is shown. -/
example : ∃ vals names t', (Var.argsPost {}).fetch formEnv (typed (b!"MultIpart/mixed" ++ b!"; Boundary=foo")
      (b!"--foo\r\ncontent-disposition: form-data; name=\"a\"\r\n\r\nevil\r\n" ++ fileParts ++ b!"--" ++ b!"foo" ++ b!"--" ++ (b!"\r\n" ++ []))) = .ok (vals, t') ∧
    (Var.argsPostNames {}).fetch formEnv (typed (b!"MultIpart/mixed" ++ b!"; Boundary=foo")
      (b!"--foo\r\ncontent-disposition: form-data; name=\"a\"\r\n\r\nevil\r\n" ++ fileParts ++ b!"--" ++ b!"foo" ++ b!"--" ++ (b!"\r\n" ++ []))) = .ok (names, t') ∧
    Shown {} [(b!"a", b!"evil")] vals names := by
  have hp : NamedParts b!"foo" [(b!"a", [], b!"evil"), (b!"a", b!"x", b!"evil")] _ :=
    .cons a_line a_named ((noDelimiter_plain (by decide) (by decide)).notEnded ⟨by decide, by decide⟩) file_parts
  exact C132_fields_partial (env := formEnv) {} formEnv_media formLib_reads (evil_fresh _ (by decide)) ⟨_, [], hp, rfl⟩ (by decide +kernel) (by decide) (by decide)

theorem C132_refuted : ¬ C132_statement := by
  intro h
  have hform : NamedForm b!"foo" [(b!"a", b!"x", b!"evil")] (fileParts ++ b!"--" ++ b!"foo" ++ b!"--" ++ (b!"\r\n" ++ [])) := ⟨_, [], file_parts, rfl⟩
  obtain ⟨vals, names, t', h1, _, h3⟩ := h formEnv _ _ _ _ {} formEnv_media formLib_reads (evil_fresh _ (by decide)) hform (by decide +kernel) (by decide) (by decide)
  obtain ⟨vals', names', t'', h4, _, h5⟩ := C132_fields_partial (env := formEnv) {} formEnv_media formLib_reads (evil_fresh _ (by decide)) hform (by decide +kernel) (by decide) (by decide)
  rw [h1] at h4
  cases h4
  have := h3.values.symm.trans h5.values |>.length_eq
  revert this
  decide

/-- The file `evil`, and no file at all, cannot be told apart by rules. -/
example {rs : RuleSet} (hrs : rs.Stock) (n : Nat) :
    ((typed (b!"MultIpart/mixed" ++ b!"; Boundary=foo") (fileParts ++ b!"--" ++ b!"foo" ++ b!"--" ++ ([] ++ b!"\r\n" ++ []))).steps formEnv rs n [.processRequestBody, .result]).Both (fun x y => x.2 = y.2)
      ((typed (b!"MultIpart/mixed" ++ b!"; Boundary=foo") ([] ++ b!"--" ++ b!"foo" ++ b!"--" ++ ([] ++ b!"\r\n" ++ []))).steps formEnv rs n [.processRequestBody, .result]) :=
  Res.Both.imp (C132_files_unseen (env := formEnv) (fs := []) formEnv_media formLib_reads ⟨by decide, by decide⟩ hrs n (by simp) (by simp)
    ⟨rfl, foo_is _, ⟨by decide, _, _, rfl, ⟨[], [], ⟨_, namedParts_parts file_parts, rfl⟩, by simp [Blanks], by decide +kernel, by decide, by decide⟩, rfl⟩,
      ⟨by decide, _, _, rfl, ⟨[], [], ⟨_, .nil, rfl⟩, by simp [Blanks], by decide +kernel, by decide, by decide⟩, rfl⟩⟩) fun _ _ h => h.2

end Verif
