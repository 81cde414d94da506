import Verif.Model.Transaction
import Verif.Proofs.Buffer
import Verif.Spec.Rules
/-! What fetching variables and running actions can change. -/
namespace Verif

theorem Res.bind_eq_ok {α : Type u} {β : Type v} {r : Res α} {f : α → Res β} {b : β} :
    r.bind f = .ok b ↔ ∃ a, r = .ok a ∧ f a = .ok b := by
  cases r <;> simp [Res.bind]

theorem Buf.SameBody.refl (b : Buf) : b.SameBody b := ⟨rfl, rfl, rfl, rfl, rfl, rfl⟩

theorem Buf.SameBody.trans {a b c : Buf} (h1 : a.SameBody b) (h2 : b.SameBody c) : a.SameBody c :=
  ⟨h2.length.trans h1.length, h2.memLimit.trans h1.memLimit, h2.fileLimit.trans h1.fileLimit,
   h2.memBuf.trans h1.memBuf, h2.readed.trans h1.readed, h2.file.trans h1.file⟩

theorem Buf.SameBody.spilled {a b : Buf} (h : a.SameBody b) : b.fileBuf.isSome = a.fileBuf.isSome := by
  have := congrArg Option.isSome h.file
  simpa using this

theorem Buf.read_same {b b' : Buf} {n : Nat} {s : Bytes} {e : Option BufErr} (h : b.read n = .ok (b', s, e)) : b.SameBody b' := by
  refine Buf.SameBody.trans b.initRead_same ?_
  simp only [Buf.read] at h
  cases hb : b.initRead.fileBuf with
  | none =>
    simp only [hb] at h
    cases hm : b.initRead.memReader with
    | none => simp only [hm] at h; cases h
    | some r => simp only [hm] at h; cases h; exact ⟨rfl, rfl, rfl, rfl, rfl, by rw [hb]⟩
  | some f =>
    simp only [hb, File.read] at h
    by_cases hc : f.closed = true
    · simp only [hc, if_true] at h; cases h; exact ⟨rfl, rfl, rfl, rfl, rfl, by rw [hb]⟩
    · simp only [hc, Bool.false_eq_true, if_false] at h; cases h; exact ⟨rfl, rfl, rfl, rfl, rfl, by rw [hb]; rfl⟩

theorem Buf.afterForm_same (b : Buf) (n : Nat) : b.SameBody (b.afterForm n) := by
  simp only [Buf.afterForm]
  split
  · exact .refl b
  · split
    · rename_i b' x h; exact Buf.read_same h
    · exact .refl b

/-- Whether there is a temporary file, and whether it is closed. -/
def Buf.fileState (b : Buf) : Option Bool := b.fileBuf.map File.closed

theorem Buf.initRead_file (b : Buf) : b.initRead.fileState = b.fileState := by
  simp only [Buf.initRead, Buf.fileState]
  split
  · cases b.fileBuf with
    | none => rfl
    | some f => by_cases h : f.closed = true <;> simp [h]
  · rfl

theorem Buf.string_file (b : Buf) : b.string.1.fileState = b.fileState := b.initRead_file

theorem Buf.read_file {b b' : Buf} {n : Nat} {s : Bytes} {e : Option BufErr} (h : b.read n = .ok (b', s, e)) : b'.fileState = b.fileState := by
  refine Eq.trans ?_ b.initRead_file
  simp only [Buf.read] at h
  cases hb : b.initRead.fileBuf with
  | none =>
    simp only [hb] at h
    cases hm : b.initRead.memReader with
    | none => simp only [hm] at h; cases h
    | some r => simp only [hm] at h; cases h; simp only [Buf.fileState, hb]
  | some f =>
    simp only [hb, File.read] at h
    by_cases hc : f.closed = true
    · simp only [hc, if_true] at h; cases h; simp only [Buf.fileState, hb]
    · simp only [hc, Bool.false_eq_true, if_false] at h; cases h; simpa [Buf.fileState, hb] using hc

theorem Buf.afterForm_file (b : Buf) (n : Nat) : (b.afterForm n).fileState = b.fileState := by
  simp only [Buf.afterForm]
  split
  · rfl
  · split
    · rename_i b' x h; exact Buf.read_file h
    · rfl

/-- The effect a variable fetch can have on the transaction. -/
structure Fetched (t t' : Tx) : Prop where
  same : t' = { t with reqBody := t'.reqBody, respBody := t'.respBody, reqBodyError := t'.reqBodyError,
                       cache := t'.cache, abort := t'.abort, interv := t'.interv }
  req : t.reqBody.SameBody t'.reqBody
  resp : t.respBody.SameBody t'.respBody
  verdict : (t'.abort = t.abort ∧ t'.interv = t.interv) ∨
    (t'.abort = true ∧ t'.intervention.disruptive = true ∧
      (t'.intervention.status = 413 ∨ (t'.intervention.status = 500 ∧ t.respBody.fileBuf.isSome = true)))
  log : ∃ ms : List Bytes, t'.intervention.log = t.intervention.log ++ ms.map t.logLine
  reqFile : t'.reqBody.fileState = t.reqBody.fileState
  respFile : t'.respBody.fileState = t.respBody.fileState

theorem Fetched.refl (t : Tx) : Fetched t t := ⟨rfl, .refl _, .refl _, .inl ⟨rfl, rfl⟩, ⟨[], by simp⟩, rfl, rfl⟩

theorem Fetched.trans {a b c : Tx} (h1 : Fetched a b) (h2 : Fetched b c) : Fetched a c := by
  have hline : b.logLine = a.logLine := by
    funext msg
    have h : b.srcIp = a.srcIp ∧ b.srcPort = a.srcPort ∧ b.phase = a.phase := by rw [h1.same]; exact ⟨rfl, rfl, rfl⟩
    simp only [Tx.logLine, h]
  refine ⟨?_, h1.req.trans h2.req, h1.resp.trans h2.resp, ?_, ?_, h2.reqFile.trans h1.reqFile, h2.respFile.trans h1.respFile⟩
  · have e1 := h1.same
    have e2 := h2.same
    rw [e1] at e2
    exact e2
  · rcases h2.verdict with ⟨g1, g2⟩ | g
    · rcases h1.verdict with ⟨k1, k2⟩ | k
      · exact .inl ⟨g1.trans k1, g2.trans k2⟩
      · refine .inr ?_
        simp only [Tx.intervention, g1, g2]
        exact k
    · rw [h1.resp.spilled] at g
      exact .inr g
  · obtain ⟨m1, k1⟩ := h1.log
    obtain ⟨m2, k2⟩ := h2.log
    exact ⟨m1 ++ m2, by rw [k2, k1, hline]; simp⟩

theorem Fetched.phase {t t' : Tx} (h : Fetched t t') : t'.phase = t.phase := by rw [h.same]
theorem Fetched.currentRule {t t' : Tx} (h : Fetched t t') : t'.currentRule = t.currentRule := by rw [h.same]
theorem Fetched.nextRule {t t' : Tx} (h : Fetched t t') : t'.nextRule = t.nextRule := by rw [h.same]
theorem Fetched.data {t t' : Tx} (h : Fetched t t') : t'.data = t.data := by rw [h.same]

theorem fetched_abort (t : Tx) (b : Buf) (hb : t.reqBody.SameBody b) (hc : b.fileState = t.reqBody.fileState) (e : Err) :
    Fetched t (({ t with reqBody := b } : Tx).abortWithError 413 e) := by
  refine ⟨rfl, hb, .refl _, .inr ⟨rfl, ?_, .inl ?_⟩, ⟨[b!"abort process with error " ++ e], rfl⟩, hc, rfl⟩
  · simp [Tx.abortWithError, Tx.log, Tx.setIntervention, Tx.intervention]
  · simp [Tx.abortWithError, Tx.log, Tx.setIntervention, Tx.intervention]

theorem fetched_req (t : Tx) (b : Buf) (hb : t.reqBody.SameBody b) (hc : b.fileState = t.reqBody.fileState) :
    Fetched t { t with reqBody := b } :=
  ⟨rfl, hb, .refl _, .inl ⟨rfl, rfl⟩, ⟨[], by simp [Tx.intervention]⟩, hc, rfl⟩

theorem Buf.string_same (b : Buf) : b.SameBody b.string.1 := b.initRead_same

theorem parseBody_fetched {env : Env} {tp : BodyType} {bd : Bytes} {t t' : Tx} {r : Parsed} {e : Option Err}
    (h : parseBody env tp bd t = .ok (t', r, e)) : Fetched t t' := by
  cases tp with
  | urlencoded =>
    simp only [parseBody] at h
    split at h
    · cases h; exact fetched_abort t _ t.reqBody.string_same t.reqBody.string_file _
    · cases h; exact fetched_req t _ t.reqBody.string_same t.reqBody.string_file
  | multipart =>
    simp only [parseBody] at h
    split at h
    · cases h; exact fetched_req t _ (t.reqBody.afterForm_same _) (t.reqBody.afterForm_file _)
    · cases h; exact fetched_abort t _ (t.reqBody.afterForm_same _) (t.reqBody.afterForm_file _) _
    · cases h; exact fetched_req t _ (t.reqBody.afterForm_same _) (t.reqBody.afterForm_file _)
    · cases h

theorem fetched_cache (t : Tx) (k : BodyType) (v : Parsed) : Fetched t (t.setCache k v) :=
  ⟨rfl, .refl _, .refl _, .inl ⟨rfl, rfl⟩, ⟨[], by simp [Tx.setCache, Tx.intervention]⟩, rfl, rfl⟩

theorem fetched_bodyError (t : Tx) (e : Option Err) : Fetched t { t with reqBodyError := e } :=
  ⟨rfl, .refl _, .refl _, .inl ⟨rfl, rfl⟩, ⟨[], by simp [Tx.intervention]⟩, rfl, rfl⟩

theorem requestBodyLoop_fetched {env : Env} {ct bd : Bytes} : ∀ {tps : List BodyType} {t t' : Tx}
    {tp : Option BodyType} {r : Parsed}, requestBodyLoop env ct bd tps t = .ok (t', tp, r) → Fetched t t' := by
  intro tps
  induction tps with
  | nil => intro t t' tp r h; simp only [requestBodyLoop] at h; cases h; exact .refl _
  | cons tp tps ih =>
    intro t t' tp' r h
    simp only [requestBodyLoop] at h
    split at h
    · exact ih h
    · split at h
      · split at h
        · exact ih h
        · cases h; exact .refl _
      · obtain ⟨⟨t1, res, err⟩, h1, h2⟩ := Res.bind_eq_ok.1 h
        have hf := (parseBody_fetched h1).trans (fetched_cache t1 tp res)
        simp only at h2
        split at h2
        · cases h2; exact hf.trans (fetched_bodyError _ _)
        · split at h2
          · exact hf.trans (ih h2)
          · cases h2; exact hf

theorem requestBodyParse_fetched {env : Env} {t t' : Tx} {tp : Option BodyType} {r : Parsed}
    (h : requestBodyParse env t = .ok (t', tp, r)) : Fetched t t' := by
  simp only [requestBodyParse] at h
  split at h
  · cases h; exact .refl _
  · split at h
    · cases h; exact .refl _
    · exact requestBodyLoop_fetched h

theorem fetchArgsPost_fetched {env : Env} {f : Filter} {t t' : Tx} {vs : List Bytes}
    (h : fetchArgsPost env f t = .ok (vs, t')) : Fetched t t' := by
  obtain ⟨⟨t1, tp, r⟩, h1, h2⟩ := Res.bind_eq_ok.1 h
  have hf := requestBodyParse_fetched h1
  simp only at h2
  split at h2
  all_goals first | (simp only [Res.ok.injEq, Prod.mk.injEq] at h2; rw [← h2.2]; exact hf) | cases h2

theorem fetchArgsPostNames_fetched {env : Env} {f : Filter} {t t' : Tx} {vs : List Bytes}
    (h : fetchArgsPostNames env f t = .ok (vs, t')) : Fetched t t' := by
  obtain ⟨⟨t1, tp, r⟩, h1, h2⟩ := Res.bind_eq_ok.1 h
  have hf := requestBodyParse_fetched h1
  simp only at h2
  split at h2
  all_goals first | (simp only [Res.ok.injEq, Prod.mk.injEq] at h2; rw [← h2.2]; exact hf) | cases h2

theorem fetchRequestBody_fetched (env : Env) (t : Tx) : Fetched t (fetchRequestBody env t).2 := by
  simp only [fetchRequestBody]
  split
  · exact .refl _
  split
  · exact .refl _
  split
  · exact .refl _
  split
  · exact .refl _
  split
  · exact fetched_abort t _ t.reqBody.string_same t.reqBody.string_file _
  · exact fetched_req t _ t.reqBody.string_same t.reqBody.string_file

theorem fetchResponseBody_fetched (env : Env) (t : Tx) : Fetched t (fetchResponseBody env t).2 := by
  simp only [fetchResponseBody]
  split
  · exact .refl _
  split
  · rename_i he
    refine ⟨rfl, .refl _, t.respBody.string_same, .inr ⟨rfl, ?_, .inr ⟨?_, ?_⟩⟩,
      ⟨[b!"abort process with error " ++ errOutOfMemLimit], rfl⟩, rfl, t.respBody.string_file⟩
    · simp [Tx.abortWithError, Tx.log, Tx.setIntervention, Tx.intervention]
    · simp [Tx.abortWithError, Tx.log, Tx.setIntervention, Tx.intervention]
    · rw [← t.respBody.initRead_same.spilled]
      simp only [Buf.string] at he
      cases hs : t.respBody.initRead.fileBuf.isSome with
      | true => rfl
      | false => simp [hs] at he
  · exact ⟨rfl, .refl _, t.respBody.string_same, .inl ⟨rfl, rfl⟩, ⟨[], by simp [Tx.intervention]⟩, rfl, t.respBody.string_file⟩

theorem Var.fetch_fetched {env : Env} : ∀ {v : Var} {t t' : Tx} {vs : List Bytes},
    v.fetch env t = .ok (vs, t') → Fetched t t' := by
  intro v
  induction v with
  | args g p =>
    intro t t' vs h
    simp only [Var.fetch] at h
    obtain ⟨⟨x, t1⟩, h1, h2⟩ := Res.bind_eq_ok.1 h
    cases h2; exact fetchArgsPost_fetched h1
  | argsNames g p =>
    intro t t' vs h
    simp only [Var.fetch] at h
    obtain ⟨⟨x, t1⟩, h1, h2⟩ := Res.bind_eq_ok.1 h
    cases h2; exact fetchArgsPostNames_fetched h1
  | argsPost f => intro t t' vs h; simp only [Var.fetch] at h; exact fetchArgsPost_fetched h
  | argsPostNames f => intro t t' vs h; simp only [Var.fetch] at h; exact fetchArgsPostNames_fetched h
  | requestBody =>
    intro t t' vs h
    simp only [Var.fetch, Res.ok.injEq] at h
    have := fetchRequestBody_fetched env t
    rw [h] at this; exact this
  | responseBody =>
    intro t t' vs h
    simp only [Var.fetch, Res.ok.injEq] at h
    have := fetchResponseBody_fetched env t
    rw [h] at this; exact this
  | count v ih =>
    intro t t' vs h
    simp only [Var.fetch] at h
    obtain ⟨⟨x, t1⟩, h1, h2⟩ := Res.bind_eq_ok.1 h
    cases h2; exact ih h1
  | _ =>
    intro t t' vs h
    simp only [Var.fetch, Res.ok.injEq, Prod.mk.injEq] at h
    rw [← h.2]; exact .refl _

theorem fetchVars_fetched {env : Env} {r : Rule} : ∀ {vs : List Var} {t t' : Tx} {out : List Bytes},
    fetchVars env r vs t = .ok (out, t') → Fetched t t' := by
  intro vs
  induction vs with
  | nil => intro t t' out h; simp only [fetchVars] at h; cases h; exact .refl _
  | cons v vs ih =>
    intro t t' out h
    simp only [fetchVars, Rule.transformVariable] at h
    obtain ⟨⟨x, t1⟩, h1, h2⟩ := Res.bind_eq_ok.1 h
    obtain ⟨⟨x', t1'⟩, h3, h4⟩ := Res.bind_eq_ok.1 h1
    cases h4
    obtain ⟨⟨y, t2⟩, h5, h6⟩ := Res.bind_eq_ok.1 h2
    cases h6
    exact (Var.fetch_fetched h3).trans (ih h5)

theorem Rule.matches_fetched {env : Env} {r : Rule} {t t' : Tx} {b : Bool}
    (h : r.matches env t = .ok (b, t')) : Fetched t t' := by
  obtain ⟨⟨vals, t1⟩, h1, h2⟩ := Res.bind_eq_ok.1 h
  obtain ⟨b', _, h4⟩ := Res.bind_eq_ok.1 h2
  cases h4
  exact fetchVars_fetched h1

/-- The loop over the values, as a condition on them. -/
theorem matchLoop_iff {r : Rule} {t : Tx} {op : Operator} (hop : r.op = some op) (vals : List Bytes) :
    matchLoop r t vals = .ok (decide (t.abort = false ∧ ∃ v ∈ vals, r.not ≠ op.run t v)) := by
  induction vals with
  | nil => simp [matchLoop]
  | cons v vs ih =>
    simp only [matchLoop, hop]
    by_cases ha : t.abort = true
    · simp [ha]
    · have ha' : t.abort = false := by simpa using ha
      simp only [ha', Bool.false_eq_true, if_false]
      by_cases hv : r.not = op.run t v
      · simp [hv, ih, ha']
      · have : (r.not != op.run t v) = true := by simpa using hv
        simp [this, hv]

theorem matchLoop_abort {r : Rule} {t : Tx} (ha : t.abort = true) (vals : List Bytes) :
    matchLoop r t vals = .ok false := by
  cases vals <;> simp [matchLoop, ha]

/-- A rule never matches on an aborted transaction. -/
theorem Rule.matches_true_not_abort {env : Env} {r : Rule} {t t' : Tx}
    (h : r.matches env t = .ok (true, t')) : t'.abort = false := by
  obtain ⟨⟨vals, t1⟩, h1, h2⟩ := Res.bind_eq_ok.1 h
  obtain ⟨b', h3, h4⟩ := Res.bind_eq_ok.1 h2
  simp only [Res.ok.injEq, Prod.mk.injEq] at h4
  obtain ⟨rfl, rfl⟩ := h4
  cases ha : t1.abort with
  | false => rfl
  | true => rw [matchLoop_abort ha] at h3; cases h3

theorem matchSubs_fetched {env : Env} : ∀ {ss : List Rule} {t t' : Tx} {b : Bool},
    matchSubs env ss t = .ok (b, t') → Fetched t t' := by
  intro ss
  induction ss with
  | nil => intro t t' b h; simp only [matchSubs] at h; cases h; exact .refl _
  | cons s ss ih =>
    intro t t' b h
    simp only [matchSubs] at h
    obtain ⟨⟨b1, t1⟩, h1, h2⟩ := Res.bind_eq_ok.1 h
    have hf := Rule.matches_fetched h1
    cases b1 with
    | false => simp at h2; obtain ⟨_, rfl⟩ := h2; exact hf
    | true => simp at h2; exact hf.trans (ih h2)

theorem matchSubs_true_not_abort {env : Env} : ∀ {ss : List Rule} {t t' : Tx}, t.abort = false →
    matchSubs env ss t = .ok (true, t') → t'.abort = false := by
  intro ss
  induction ss with
  | nil => intro t t' ha h; simp only [matchSubs] at h; cases h; exact ha
  | cons s ss ih =>
    intro t t' _ h
    simp only [matchSubs] at h
    obtain ⟨⟨b1, t1⟩, h1, h2⟩ := Res.bind_eq_ok.1 h
    cases b1 with
    | false => simp at h2
    | true => simp at h2; exact ih (Rule.matches_true_not_abort h1) h2

/-- Running a rule: either only fetches, or fetches with all conditions true and then
the actions of the rule and of its sub-rules, on a transaction that is not aborted. -/
theorem Rule.run_cases {env : Env} {rs : RuleSet} {n : Nat} {r : Rule} {t t' : Tx} {P : Prop}
    (h : r.run env rs n t = .ok t')
    (h1 : Fetched t t' → P)
    (h2 : ∀ t1 t2, Fetched t t1 → t1.abort = false → actionsExecute (Action.run rs n) r.actions t1 = .ok t2 →
      subActions rs n r.subRules t2 = .ok t' → P) : P := by
  obtain ⟨⟨b, t1⟩, g1, g2⟩ := Res.bind_eq_ok.1 h
  have hf := Rule.matches_fetched g1
  cases b with
  | false => simp at g2; subst g2; exact h1 hf
  | true =>
    simp at g2
    obtain ⟨⟨b, t2⟩, g3, g4⟩ := Res.bind_eq_ok.1 g2
    have hf2 := hf.trans (matchSubs_fetched g3)
    cases b with
    | false => simp at g4; subst g4; exact h1 hf2
    | true =>
      simp at g4
      obtain ⟨t3, g5, g6⟩ := Res.bind_eq_ok.1 g4
      exact h2 t2 t3 hf2 (matchSubs_true_not_abort (Rule.matches_true_not_abort g1) g3) g5 g6

/-! ### actions -/

/-- Group `g` of an action list. -/
def inGroup (g : Int) (as : List Action) : List Action := as.filter (fun a => decide (a.group = g))

theorem actionMap_length {as : List Action} : ∀ {m m' : List (List Action)},
    actionMap as m = some m' → m'.length = m.length := by
  induction as with
  | nil => intro m m' h; cases h; rfl
  | cons a as ih =>
    intro m m' h
    simp only [actionMap] at h
    split at h
    · cases h
    · rw [ih h, List.length_modify]

theorem actionMap_spec {as : List Action} : ∀ {m m' : List (List Action)}, actionMap as m = some m' →
    ∀ (g : Nat), m'[g]? = m[g]?.map (· ++ inGroup g as) := by
  induction as with
  | nil => intro m m' h g; cases h; simp [inGroup]
  | cons a as ih =>
    intro m m' h g
    simp only [actionMap] at h
    split at h
    · cases h
    · rename_i hr
      rw [ih h]
      rw [List.getElem?_modify]
      by_cases hg : a.group.toNat = g
      · have : a.group = (g : Int) := by omega
        simp only [if_true, inGroup, List.filter_cons, this, decide_true]
        cases m[g]? <;> simp
      · have : a.group ≠ (g : Int) := by omega
        simp only [hg, if_false, inGroup, List.filter_cons, this, decide_false]
        cases m[g]? <;> simp

theorem actionMap_none {as : List Action} : ∀ {m : List (List Action)},
    actionMap as m = none ↔ ∃ a ∈ as, a.group < 0 ∨ a.group ≥ m.length := by
  induction as with
  | nil => intro m; simp [actionMap]
  | cons a as ih =>
    intro m
    simp only [actionMap]
    split
    · rename_i h; simp only [true_iff]; exact ⟨a, by simp, h⟩
    · rename_i h
      rw [ih, List.length_modify]
      constructor
      · rintro ⟨b, hb, h'⟩; exact ⟨b, by simp [hb], h'⟩
      · rintro ⟨b, hb, h'⟩
        rcases List.mem_cons.1 hb with rfl | hb
        · exact absurd h' h
        · exact ⟨b, hb, h'⟩

/-- The actions in execution order. -/
def grouped (as : List Action) : List Action :=
  inGroup 0 as ++ inGroup 1 as ++ inGroup 2 as ++ inGroup 3 as ++ inGroup 4 as

theorem actionMap_grouped {as : List Action} {m : List (List Action)}
    (h : actionMap as (List.replicate groupCount []) = some m) : m.flatten = grouped as := by
  have hl := actionMap_length h
  have hs := actionMap_spec h
  simp only [groupCount, List.length_replicate] at hl
  have e : m = [inGroup 0 as, inGroup 1 as, inGroup 2 as, inGroup 3 as, inGroup 4 as] := by
    apply List.ext_getElem?
    intro g
    rw [hs g]
    match g with
    | 0 => rfl
    | 1 => rfl
    | 2 => rfl
    | 3 => rfl
    | 4 => rfl
    | g + 5 => rw [List.getElem?_eq_none (by simp [groupCount]), List.getElem?_eq_none (by simp)]; rfl
  rw [e]; simp [grouped]

theorem mem_grouped {as : List Action} {a : Action} (h : a ∈ grouped as) : a ∈ as := by
  simp only [grouped, List.mem_append, inGroup, List.mem_filter] at h
  grind

/-- `ActionsExecute` runs the grouped list. -/
theorem actionsExecute_ok {d : Action → Tx → Res Tx} {as : List Action} {t t' : Tx}
    (h : actionsExecute d as t = .ok t') : doAll d (grouped as) t = .ok t' := by
  simp only [actionsExecute] at h
  split at h
  · cases h
  · rename_i m hm
    rw [actionMap_grouped hm] at h; exact h

/-- Invariants along a list of actions. -/
theorem doAll_inv {I : Tx → Prop} {d : Action → Tx → Res Tx} : ∀ {as : List Action} {t t' : Tx},
    (∀ a ∈ as, ∀ t t', I t → d a t = .ok t' → I t') → I t → doAll d as t = .ok t' → I t' := by
  intro as
  induction as with
  | nil => intro t t' _ hI h; cases h; exact hI
  | cons a as ih =>
    intro t t' hs hI h
    simp only [doAll] at h
    obtain ⟨t1, h1, h2⟩ := Res.bind_eq_ok.1 h
    exact ih (fun b hb => hs b (by simp [hb])) (hs a (by simp) t t1 hI h1) h2

theorem actionsExecute_inv {I : Tx → Prop} {d : Action → Tx → Res Tx} {as : List Action} {t t' : Tx}
    (hs : ∀ a ∈ as, ∀ t t', I t → d a t = .ok t' → I t') (hI : I t) (h : actionsExecute d as t = .ok t') : I t' :=
  doAll_inv (fun a ha => hs a (mem_grouped ha)) hI (actionsExecute_ok h)

/-- Invariants of running one action: enough for the primitive actions of the
list and for the default actions that `block` runs. -/
theorem Action.run_inv {I : Tx → Prop} {rs : RuleSet} {ok : Action → Prop}
    (hprim : ∀ a, a ≠ .block → ok a → ∀ n t t', I t → Action.run rs n a t = .ok t' → I t')
    (hdef : ∀ a ∈ rs.defaultActions, ok a) :
    ∀ (n : Nat) (a : Action), ok a → ∀ t t', I t → Action.run rs n a t = .ok t' → I t' := by
  intro n
  induction n with
  | zero =>
    intro a ha t t' hI h
    by_cases hb : a = .block
    · subst hb; simp [Action.run] at h
    · exact hprim a hb ha 0 t t' hI h
  | succ n ih =>
    intro a ha t t' hI h
    by_cases hb : a = .block
    · subst hb
      simp only [Action.run] at h
      exact actionsExecute_inv (fun b hb => ih b (hdef b hb)) hI h
    · exact hprim a hb ha _ t t' hI h

theorem subActions_inv {I : Tx → Prop} {rs : RuleSet} {n : Nat} : ∀ {ss : List Rule} {t t' : Tx},
    (∀ s ∈ ss, ∀ a ∈ s.actions, ∀ t t', I t → Action.run rs n a t = .ok t' → I t') → I t →
    subActions rs n ss t = .ok t' → I t' := by
  intro ss
  induction ss with
  | nil => intro t t' _ hI h; simp only [subActions] at h; cases h; exact hI
  | cons s ss ih =>
    intro t t' hs hI h
    simp only [subActions] at h
    obtain ⟨t1, h1, h2⟩ := Res.bind_eq_ok.1 h
    exact ih (fun s' hs' => hs s' (by simp [hs'])) (actionsExecute_inv (hs s (by simp)) hI h1) h2

/-- Invariants of running a rule. -/
theorem Rule.run_inv {I : Tx → Prop} {env : Env} {rs : RuleSet} {ok : Action → Prop} {n : Nat} {r : Rule} {t t' : Tx}
    (hfetch : ∀ t t', I t → Fetched t t' → I t')
    (hprim : ∀ a, a ≠ .block → ok a → ∀ n t t', I t → Action.run rs n a t = .ok t' → I t')
    (hdef : ∀ a ∈ rs.defaultActions, ok a) (hact : ∀ a ∈ r.allActions, ok a) (hI : I t)
    (h : r.run env rs n t = .ok t') : I t' := by
  have ha := Action.run_inv hprim hdef n
  refine Rule.run_cases h (hfetch t t' hI) ?_
  intro t1 t2 hf _ h1 h2
  have hI2 : I t2 := actionsExecute_inv
    (fun a hm => ha a (hact a (by simp [Rule.allActions, hm]))) (hfetch t t1 hI hf) h1
  refine subActions_inv (fun s hs a hm => ha a (hact a ?_)) hI2 h2
  simp only [Rule.allActions, List.mem_append, List.mem_flatMap]
  exact .inr ⟨s, hs, hm⟩

/-- Evaluating a position of a phase runs one of its rules, or nothing. -/
theorem RuleSet.process_cases {env : Env} {rs : RuleSet} {n : Nat} {p i : Int} {t t' : Tx} {P : Prop}
    (h : rs.process env n t p i = .ok t')
    (h1 : (rs.phases p).length ≤ i → t' = t → P)
    (h2 : ∀ r (k : Nat), i = k → (rs.phases p)[k]? = some r → r ∈ rs.phases p → r.run env rs n t = .ok t' → P) : P := by
  simp only [RuleSet.process] at h
  split at h
  · split at h
    · cases h
    · rename_i hi
      split at h
      · cases h
      · rename_i r hr
        exact h2 r i.toNat (by omega) hr (List.mem_of_getElem? hr) h
  · cases h; exact h1 (by omega) rfl

end Verif
