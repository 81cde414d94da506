import Verif.Proofs.OpenForm
import Verif.Props.Form
import Verif.Props.BodyTx
import Verif.Props.Variables
/-! C124, C125: forms of which the first 4096 bytes end within a part. -/
namespace Verif
open Sample Spec

/-- The memory limit, not negative and far from overflow. -/
def Spec.SaneLimit (l : Limits) : Prop := 0 ≤ l.requestBodyInMem ∧ l.requestBodyInMem + 10485760 < 2 ^ 63

/-- Read round and round, the body brings no more for the fields: the part that is cut is no
field, and, but for the first part, nor is any other (or it is empty). -/
def Spec.BringsNothing (ps : List (Option Bytes × Bytes)) (n : Option Bytes) : Prop := n = none ∧ fieldBytes ps.tail = 0

/-! ### The library function -/

theorem endsWithin_short {bnd : Bytes} {ps : List (Option Bytes × Bytes)} {n : Option Bytes} {content text : Bytes} (h : EndsWithin bnd ps n content text)
    (hl : text.length ≤ 4096) : bnd.length + 4 ≤ 4096 ∧ text ≠ [] := by
  obtain ⟨parts, ls, head, _, _, _, _, _, _, e⟩ := h
  have : text.length = (parts ++ [45, 45] ++ bnd ++ [13, 10] ++ head ++ [13, 10] ++ content).length := congrArg List.length e
  simp only [List.length_append, List.length_cons, List.length_nil] at this
  refine ⟨by omega, ?_⟩
  rintro rfl
  simp only [List.length_nil] at this
  omega

section
variable {lib : Lib} {bnd c : Bytes} {mm : Int}

theorem flatMap_again (b : Bytes) : ∀ j, (List.replicate j ((b, none) : Reply)).flatMap Prod.fst = again j b
  | 0 => rfl
  | j + 1 => by rw [List.replicate_succ, List.flatMap_cons, flatMap_again b j, again_succ]

theorem replicate_next (b : Bytes) (j : Nat) : List.replicate (j + 1) ((b, none) : Reply) ++ [(b, none)] = List.replicate (j + 1 + 1) (b, none) := by
  rw [← List.replicate_succ']

/-- `ReadForm` on a body whose first 4096 bytes end within a part: it does not return, or finds
the form too large. -/
theorem readForm_within (hl : lib.ReadsForms) (hb : Boundary bnd) (h0 : 0 ≤ mm) (hm : mm + 10485760 < 2 ^ 63) {ps : List (Option Bytes × Bytes)} {n : Option Bytes}
    {content : Bytes} (h : EndsWithin bnd ps n content (c.take 4096)) :
    (BringsNothing ps n → (lib.readForm (some c) bnd mm).1 = .hang) ∧ (¬ BringsNothing ps n → lib.readForm (some c) bnd mm = (.tooLarge, 4096)) := by
  obtain ⟨hs, hne⟩ := endsWithin_short h (by rw [List.length_take]; omega)
  obtain ⟨a, b, hab, hle, hon⟩ := readFormOn_again_within lib.lowerHi hb hs h h0 hm
  have hle' : a ≤ 4096 := Nat.le_trans hle (by rw [List.length_take]; omega)
  obtain ⟨g, err, hg, hf⟩ := hl
  have hc : c ≠ [] := by rintro rfl; simp at hne
  have hstart : g bnd mm [] = .inl 4096 := by
    have h0 := hf bnd mm [] (by simp)
    rw [List.flatMap_nil, readFormOn_nothing _ hb hm] at h0
    exact h0
  have hstep : ∀ j, AsForm err (if mm + 10485760 < (a + j * b : Nat) then .tooLarge else .more 0) (g bnd mm (List.replicate (j + 1) (c.take 4096, none))) := by
    intro j
    have := hf bnd mm (List.replicate (j + 1) (c.take 4096, none)) (by
      intro x hx
      rw [(List.mem_replicate.1 hx).2]
      exact ⟨hne, rfl⟩)
    rwa [flatMap_again, hon] at this
  have hreply : ∀ p, repeating (some c) p 4096 (c.take 4096, none) 4096 := fun p => ⟨by simp [hc], rfl⟩
  constructor
  · intro hn
    have hb0 : b = 0 := hab.2 hn
    subst hb0
    have hask : ∀ j, g bnd mm (List.replicate (j + 1) (c.take 4096, none)) = .inl 4096 := by
      intro j
      have := hstep j
      rw [if_neg (by omega)] at this
      exact this
    have none : ∀ {h : List Reply} {s : Nat} {r : FormRes} {s' : Nat}, Plays (repeating (some c)) (g bnd mm) h s r s' →
        ∀ j, h = List.replicate (j + 1) (c.take 4096, none) → False := by
      intro h s r s' hp
      induction hp with
      | stop hs =>
        rintro j rfl
        rw [hask j] at hs
        cases hs
      | ask hs hr _ ih =>
        rintro j rfl
        rw [hask j] at hs
        cases hs
        have ha := repeating_det hr (hreply _)
        rw [ha.1] at ih
        exact ih (j + 1) (replicate_next _ _)
    rcases hrf : lib.readForm (some c) bnd mm with ⟨r, p⟩
    by_cases hr : r = .hang
    · exact hr
    · exfalso
      have hp := (hg.runs _ _ _ _ _ hr).1 hrf
      cases hp with
      | stop hs => rw [hstart] at hs; cases hs
      | ask hs hr hp =>
        rw [hstart] at hs
        cases hs
        have ha := repeating_det hr (hreply _)
        rw [ha.1] at hp
        exact none hp 0 rfl
  · intro hn
    have hb0 : 0 < b := Nat.pos_of_ne_zero fun e => hn (hab.1 e)
    have go : ∀ d j, mm + 10485760 < (a + (j + d) * b : Nat) →
        Plays (repeating (some c)) (g bnd mm) (List.replicate (j + 1) (c.take 4096, none)) 4096 .tooLarge 4096 := by
      intro d
      induction d with
      | zero =>
        intro j hj
        have := hstep j
        rw [Nat.add_zero] at hj
        rw [if_pos hj] at this
        exact .stop this
      | succ d ih =>
        intro j hj
        have hs := hstep j
        by_cases hlt : mm + 10485760 < (a + j * b : Nat)
        · rw [if_pos hlt] at hs
          exact .stop hs
        · rw [if_neg hlt] at hs
          refine .ask hs (hreply _) ?_
          rw [replicate_next]
          exact ih (j + 1) (by rw [show j + 1 + d = j + (d + 1) by omega]; exact hj)
    refine (hg.runs _ _ _ _ _ (by simp)).2 (.ask hstart (hreply _) ?_)
    refine go ((mm + 10485760).toNat + 1) 0 ?_
    have : (mm + 10485760).toNat + 1 ≤ (0 + ((mm + 10485760).toNat + 1)) * b := by
      rw [Nat.zero_add]; exact Nat.le_mul_of_pos_right _ hb0
    omega

end

/-! ### C124: looking at the fields returns -/

/-- The full claim: whatever the body, looking at its fields returns. -/
def C124_statement : Prop :=
  ∀ (env : Env) (t : Tx) (v : Var), env.lib.ReadsMedia → env.lib.ReadsForms → SaneLimit env.limits → v.fetch env t ≠ .fuel

/-- The body is a form that is complete, ended within the reader's buffer. -/
structure Spec.EndsInTime (env : Env) (t : Tx) (bnd : Bytes) (ps : List (Option Bytes × Bytes)) : Prop where
  declared : BoundaryIs t.reqHeader bnd
  boundary : Boundary bnd
  form : ∃ body w rest, t.reqBody.content = some body ∧ FormText bnd ps (w ++ b!"\r\n" ++ rest) body ∧ Blanks w ∧ body.length ≤ 4096 + rest.length
  room : Room env.limits ps

theorem requestBodyParse_inTime {env : Env} {t : Tx} {bnd : Bytes} {ps : List (Option Bytes × Bytes)} (hm : env.lib.ReadsMedia) (hl : env.lib.ReadsForms)
    (hr : BodyReadable env.limits t) (hc : t.cache.lookup .multipart = none) (h : EndsInTime env t bnd ps) :
    requestBodyParse env t = .ok (({ t with reqBody := t.reqBody.afterForm 4096 } : Tx).setCache .multipart (.form (some (addPairs [] (fieldsOf ps)))),
      some .multipart, .form (some (addPairs [] (fieldsOf ps)))) := by
  obtain ⟨h1, h0, ⟨body, w, rest, h6, h2, h3, h4⟩, h5⟩ := h
  have hread := readForm_ended hl h0 h2 h3 h4 h5
  obtain ⟨g1, g2⟩ := boundaryIs_reads hm h1
  simp only [requestBodyParse_open hr, g2, loop_multi g1, hc, h6, hread]

/-- C124, what is true: looking at fields returns if the body is not to be read, is no multipart
body, has been parsed before, or is a form that ends within the reader's buffer. -/
theorem C124_returns_partial {env : Env} {t : Tx} (hm : env.lib.ReadsMedia) (hl : env.lib.ReadsForms)
    (h : ¬ BodyReadable env.limits t ∨ ¬ b!"multipart/" <+: mediaType env.lib t ∨ t.cache.lookup .multipart ≠ none ∨ ∃ bnd ps, EndsInTime env t bnd ps) (v : Var) :
    v.fetch env t ≠ .fuel := by
  apply Var.fetch_parsed
  have hcached : BodyReadable env.limits t → t.cache.lookup .multipart ≠ none → requestBodyParse env t ≠ .fuel := by
    intro hr h
    rw [requestBodyParse_open hr]
    have hc : ∀ u : Tx, u.cache.lookup .multipart ≠ none → requestBodyLoop env (mediaType env.lib t) (boundaryOf env t) [.multipart] u ≠ .fuel := by
      intro u hu
      simp only [requestBodyLoop]
      split
      · simp
      · split
        · split <;> simp
        · next hn => exact absurd hn hu
    rw [requestBodyLoop]
    split
    · exact hc t h
    · split
      · split
        · exact hc t h
        · simp
      · refine Res.bind_ne_fuel (by simp only [parseBody]; split <;> simp) ?_
        rintro ⟨t1, res, err⟩ hp
        have ht1 : t1.cache = t.cache := by
          simp only [parseBody] at hp
          split at hp <;> (cases hp; rfl)
        dsimp only
        split
        · simp
        · split
          · refine hc _ ?_
            have : (t1.setCache .urlencoded res).cache.lookup .multipart = t.cache.lookup .multipart := by
              rw [Tx.setCache, ← ht1]
              have hlk : ∀ l : List (BodyType × Parsed), (l.filter fun e => e.1 != .urlencoded).lookup .multipart = l.lookup .multipart := by
                intro l
                induction l with
                | nil => rfl
                | cons x l ih =>
                  obtain ⟨k, p⟩ := x
                  cases k with
                  | urlencoded => exact ih
                  | multipart => rfl
              simp only [List.lookup_cons]
              exact hlk _
            rw [this]
            exact h
          · simp
  by_cases hr : BodyReadable env.limits t
  · rcases h with h | h | h | ⟨bnd, ps, h⟩
    · exact absurd hr h
    · rw [requestBodyParse_open hr]
      have h' : (BodyType.multipart.contentType.isPrefixOf (mediaType env.lib t)) = false := by
        rw [Bool.eq_false_iff]
        exact fun e => h (List.isPrefixOf_iff_prefix.1 e)
      simp only [requestBodyLoop, h', Bool.not_false, if_true]
      split
      · simp
      · split
        · split <;> simp
        · refine Res.bind_ne_fuel (by simp only [parseBody]; split <;> simp) ?_
          rintro ⟨t1, res, err⟩ _
          dsimp only
          split
          · simp
          · split <;> simp
    · exact hcached hr h
    · cases hc : t.cache.lookup .multipart with
      | some x => exact hcached hr (by rw [hc]; simp)
      | none =>
        rw [requestBodyParse_inTime hm hl hr hc h]
        simp
  · simp only [requestBodyParse]
    split
    · simp
    · split
      · simp
      · next h1 h2 =>
        refine absurd ⟨?_, ?_, ?_⟩ hr
        · cases hh : env.limits.requestBodyAccess with
          | true => rfl
          | false => rw [hh] at h2; simp at h2
        · exact (hasBodyMethod_iff _).1 (by simpa using h1)
        · intro e
          rw [e] at h2
          simp at h2

/-- Transactions that may be asked for the fields. -/
def Spec.Quick (env : Env) (t : Tx) : Prop :=
  ¬ BodyReadable env.limits t ∨ ¬ b!"multipart/" <+: mediaType env.lib t ∨ ∃ bnd ps, EndsInTime env t bnd ps

theorem quick_same {env : Env} {t t' : Tx} (h : Quick env t) (h1 : t'.method = t.method) (h2 : t'.reqHeader = t.reqHeader) (h3 : t'.reqBody.len = t.reqBody.len)
    (h4 : t'.reqBody.content = t.reqBody.content) : Quick env t' := by
  simp only [Quick, BodyReadable, mediaType] at h ⊢
  rw [h1, h2, h3]
  refine h.imp id (Or.imp id ?_)
  rintro ⟨bnd, ps, h⟩
  refine ⟨bnd, ps, ?_, h.boundary, ?_, h.room⟩
  · rw [h2]; exact h.declared
  · rw [h4]; exact h.form

theorem Buf.SameBody.content {b b' : Buf} (h : b.SameBody b') (hf : b'.fileState = b.fileState) : b'.content = b.content := by
  have h1 := h.file
  simp only [Buf.content, h.memBuf]
  simp only [Buf.fileState] at hf
  cases h2 : b'.fileBuf <;> cases h3 : b.fileBuf <;> simp_all

theorem quick_placid {env : Env} (hm : env.lib.ReadsMedia) (hl : env.lib.ReadsForms) {rs : RuleSet} (hk : rs.KeepsFacts) (hb : rs.KeepsBodies) : Placid env rs (Quick env) where
  fetch := fun _ _ _ _ _ v _ t h => C124_returns_partial hm hl (h.imp id (Or.imp id .inr)) v
  fetched := fun t t' h hf => quick_same h (by rw [hf.same]) (by rw [hf.same]) hf.req.length (hf.req.content hf.reqFile)
  acts := fun a hn ha n t t' h hrun => by
    have h1 : a.KeepsFacts := by
      rcases ha with ha | ⟨p, r, hr, ha⟩
      · exact hk.2 a ha
      · exact hk.1 p r hr a ha
    have h2 : a.KeepsBodies := by
      rcases ha with ha | ⟨p, r, hr, ha⟩
      · exact hb.2 a ha
      · exact hb.1 p r hr a ha
    have e1 := Action.keepsFacts_run hn h1 hrun
    have e2 := (Action.keepsBodies_run hn h2 hrun).1
    exact quick_same h (congrArg Facts.method e1) (congrArg Facts.headers e1) (by rw [e2]) (by rw [e2])
  touch := fun t h => quick_same h rfl rfl rfl rfl
  cur := fun t _ _ _ h => quick_same h rfl rfl rfl rfl

/-- C124 and C30, for calls: on a transaction whose body is not to be read, or no multipart body,
or a form that ends within the reader's buffer, every phase is processed in finitely many
steps, by rules that only jump forward, without `block` among the default actions. -/
theorem C124_calls_return {env : Env} (hm : env.lib.ReadsMedia) (hl : env.lib.ReadsForms) {rs : RuleSet} (hk : rs.KeepsFacts) (hb : rs.KeepsBodies) (hd : rs.NoBlockDefault)
    (hrs : rs.Forward) {t : Tx} (h : Quick env t) {op : Op} (hop : op = .processRequestBody ∨ op = .processResponseBody ∨ op = .processLogging ∨ ∃ p, op = .processPhase p) :
    ∃ n r, r ≠ .fuel ∧ ∀ m ≥ n, t.step env rs m op = r := by
  have lift : ∀ n, t.step env rs n op ≠ .fuel → ∃ n r, r ≠ .fuel ∧ ∀ m ≥ n, t.step env rs m op = r := fun n hn =>
    ⟨n, _, hn, fun m hm => ((Tx.step_le env rs hm t op).resolve_left hn).symm⟩
  have hc := quick_placid hm hl hk hb
  rcases hop with rfl | rfl | rfl | ⟨p, rfl⟩ <;>
    exact lift _ (Res.bind_ne_fuel (processPhase_returns hc hd hrs _ (Nat.le_refl _) h) fun _ _ => by simp)

theorem fetch_fuel {env : Env} {t : Tx} (h : requestBodyParse env t = .fuel) {v : Var} (hv : LooksAtFields v) : v.fetch env t = .fuel := by
  induction hv with
  | post f => simp only [Var.fetch, fetchArgsPost, h, Res.bind]
  | postNames f => simp only [Var.fetch, fetchArgsPostNames, h, Res.bind]
  | args g p => simp only [Var.fetch, fetchArgsPost, h, Res.bind]
  | argsNames g p => simp only [Var.fetch, fetchArgsPostNames, h, Res.bind]
  | count _ ih => simp only [Var.fetch, ih, Res.bind]

theorem requestBodyParse_hang {env : Env} {t : Tx} {bnd body content : Bytes} {ps : List (Option Bytes × Bytes)} {n : Option Bytes} (hm : env.lib.ReadsMedia)
    (hl : env.lib.ReadsForms) (hr : SaneLimit env.limits) (h : FreshBody env t bnd body) (hw : EndsWithin bnd ps n content (body.take 4096)) (hn : BringsNothing ps n) :
    requestBodyParse env t = .fuel := by
  obtain ⟨g1, g2⟩ := boundaryIs_reads hm h.declared
  have hread := (readForm_within hl h.boundary hr.1 hr.2 hw).1 hn
  rcases hrf : env.lib.readForm (some body) bnd env.limits.requestBodyInMem with ⟨r, p⟩
  rw [hrf] at hread
  cases hread
  simp only [requestBodyParse_open h.readable, g2, loop_multi g1, h.fresh, h.content, hrf]

/-- C124, what is false: if the first 4096 bytes of a body (which may be all of it) end within the
content of a part, no part after the first is a field with a value, nor is the one that is
cut, then looking at the fields never returns: the reader gets the same bytes for ever, and
nowhere in them finds the end of that part. -/
theorem C124_hangs {env : Env} {t : Tx} {bnd body content : Bytes} {ps : List (Option Bytes × Bytes)} {n : Option Bytes} (hm : env.lib.ReadsMedia)
    (hl : env.lib.ReadsForms) (hr : SaneLimit env.limits) (h : FreshBody env t bnd body) (hw : EndsWithin bnd ps n content (body.take 4096)) (hn : BringsNothing ps n)
    {v : Var} (hv : LooksAtFields v) : v.fetch env t = .fuel :=
  fetch_fuel (requestBodyParse_hang hm hl hr h hw hn) hv

/-! ### In rules -/

/-- The phase of the request body is processed from its first rule on. -/
theorem body_phase_first {env : Env} {rs : RuleSet} {t : Tx} {r : Rule} {more : List Rule} (hp : t.phase < 3) (ha : t.abort = false) (hrs : rs.phases 3 = r :: more) (n : Nat) :
    t.step env rs (n + 1) .processRequestBody =
      ((r.run env rs n { t with phase := 3, currentRule := 0, nextRule := if more = [] then statusEndOfRules else 1 }).bind fun t =>
        if t.touch.intervention.disruptive then .ok (t.touch, [(3, 0)])
        else
          (processLoop env rs 3 n (t.touch.next (rs.phases t.touch.phase).length).2 (t.touch.next (rs.phases t.touch.phase).length).1).bind
            fun x => .ok (x.1, (3, 0) :: x.2)).bind fun x => .ok (x.1, .unit, x.2) := by
  have hnext : ((t.jumpToPhase 3).next (rs.phases (t.jumpToPhase 3).phase).length) =
      ({ t with phase := 3, currentRule := 0, nextRule := if more = [] then statusEndOfRules else 1 }, 0) := by
    have : (rs.phases (t.jumpToPhase 3).phase) = r :: more := hrs
    rw [this]
    cases more with
    | nil => rfl
    | cons r' more =>
      have h1 : ¬ (((r :: r' :: more).length : Nat) : Int) ≤ 0 + 1 := by simp only [List.length_cons]; omega
      have h2 : ¬ (0 : Int) = statusEndOfRules := by decide
      simp only [Tx.next, Tx.jumpToPhase, reduceCtorEq, if_false]
      rfl
  have hge : ¬ t.phase ≥ phaseRequestBody := by simp only [phaseRequestBody]; omega
  have ha' : (t.jumpToPhase phaseRequestBody).abort = false := ha
  simp only [Tx.step, processPhase, if_neg hge, processPhase', ha', Bool.false_eq_true, if_false]
  simp only [show phaseRequestBody = 3 from rfl, hnext, processLoop]
  rw [if_pos (by decide)]
  have hproc : ∀ u : Tx, rs.process env n u 3 0 = r.run env rs n u := by
    intro u
    simp only [RuleSet.process, hrs]
    simp
  have hev : (if (0 : Int) < (rs.phases 3).length then [(3, 0)] else []) = ([(3, 0)] : Trace) := by
    rw [hrs, if_pos (by simp only [List.length_cons]; omega)]
  rw [hproc, hev]
  rfl

/-- C124: if the first rule of the phase looks at the fields first, `ProcessRequestBody` never
returns for such a body. -/
theorem C124_call_hangs {env : Env} {t : Tx} {bnd body content : Bytes} {ps : List (Option Bytes × Bytes)} {n : Option Bytes} (hm : env.lib.ReadsMedia)
    (hl : env.lib.ReadsForms) (hr : SaneLimit env.limits) (h : FreshBody env t bnd body) (hw : EndsWithin bnd ps n content (body.take 4096)) (hn : BringsNothing ps n)
    {rs : RuleSet} {r : Rule} {more : List Rule} (hp : t.phase < 3) (ha : t.abort = false) (hrs : rs.phases 3 = r :: more) {v : Var} {vs : List Var} (hrv : r.vars = v :: vs)
    (hv : LooksAtFields v) (fuel : Nat) : t.step env rs fuel .processRequestBody = .fuel := by
  cases fuel with
  | zero =>
    have hge : ¬ t.phase ≥ phaseRequestBody := by simp only [phaseRequestBody]; omega
    have ha' : (t.jumpToPhase phaseRequestBody).abort = false := ha
    simp only [Tx.step, processPhase, if_neg hge, processPhase', ha', Bool.false_eq_true, if_false, processLoop, Res.bind]
  | succ k =>
    rw [body_phase_first hp ha hrs]
    have hf := C124_hangs hm hl hr (t := { t with phase := 3, currentRule := 0, nextRule := if more = [] then statusEndOfRules else 1 })
      ⟨h.readable, h.declared, h.boundary, h.content, h.fresh⟩ hw hn hv
    simp only [Rule.run, Rule.matches, hrv, fetchVars, Rule.transformVariable, hf, Res.bind]

/-! ### C125: forms within the limits are not refused -/

/-- The full claim: a complete form is not refused if the limit for memory, plus 10 MB for values,
allows what is in it. -/
def C125_statement : Prop :=
  ∀ (env : Env) (t : Tx) (bnd body rest : Bytes) (ps : List (Option Bytes × Bytes)) (v : Var), env.lib.ReadsMedia → env.lib.ReadsForms → SaneLimit env.limits →
    FreshBody env t bnd body → FormText bnd ps (b!"\r\n" ++ rest) body → Room env.limits ps → fieldBytes ps ≤ 10485760 → LooksAtFields v →
    ∃ vals t', v.fetch env t = .ok (vals, t') ∧ t'.abort = t.abort ∧ t'.intervention = t.intervention

theorem fetch_keeps {env : Env} {t t1 : Tx} {m : GoMap} (h : requestBodyParse env t = .ok (t1, some .multipart, .form (some m))) {v : Var} (hv : LooksAtFields v) :
    ∃ vals, v.fetch env t = .ok (vals, t1) := by
  induction hv with
  | post f => exact ⟨_, by simp only [Var.fetch, fetchArgsPost, h, Res.bind]; rfl⟩
  | postNames f => exact ⟨_, by simp only [Var.fetch, fetchArgsPostNames, h, Res.bind]; rfl⟩
  | args g p => exact ⟨_, by simp only [Var.fetch, fetchArgsPost, h, Res.bind]; rfl⟩
  | argsNames g p => exact ⟨_, by simp only [Var.fetch, fetchArgsPostNames, h, Res.bind]; rfl⟩
  | count _ ih =>
    obtain ⟨vals, ih⟩ := ih
    exact ⟨_, by simp only [Var.fetch, ih, Res.bind]; rfl⟩

/-- C125, what is true: a form that ends within the reader's buffer is not. -/
theorem C125_in_time_partial {env : Env} {t : Tx} {bnd : Bytes} {ps : List (Option Bytes × Bytes)} (hm : env.lib.ReadsMedia) (hl : env.lib.ReadsForms)
    (hr : BodyReadable env.limits t) (hc : t.cache.lookup .multipart = none) (h : EndsInTime env t bnd ps) {v : Var} (hv : LooksAtFields v) :
    ∃ vals t', v.fetch env t = .ok (vals, t') ∧ t'.abort = t.abort ∧ t'.intervention = t.intervention := by
  obtain ⟨vals, hf⟩ := fetch_keeps (requestBodyParse_inTime hm hl hr hc h) hv
  exact ⟨vals, _, hf, rfl, rfl⟩

/-- The transaction after a form has been found too large. -/
def tooLargeTx (t : Tx) : Tx :=
  { (({ t with reqBody := t.reqBody.afterForm 4096 } : Tx).abortWithError 413 errMessageTooLarge).setCache .multipart .nil with reqBodyError := some errMessageTooLarge }

theorem requestBodyParse_tooLarge {env : Env} {t : Tx} {bnd body content : Bytes} {ps : List (Option Bytes × Bytes)} {n : Option Bytes} (hm : env.lib.ReadsMedia)
    (hl : env.lib.ReadsForms) (hr : SaneLimit env.limits) (h : FreshBody env t bnd body) (hw : EndsWithin bnd ps n content (body.take 4096)) (hn : ¬ BringsNothing ps n) :
    requestBodyParse env t = .ok (tooLargeTx t, none, .nil) := by
  obtain ⟨g1, g2⟩ := boundaryIs_reads hm h.declared
  have hread := (readForm_within hl h.boundary hr.1 hr.2 hw).2 hn
  simp only [requestBodyParse_open h.readable, g2, loop_multi g1, h.fresh, h.content, hread]
  rfl

/-- C125, what is false: if the first 4096 bytes end within the content of a part, and that or any
part but the first is a field with a value, the request is refused with status 413, however
few bytes the form has and however few are left of it. -/
theorem C125_refused {env : Env} {t : Tx} {bnd body content : Bytes} {ps : List (Option Bytes × Bytes)} {n : Option Bytes} (hm : env.lib.ReadsMedia)
    (hl : env.lib.ReadsForms) (hr : SaneLimit env.limits) (h : FreshBody env t bnd body) (hw : EndsWithin bnd ps n content (body.take 4096)) (hn : ¬ BringsNothing ps n)
    {v : Var} (hv : LooksAtFields v) :
    ∃ vals t', v.fetch env t = .ok (vals, t') ∧ t'.abort = true ∧ t'.intervention.disruptive = true ∧ t'.intervention.status = 413 := by
  have hp := requestBodyParse_tooLarge hm hl hr h hw hn
  suffices hs : ∃ vals, v.fetch env t = .ok (vals, tooLargeTx t) by
    obtain ⟨vals, hs⟩ := hs
    exact ⟨vals, _, hs, rfl, rfl, rfl⟩
  induction hv with
  | post f => exact ⟨_, by simp only [Var.fetch, fetchArgsPost, hp, Res.bind]; rfl⟩
  | postNames f => exact ⟨_, by simp only [Var.fetch, fetchArgsPostNames, hp, Res.bind]; rfl⟩
  | args g p => exact ⟨_, by simp only [Var.fetch, fetchArgsPost, hp, Res.bind]; rfl⟩
  | argsNames g p => exact ⟨_, by simp only [Var.fetch, fetchArgsPostNames, hp, Res.bind]; rfl⟩
  | count _ ih =>
    obtain ⟨vals, ih⟩ := ih
    exact ⟨_, by simp only [Var.fetch, ih, Res.bind]; rfl⟩

/-- C125: so `ProcessRequestBody` refuses such a form if the first rule of the phase looks at the
fields, whatever the rule looks for. -/
theorem C125_call_refused {env : Env} {t : Tx} {bnd body content : Bytes} {ps : List (Option Bytes × Bytes)} {n : Option Bytes} (hm : env.lib.ReadsMedia)
    (hl : env.lib.ReadsForms) (hr : SaneLimit env.limits) (h : FreshBody env t bnd body) (hw : EndsWithin bnd ps n content (body.take 4096)) (hn : ¬ BringsNothing ps n)
    {rs : RuleSet} {r : Rule} {more : List Rule} (hp : t.phase < 3) (ha : t.abort = false) (hrs : rs.phases 3 = r :: more) {v : Var} (hrv : r.vars = [v])
    (hv : LooksAtFields v) (fuel : Nat) : ∃ t', t.step env rs (fuel + 1) .processRequestBody = .ok (t', .unit, [(3, 0)]) ∧
      t'.abort = true ∧ t'.intervention.disruptive = true ∧ t'.intervention.status = 413 := by
  obtain ⟨vals, t', h1, h2, h3, h4⟩ := C125_refused hm hl hr (t := { t with phase := 3, currentRule := 0, nextRule := if more = [] then statusEndOfRules else 1 })
    ⟨h.readable, h.declared, h.boundary, h.content, h.fresh⟩ hw hn hv
  refine ⟨t'.touch, ?_, h2, ?_, ?_⟩
  · rw [body_phase_first hp ha hrs]
    have hmatch : ∀ xs : List Bytes, matchLoop r t' xs = .ok false := by
      intro xs
      cases xs with
      | nil => rfl
      | cons x xs => simp only [matchLoop, h2, if_true]
    have hd : t'.touch.intervention.disruptive = true := by
      rw [← h3]; rfl
    simp only [Rule.run, Rule.matches, hrv, fetchVars, Rule.transformVariable, h1, Res.bind, hmatch, Bool.not_false, if_true, hd]
  · rw [← h3]; rfl
  · rw [← h4]; rfl

/-! ### Examples -/

/-- Nothing is begun in a content without carriage returns that does not start with a dash. -/
theorem noneBegun_plain {bnd v : Bytes} (hb : Boundary bnd) {a : UInt8} (h : ∀ c ∈ a :: v, c ≠ 13) (ha : a ≠ 45) : NoneBegun bnd (a :: v) where
  inside := (noDelimiter_plain (fun hm => h _ hm rfl) (by simpa using ha)).notEnded hb
  start := by
    rintro ⟨y, e⟩
    exact ha (List.cons.inj e).1
  seam := by
    intro s hs hsuf hpre
    cases s with
    | nil => exact hs rfl
    | cons c s =>
      obtain ⟨y, e⟩ := hpre
      have : c = 13 := (List.cons.inj e).1
      exact h c (hsuf.subset List.mem_cons_self) this

/-- A part without header. -/
theorem Sample.endless_within : EndsWithin b!"foo" [] none b!"x" b!"--foo\r\n\r\nx" :=
  ⟨[], [], [], .nil, .nil, .skipped (.bare (by simp [Lacks])), by simp [Lacks], (noDelimiter_plain (by simp) (by simp)).notEnded ⟨by decide, by decide⟩, noneBegun_plain ⟨by decide, by decide⟩ (by decide) (by decide), rfl⟩

/-- Twelve bytes that are never done with. -/
example : (Var.argsNames {} {}).fetch formEnv (typed (b!"MultIpart/mixed" ++ b!"; Boundary=foo") b!"--foo\r\n\r\nx") = .fuel :=
  C124_hangs (env := formEnv) (body := b!"--foo\r\n\r\nx") (ps := []) (n := none) (content := b!"x") formEnv_media formLib_reads ⟨by decide, by decide⟩ (evil_fresh _ (by decide)) endless_within ⟨rfl, rfl⟩ (.argsNames _ _)

/-- And a request whose processing never ends. -/
example (n : Nat) : (typed (b!"MultIpart/mixed" ++ b!"; Boundary=foo") b!"--foo\r\n\r\nx").step formEnv
    { phases := fun p => if p = 3 then [{ vars := [.args {} {}, .requestBody], op := some any, actions := [.deny] }] else [] } n .processRequestBody = .fuel :=
  C124_call_hangs (env := formEnv) (body := b!"--foo\r\n\r\nx") (ps := []) (n := none) (content := b!"x") formEnv_media formLib_reads ⟨by decide, by decide⟩
    (evil_fresh _ (by decide)) endless_within ⟨rfl, rfl⟩ (by decide) rfl rfl rfl (.args _ _) n

theorem C124_refuted : ¬ C124_statement := fun h =>
  h formEnv (typed (b!"MultIpart/mixed" ++ b!"; Boundary=foo") b!"--foo\r\n\r\nx") (.argsPost {}) formEnv_media formLib_reads ⟨by decide, by decide⟩
    (C124_hangs (env := formEnv) (body := b!"--foo\r\n\r\nx") (ps := []) (n := none) (content := b!"x") formEnv_media formLib_reads ⟨by decide, by decide⟩ (evil_fresh _ (by decide)) endless_within ⟨rfl, rfl⟩ (.post _))

/-- The form of `C123`'s example ends in time. -/
theorem Sample.evil_inTime : EndsInTime formEnv (typed (b!"MultIpart/mixed" ++ b!"; Boundary=foo") (evilParts ++ b!"--" ++ b!"foo" ++ b!"--" ++ b!" \r\nepilogue")) b!"foo" [(some b!"a", b!"evil"), (none, b!"x")] where
  declared := foo_is _
  boundary := ⟨by decide, by decide⟩
  form := ⟨_, [32], b!"epilogue", rfl, ⟨_, evil_parts, rfl⟩, by simp [Blanks], by decide +kernel⟩
  room := ⟨by decide, by decide⟩

example : (Var.count (.argsPost {})).fetch formEnv (typed (b!"MultIpart/mixed" ++ b!"; Boundary=foo") (evilParts ++ b!"--" ++ b!"foo" ++ b!"--" ++ b!" \r\nepilogue")) ≠ .fuel :=
  C124_returns_partial formEnv_media formLib_reads (.inr (.inr (.inr ⟨_, _, evil_inTime⟩))) _

/-- Whatever rules a text has. -/
example {vo : VarOrd} {text : Bytes} {set : DireSet} (hload : DireSet.addSecLangString formLib vo [] text = .ok (set, none))
    (hno : ∀ dirs p a, Program text dirs → .rule p ∈ dirs → a ∈ p.acts.action → a.tk = .allow → ¬ Unquoted a.arg b!"request") : ∃ n r, r ≠ .fuel ∧
    ∀ m ≥ n, (typed (b!"MultIpart/mixed" ++ b!"; Boundary=foo") (evilParts ++ b!"--" ++ b!"foo" ++ b!"--" ++ b!" \r\nepilogue")).step formEnv (set.execute newEngine).ruleSet m
      .processRequestBody = r := by
  have hst := loaded_stock hload
  have hs : ∀ a : Action, a.Stock → a.KeepsFacts ∧ a.KeepsBodies := by
    intro a ha
    cases a
    case custom => exact ha.elim
    all_goals exact ⟨trivial, trivial⟩
  have hall : ∀ p, ∀ r ∈ (set.execute newEngine).ruleSet.phases p, ∀ a ∈ r.allActions, a.Stock := by
    intro p r hr a ha
    simp only [Rule.allActions, List.mem_append, List.mem_flatMap] at ha
    rcases ha with ha | ⟨s, hs, ha⟩
    · exact (hst.rules p r hr).1.actions a ha
    · exact ((hst.rules p r hr).2 s hs).actions a ha
  exact C124_calls_return formEnv_media formLib_reads ⟨fun p r hr a ha => (hs a (hall p r hr a ha)).1, fun a ha => (hs a (hst.default a ha)).1⟩
    ⟨fun p r hr a ha => (hs a (hall p r hr a ha)).2, fun a ha => (hs a (hst.default a ha)).2⟩ (loaded_forward hload hno).2 (loaded_forward hload hno).1
    (.inr (.inr ⟨_, _, evil_inTime⟩)) (.inl rfl)

example : ∃ vals t', (Var.argsPost {}).fetch formEnv (typed (b!"MultIpart/mixed" ++ b!"; Boundary=foo") (evilParts ++ b!"--" ++ b!"foo" ++ b!"--" ++ b!" \r\nepilogue")) = .ok (vals, t') ∧
    t'.abort = false ∧ t'.intervention = (typed (b!"MultIpart/mixed" ++ b!"; Boundary=foo") (evilParts ++ b!"--" ++ b!"foo" ++ b!"--" ++ b!" \r\nepilogue")).intervention :=
  C125_in_time_partial formEnv_media formLib_reads (evil_fresh _ (by decide)).readable rfl evil_inTime (.post _)

/-- A form with one field, of five thousand `x`. -/
def Sample.longHead : Bytes := b!"--foo\r\ncontent-disposition: form-data; name=\"a\"\r\n\r\n"

def Sample.longForm : Bytes := longHead ++ List.replicate 5000 120 ++ b!"\r\n" ++ b!"--" ++ b!"foo" ++ b!"--" ++ b!"\r\n"

theorem Sample.long_ne : longForm ≠ [] := fun h => by
  have := congrArg List.length h
  simp only [longForm, List.length_append, List.length_replicate, List.length_nil] at this
  omega

theorem Sample.long_text : FormText b!"foo" [(some b!"a", List.replicate 5000 120)] (b!"\r\n" ++ []) longForm := by
  refine ⟨_, .cons a_line (.field a_field) a_plain ((noDelimiter_plain ?_ ?_).notEnded ⟨by decide, by decide⟩) .nil, ?_⟩
  · intro h
    exact absurd (List.mem_replicate.1 h).2 (by decide)
  · rw [List.replicate_succ]
    exact fun h => absurd (Option.some.inj h) (by decide)
  · rw [List.append_nil, List.append_nil]
    rfl

theorem Sample.long_within : EndsWithin b!"foo" [] (some b!"a") (List.replicate 4045 120) (longForm.take 4096) := by
  refine ⟨[], _, _, .nil, a_line, .field a_field, a_plain, by unfold NotEnded; decide +kernel, ?_, ?_⟩
  · rw [List.replicate_succ]
    exact noneBegun_plain ⟨by decide, by decide⟩ (fun c hc => by rw [← List.replicate_succ] at hc; rw [(List.mem_replicate.1 hc).2]; decide) (by decide)
  · have e : longForm = longHead ++ (List.replicate 4045 120 ++ (List.replicate 955 120 ++ (b!"\r\n" ++ b!"--" ++ b!"foo" ++ b!"--" ++ b!"\r\n"))) := by
      rw [← List.append_assoc (List.replicate 4045 _), List.replicate_append_replicate]
      simp only [longForm, List.append_assoc]
    rw [e, List.take_append, List.take_append, List.take_of_length_le (by decide +kernel), List.take_of_length_le (by rw [List.length_replicate]; decide +kernel)]
    rw [show 4096 - longHead.length - (List.replicate 4045 (120 : UInt8)).length = 0 by rw [List.length_replicate]; decide +kernel]
    rw [List.take_zero, List.append_nil]
    rfl

example : ∃ vals t', (Var.argsPost {}).fetch formEnv (typed (b!"MultIpart/mixed" ++ b!"; Boundary=foo") longForm) = .ok (vals, t') ∧
    t'.abort = true ∧ t'.intervention.disruptive = true ∧ t'.intervention.status = 413 :=
  C125_refused (env := formEnv) (body := longForm) formEnv_media formLib_reads ⟨by decide, by decide⟩ (evil_fresh _ long_ne) long_within
    (fun h => by cases h.1) (.post _)

/-- A line that only looks like a delimiter changes nothing. -/
example : ∃ vals t', (Var.argsPost {}).fetch formEnv (typed (b!"MultIpart/mixed" ++ b!"; Boundary=foo")
      (b!"--foo\r\n" ++ b!"content-disposition: form-data; name=\"a\"\r\n" ++ b!"\r\n" ++ b!"--food\r\n--fool")) = .ok (vals, t') ∧
    t'.abort = true ∧ t'.intervention.disruptive = true ∧ t'.intervention.status = 413 := by
  refine C125_refused (env := formEnv) (ps := []) (n := some b!"a") (content := b!"--food\r\n--fool") formEnv_media formLib_reads ⟨by decide, by decide⟩ (evil_fresh _ (by decide))
    ⟨[], _, _, .nil, a_line, .field a_field, a_plain, by unfold NotEnded; decide +kernel, ⟨by unfold NotEnded; decide +kernel, by decide, ?_⟩, rfl⟩ (fun h => by cases h.1) (.post _)
  intro s hs ⟨x, hx⟩ hp
  have key : ∀ n ≤ 14, (b!"--food\r\n--fool".drop n).isPrefixOf (b!"\r\n--" ++ b!"foo") = true → b!"--food\r\n--fool".drop n = [] := by decide +kernel
  have hl := congrArg List.length hx
  simp only [List.length_append] at hl
  have hd : b!"--food\r\n--fool".drop x.length = s := by rw [← hx]; simp
  refine hs ?_
  rw [← hd]
  exact key x.length (by simp at hl; omega) (by rw [hd]; exact List.isPrefixOf_iff_prefix.2 hp)

/-- Though the rule looks for nothing in it. -/
example (n : Nat) : ∃ t', (typed (b!"MultIpart/mixed" ++ b!"; Boundary=foo") longForm).step formEnv
    { phases := fun p => if p = 3 then [{ vars := [.count (.argsPost {})] }, { vars := [.requestBody] }] else [] } (n + 1) .processRequestBody = .ok (t', .unit, [(3, 0)]) ∧
    t'.abort = true ∧ t'.intervention.disruptive = true ∧ t'.intervention.status = 413 :=
  C125_call_refused (env := formEnv) (body := longForm) formEnv_media formLib_reads ⟨by decide, by decide⟩ (evil_fresh _ long_ne) long_within
    (fun h => by cases h.1) (by decide) rfl rfl rfl (.count (.post _)) n

theorem C125_refuted : ¬ C125_statement := fun h => by
  have hfresh := evil_fresh longForm long_ne
  obtain ⟨vals, t', h1, h2, _⟩ := h formEnv _ _ longForm _ _ (.argsPost {}) formEnv_media formLib_reads ⟨by decide, by decide⟩ hfresh long_text
    ⟨by decide, by decide⟩ (by simp only [fieldBytes, fieldsOf, List.filterMap_cons, Option.map_some, List.filterMap_nil, List.map_cons, List.map_nil, List.length_replicate]; decide) (.post _)
  obtain ⟨vals', t'', h4, h5, _⟩ := C125_refused (env := formEnv) (body := longForm) formEnv_media formLib_reads ⟨by decide, by decide⟩ hfresh long_within
    (fun h => by cases h.1) (.post {})
  rw [h1] at h4
  cases h4
  rw [h5] at h2
  cases h2

end Verif
