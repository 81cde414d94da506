import Verif.Props.BodyTx
import Verif.Spec.Loader
/-! C68: what rules see of a request is what the host said last. -/
namespace Verif
open Sample Spec

/-- What the host can tell a transaction, bodies apart. -/
structure Spec.Facts where
  srcIp : Bytes := []
  srcPort : Bytes := []
  dstIp : Bytes := []
  dstPort : Bytes := []
  url : Option URL := none
  method : Bytes := []
  proto : Bytes := []
  headers : Option GoMap := none
  status : Int := 0
  respProto : Bytes := []
  respHeaders : Option GoMap := none
deriving DecidableEq

/-- What is known after one more call; handing over no header map counts as handing
over an empty one. -/
def Spec.told (k : Facts) : Op → Facts
  | .processConnection a b c d => { k with srcIp := a, srcPort := b, dstIp := c, dstPort := d }
  | .processRequestURL u m p => { k with url := u, method := m, proto := p }
  | .processRequestHeader none => { k with headers := some [] }
  | .processRequestHeader (some h) => { k with headers := some h }
  | .processResponseHeaders c p none => { k with status := c, respProto := p, respHeaders := some [] }
  | .processResponseHeaders c p (some h) => { k with status := c, respProto := p, respHeaders := some h }
  | _ => k

/-- What a transaction has on record. -/
def Tx.facts (t : Tx) : Facts :=
  { srcIp := t.srcIp, srcPort := t.srcPort, dstIp := t.dstIp, dstPort := t.dstPort, url := t.url, method := t.method,
    proto := t.reqProto, headers := t.reqHeader, status := t.respCode, respProto := t.respProto, respHeaders := t.respHeader }

/-- The first value of a header. -/
def Spec.firstValue (h : Option GoMap) (name : Bytes) : Option Bytes := do
  let m ← h
  let e ← m.find? fun e => e.1 == name
  e.2.head?

/-- The value of the single-valued variables, given what the host has told. -/
def Spec.shows (lib : Lib) (k : Facts) : VarTok → Option (List Bytes)
  | .remoteAddr => some [k.srcIp]
  | .requestMethod => some [k.method]
  | .requestProtocol => some [k.proto]
  | .queryString => some (k.url.toList.map fun u => u.rawQuery)
  | .requestFilename => some (k.url.toList.map fun u => u.path)
  | .requestUri => some (k.url.toList.map fun u =>
      lib.urlString { path := u.path, rawPath := u.rawPath, forceQuery := u.forceQuery, rawQuery := u.rawQuery, fragment := u.fragment })
  | .responseStatus => some [itoa k.status]
  | .responseProtocol => some [k.respProto]
  | .responseContentLength =>
    match firstValue k.respHeaders b!"Content-Length" with
    | some (c :: l) => some [c :: l]
    | _ => some [b!"0"]
  | .responseContentType =>
    match firstValue k.respHeaders b!"Content-Type" with
    | some (c :: l) => some [(lib.mediaType (c :: l)).1]
    | _ => some [(lib.mediaType b!"application/octet-stream").1]
  | _ => none

/-- Host-written actions leave what the host has told alone. -/
def Action.KeepsFacts : Action → Prop
  | .custom _ f => ∀ t, (f t).facts = t.facts
  | _ => True

def RuleSet.KeepsFacts (rs : RuleSet) : Prop :=
  (∀ p, ∀ r ∈ rs.phases p, ∀ a ∈ r.allActions, a.KeepsFacts) ∧ ∀ a ∈ rs.defaultActions, a.KeepsFacts

theorem Action.keepsFacts_run {rs : RuleSet} {a : Action} (hb : a ≠ .block) (ha : a.KeepsFacts) {n : Nat} {t t' : Tx}
    (h : Action.run rs n a t = .ok t') : t'.facts = t.facts := by
  cases a
  case block => exact absurd rfl hb
  case custom g f => simp only [Action.run, Res.ok.injEq] at h; subst h; exact ha t
  case skip =>
    simp only [Action.run, Res.ok.injEq, skipDo, Tx.jumpTo] at h
    split at h <;> (subst h; rfl)
  case allow arg =>
    simp only [Action.run, Res.ok.injEq, allowDo] at h
    repeat' split at h
    all_goals (subst h; rfl)
  all_goals (simp only [Action.run, Res.ok.injEq] at h; subst h; rfl)

theorem Fetched.facts {t t' : Tx} (h : Fetched t t') : t'.facts = t.facts := by
  rw [h.same]; rfl

/-- The evaluations of a phase, and an invariant all of them start with. -/
theorem exec_seen {env : Env} {rs : RuleSet} {p : Int} {I : Tx → Prop}
    (htouch : ∀ t, I t → I t.touch) (hnext : ∀ t k, I t → I (t.next k).1)
    (hproc : ∀ n i t t', I t → rs.process env n t p i = .ok t' → I t')
    {i : Int} {t t' : Tx} {tr : Trace} (h : Exec env rs p i t tr t') : I t →
    ∃ es : List Ev, tr = evTrace p es ∧ ∀ e ∈ es, (rs.phases p)[e.pos]? = some e.rule ∧ I e.before ∧ e.before.phase = p ∧
      ∃ n, e.rule.run env rs n e.before = .ok e.after := by
  have one : ∀ {n i t t'}, I t → t.phase = p → rs.process env n t p i = .ok t' →
      ∃ es : List Ev, event rs p i = evTrace p es ∧ ∀ e ∈ es, (rs.phases p)[e.pos]? = some e.rule ∧ I e.before ∧ e.before.phase = p ∧
        ∃ n, e.rule.run env rs n e.before = .ok e.after := by
    intro n i t t' hI hp h
    refine RuleSet.process_cases h ?_ ?_
    · intro hl _
      refine ⟨[], ?_, by simp⟩
      simp only [event, evTrace, List.map_nil]
      rw [if_neg (by omega)]
    · rintro r k rfl hr _ hrun
      refine ⟨[⟨k, r, t, t'⟩], ?_, ?_⟩
      · have : k < (rs.phases p).length := (List.getElem?_eq_some_iff.1 hr).1
        simp only [event, evTrace, List.map_cons, List.map_nil]
        rw [if_pos (by omega)]
      · intro e he
        rw [List.mem_singleton] at he
        subst he
        exact ⟨hr, hI, hp, n, hrun⟩
  induction h with
  | out _ => exact fun _ => ⟨[], rfl, by simp⟩
  | stop hp _ h _ => exact fun hI => one hI hp h
  | go hp _ h _ _ ih =>
    intro hI
    obtain ⟨es, h1, h2⟩ := one hI hp h
    obtain ⟨es', h1', h2'⟩ := ih (hnext _ _ (htouch _ (hproc _ _ _ _ hI h)))
    refine ⟨es ++ es', by simp [evTrace, h1, h1'], ?_⟩
    intro e he
    rcases List.mem_append.1 he with he | he
    · exact h2 e he
    · exact h2' e he

theorem next_facts (t : Tx) (k : Nat) : (t.next k).1.facts = t.facts := by
  simp only [Tx.next]
  split
  · rfl
  · split <;> rfl

theorem phase_facts {env : Env} {rs : RuleSet} (hrs : rs.KeepsFacts) {n : Nat} {p : Int} {t t' : Tx} {tr : Trace}
    (h : processPhase env rs n p t = .ok (t', tr)) :
    t'.facts = t.facts ∧ ∃ es : List Ev, tr = evTrace p es ∧ ∀ e ∈ es, (rs.phases p)[e.pos]? = some e.rule ∧
      e.before.facts = t.facts ∧ e.before.phase = p ∧ ∃ n, e.rule.run env rs n e.before = .ok e.after := by
  have hfetch : ∀ u u' : Tx, u.facts = t.facts → Fetched u u' → u'.facts = t.facts := fun u u' hu hf => hf.facts.trans hu
  have hprim : ∀ a : Action, a ≠ .block → a.KeepsFacts → ∀ n (u u' : Tx), u.facts = t.facts → Action.run rs n a u = .ok u' → u'.facts = t.facts :=
    fun a hb ha n u u' hu hr => (Action.keepsFacts_run hb ha hr).trans hu
  constructor
  · exact processPhase_inv (I := fun u => u.facts = t.facts) (ok := Action.KeepsFacts) (fun _ h => h) (fun _ _ _ _ h => h) hfetch hprim hrs.2 hrs.1 rfl h
  · refine processPhase_cases h (fun _ _ h => ⟨[], h, by simp⟩) (fun _ _ _ h => ⟨[], h, by simp⟩) ?_
    intro _ _ he
    refine exec_seen (I := fun u => u.facts = t.facts) (fun _ h => h) (fun u k hu => (next_facts u k).trans hu) ?_ he ?_
    · exact RuleSet.process_inv (ok := Action.KeepsFacts) hfetch hprim hrs.2 (hrs.1 p)
    · exact next_facts _ _

/-- C68, one call: afterwards the transaction knows what it knew and what the call
told it, and the rules evaluated by the call already see that. -/
theorem C68_call {env : Env} {rs : RuleSet} (hrs : rs.KeepsFacts) {n : Nat} {op : Op} {t t' : Tx} {o : Out} {tr : Trace}
    (h : t.step env rs n op = .ok (t', o, tr)) :
    t'.facts = told t.facts op ∧ ∃ (p : Int) (es : List Ev), tr = evTrace p es ∧ ∀ e ∈ es, (rs.phases p)[e.pos]? = some e.rule ∧
      e.before.facts = told t.facts op ∧ e.before.phase = p ∧ ∃ n, e.rule.run env rs n e.before = .ok e.after := by
  have key : ∀ {p : Int} {u : Tx}, u.facts = told t.facts op →
      ((processPhase env rs n p u).bind fun (t, tr) => .ok (t, .unit, tr)) = .ok (t', o, tr) →
      t'.facts = told t.facts op ∧ ∃ (p : Int) (es : List Ev), tr = evTrace p es ∧ ∀ e ∈ es, (rs.phases p)[e.pos]? = some e.rule ∧
      e.before.facts = told t.facts op ∧ e.before.phase = p ∧ ∃ n, e.rule.run env rs n e.before = .ok e.after := by
    intro p u hu h
    obtain ⟨⟨t1, tr1⟩, g1, g2⟩ := Res.bind_eq_ok.1 h
    cases g2
    obtain ⟨k1, es, k2, k3⟩ := phase_facts hrs g1
    rw [hu] at k1 k3
    exact ⟨k1, p, es, k2, k3⟩
  cases op
  case processRequestHeader hd => cases hd <;> exact key rfl h
  case processResponseHeaders c p hd => cases hd <;> exact key rfl h
  case processConnection => exact key rfl h
  case processRequestBody => exact key rfl h
  case processResponseBody => exact key rfl h
  case processLogging => exact key rfl h
  case processPhase => exact key rfl h
  case appendRequestBody =>
    obtain ⟨⟨b, k, e⟩, g1, g2⟩ := Res.bind_eq_ok.1 h
    cases g2; exact ⟨rfl, 0, [], rfl, by simp⟩
  case appendResponseBody =>
    obtain ⟨⟨b, k, e⟩, g1, g2⟩ := Res.bind_eq_ok.1 h
    cases g2; exact ⟨rfl, 0, [], rfl, by simp⟩
  case next =>
    simp only [Tx.step, Res.ok.injEq, Prod.mk.injEq] at h
    obtain ⟨rfl, _, rfl⟩ := h
    exact ⟨next_facts _ _, 0, [], rfl, by simp⟩
  case jumpTo i =>
    simp only [Tx.step, Res.ok.injEq, Prod.mk.injEq, Tx.jumpTo] at h
    obtain ⟨rfl, _, rfl⟩ := h
    refine ⟨?_, 0, [], rfl, by simp⟩
    split <;> rfl
  case result =>
    simp only [Tx.step, Tx.result, Res.ok.injEq, Prod.mk.injEq] at h
    obtain ⟨rfl, _, rfl⟩ := h
    refine ⟨?_, 0, [], rfl, by simp⟩
    split <;> rfl
  all_goals
    simp only [Tx.step, Res.ok.injEq, Prod.mk.injEq] at h
    obtain ⟨rfl, _, rfl⟩ := h
    exact ⟨rfl, 0, [], rfl, by simp⟩

/-- C68, any history: what a transaction knows is what its calls told it, the last
one counting. -/
theorem C68_history {env : Env} {rs : RuleSet} (hrs : rs.KeepsFacts) {n : Nat} : ∀ {ops : List Op} {t t' : Tx} {os : List Out} {tr : Trace},
    t.steps env rs n ops = .ok (t', os, tr) → t'.facts = ops.foldl told t.facts := by
  intro ops
  induction ops with
  | nil => intro t t' os tr h; simp only [Tx.steps] at h; cases h; rfl
  | cons op ops ih =>
    intro t t' os tr h
    obtain ⟨t1, o, tr1, os2, tr2, h1, h2, rfl, rfl⟩ := steps_cons h
    rw [ih h2, (C68_call hrs h1).1]
    rfl

/-- A new transaction knows nothing. -/
theorem C68_new (l : Limits) : (newTransaction l).facts = {} := rfl

theorem lookup_find (m : GoMap) (name : Bytes) : m.get? name = (m.find? fun e => e.1 == name).map (·.2) := by
  induction m with
  | nil => rfl
  | cons a m ih =>
    obtain ⟨k, v⟩ := a
    simp only [GoMap.get?, List.lookup_cons, List.find?_cons] at ih ⊢
    by_cases h : k = name
    · subst h; simp
    · have h1 : (name == k) = false := by simpa using fun e => h e.symm
      have h2 : (k == name) = false := by simpa using h
      simp only [h1, h2, ih]

theorem headerGet_first (h : Option GoMap) (name : Bytes) : headerGet h name = (firstValue h name).getD [] := by
  cases h with
  | none => rfl
  | some m =>
    simp only [headerGet, firstValue, lookup_find, Option.bind_eq_bind, Option.bind_some]
    cases m.find? fun e => e.1 == name with
    | none => rfl
    | some a => obtain ⟨k, v⟩ := a; cases v <;> rfl

/-- C68, the variables: each single-valued variable shows what is known. -/
theorem C68_variable {env : Env} {f : Filter} {tk : VarTok} {x : Var} (hx : variableOf f tk = some x) {t : Tx} {vals : List Bytes}
    (hs : shows env.lib t.facts tk = some vals) : x.fetch env t = .ok (vals, t) := by
  cases tk <;> simp only [shows, reduceCtorEq] at hs <;>
    (simp only [variableOf, Option.some.injEq] at hx; subst hx; simp only [Var.fetch, fetchRequestUri, headerGet_first])
  case responseContentLength =>
    simp only [Tx.facts] at hs
    split at hs
    · rename_i e; cases hs; rw [e]; rfl
    · rename_i e; cases hs
      cases hf : firstValue t.respHeader b!"Content-Length" with
      | none => rfl
      | some v =>
        cases v with
        | nil => rfl
        | cons c l => exact absurd hf (e c l)
  case responseContentType =>
    simp only [Tx.facts] at hs
    split at hs
    · rename_i e; cases hs; rw [e]; rfl
    · rename_i e; cases hs
      cases hf : firstValue t.respHeader b!"Content-Type" with
      | none => rfl
      | some v =>
        cases v with
        | nil => rfl
        | cons c l => exact absurd hf (e c l)
  all_goals cases hs
  all_goals first
    | rfl
    | (simp only [Tx.facts]; cases t.url <;> rfl)

/-- C68 together: whatever the history of a transaction, a rule evaluated by the
next call finds in each single-valued variable what the host said last, the call
itself included. -/
theorem C68_seen {env : Env} {rs : RuleSet} (hrs : rs.KeepsFacts) {l : Limits} {n : Nat} {ops : List Op} {op : Op} {t t' : Tx}
    {os : List Out} {tr0 tr : Trace} {o : Out}
    (h0 : (newTransaction l).steps env rs n ops = .ok (t, os, tr0)) (h : t.step env rs n op = .ok (t', o, tr)) :
    ∃ (p : Int) (es : List Ev), tr = evTrace p es ∧ ∀ e ∈ es, (rs.phases p)[e.pos]? = some e.rule ∧
      (∃ n, e.rule.run env rs n e.before = .ok e.after) ∧
      ∀ f tk x vals, variableOf f tk = some x → shows env.lib ((ops ++ [op]).foldl told {}) tk = some vals →
        x.fetch env e.before = .ok (vals, e.before) := by
  obtain ⟨_, p, es, h1, h2⟩ := C68_call hrs h
  refine ⟨p, es, h1, fun e he => ?_⟩
  obtain ⟨g1, g2, _, g3⟩ := h2 e he
  refine ⟨g1, g3, fun f tk x vals hx hs => C68_variable hx ?_⟩
  rw [g2, C68_history hrs h0, C68_new]
  simpa using hs

/-- A rule on `RESPONSE_STATUS` evaluated at the response headers sees the status
given in that call, not the one of an earlier attempt. -/
example (env : Env) (x : Var) (hx : variableOf {} .responseStatus = some x) (t : Tx)
    (ht : t.facts = [Op.processConnection b!"1.2.3.4" b!"80" [] [], .processRequestHeader none, .processResponseHeaders 500 [] none,
      .processResponseHeaders 404 b!"HTTP/1.1" none].foldl told {}) : x.fetch env t = .ok ([itoa 404], t) :=
  C68_variable hx (by rw [ht]; rfl)

/-- The sample rule sets meet the condition. -/
example : RuleSet.KeepsFacts { phases := fun p => if p = 2 then [{ id := 1, vars := [.requestMethod], op := some (.custom fun _ s => s == b!"POST"), actions := [.deny, .log, .skip] }] else [] } := by
  refine ⟨?_, by simp⟩
  intro p r hr a ha
  simp only at hr
  split at hr
  · rw [List.mem_singleton] at hr
    subst hr
    simp only [Rule.allActions, List.flatMap_nil, List.append_nil, List.mem_cons, List.not_mem_nil, or_false] at ha
    rcases ha with rfl | rfl | rfl <;> trivial
  · cases hr

end Verif
