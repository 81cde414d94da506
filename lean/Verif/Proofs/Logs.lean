import Verif.Proofs.PhaseRun
import Verif.Props.Actions
import Verif.Proofs.Compare
import Verif.Spec.Logs
/-! Which lines are written, and how many. -/
namespace Verif
open Spec

/-- Between two states at most so many lines have been written, all by the library. -/
structure Wrote (k : Nat) (t t' : Tx) : Prop where
  ip : t'.srcIp = t.srcIp
  port : t'.srcPort = t.srcPort
  lines : ∀ l ∈ t'.intervention.log, l ∈ t.intervention.log ∨ LineBy [(t.srcIp, t.srcPort)] [] l
  count : t'.intervention.log.length ≤ t.intervention.log.length + k

theorem Wrote.refl (t : Tx) : Wrote 0 t t := ⟨rfl, rfl, fun _ h => .inl h, by omega⟩

theorem Wrote.trans {j k : Nat} {a b c : Tx} (h1 : Wrote j a b) (h2 : Wrote k b c) : Wrote (j + k) a c := by
  refine ⟨h2.ip.trans h1.ip, h2.port.trans h1.port, fun l hl => ?_, ?_⟩
  · rcases h2.lines l hl with h | h
    · exact h1.lines l h
    · rw [h1.ip, h1.port] at h; exact .inr h
  · have := h1.count; have := h2.count; omega

theorem Wrote.mono {j k : Nat} {a b : Tx} (h : Wrote j a b) (hk : j ≤ k) : Wrote k a b :=
  ⟨h.ip, h.port, h.lines, by have := h.count; omega⟩

/-- Nothing is written if client and log are the same. -/
theorem Wrote.same {t t' : Tx} (h1 : t'.srcIp = t.srcIp) (h2 : t'.srcPort = t.srcPort) (h3 : t'.intervention.log = t.intervention.log) : Wrote 0 t t' :=
  ⟨h1, h2, fun l hl => .inl (by rw [h3] at hl; exact hl), by rw [h3]; omega⟩

theorem Wrote.line {t t' : Tx} {msg : Bytes} (h1 : t'.srcIp = t.srcIp) (h2 : t'.srcPort = t.srcPort) (h3 : t'.intervention.log = t.intervention.log ++ [t.logLine msg])
    (hm : LibraryMessage msg) : Wrote 1 t t' := by
  refine ⟨h1, h2, fun l hl => ?_, by rw [h3]; simp⟩
  rw [h3] at hl
  rcases List.mem_append.1 hl with h | h
  · exact .inl h
  · rw [List.mem_singleton] at h
    exact .inr ⟨(t.srcIp, t.srcPort), by simp, itoa t.phase, t.phase, msg, itoa_decimal _, .inl hm, h⟩

/-! ### Variables -/

/-- What one fetch writes: a line only if it aborts. -/
structure FetchWrote (k : Nat) (t t' : Tx) : Prop where
  wrote : Wrote k t t'
  calm : t'.abort = false → t.abort = false ∧ t'.intervention.log = t.intervention.log

theorem FetchWrote.refl (t : Tx) : FetchWrote 0 t t := ⟨.refl t, fun h => ⟨h, rfl⟩⟩

theorem FetchWrote.trans {j k : Nat} {a b c : Tx} (h1 : FetchWrote j a b) (h2 : FetchWrote k b c) : FetchWrote (j + k) a c :=
  ⟨h1.wrote.trans h2.wrote, fun h => ⟨(h1.calm (h2.calm h).1).1, (h2.calm h).2.trans (h1.calm (h2.calm h).1).2⟩⟩

theorem FetchWrote.mono {j k : Nat} {a b : Tx} (h : FetchWrote j a b) (hk : j ≤ k) : FetchWrote k a b := ⟨h.wrote.mono hk, h.calm⟩

theorem fetchWrote_same {t t' : Tx} (h1 : t'.srcIp = t.srcIp) (h2 : t'.srcPort = t.srcPort) (h3 : t'.interv = t.interv) (h4 : t'.abort = t.abort) : FetchWrote 0 t t' :=
  ⟨.same h1 h2 (by rw [Tx.intervention, h3]; rfl), fun h => ⟨by rw [← h4]; exact h, by rw [Tx.intervention, h3]; rfl⟩⟩

theorem fetchWrote_abort {t : Tx} {b c : Buf} {code : Int} {e : Err} (he : LibraryMessage (b!"abort process with error " ++ e)) :
    FetchWrote 1 t (({ t with reqBody := b, respBody := c } : Tx).abortWithError code e) :=
  ⟨.line rfl rfl rfl he, fun h => by cases h⟩

theorem parseBody_wrote {env : Env} {tp : BodyType} {bd : Bytes} {t t' : Tx} {r : Parsed} {e : Option Err}
    (h : parseBody env tp bd t = .ok (t', r, e)) : FetchWrote 1 t t' ∧ (e = none → FetchWrote 0 t t') := by
  cases tp with
  | urlencoded =>
    simp only [parseBody] at h
    split at h
    · cases h; exact ⟨fetchWrote_abort (c := t.respBody) .tooLong, by rintro ⟨⟩⟩
    · cases h
      have : FetchWrote 0 t { t with reqBody := t.reqBody.string.1 } := fetchWrote_same rfl rfl rfl rfl
      exact ⟨this.mono (by omega), fun _ => this⟩
  | multipart =>
    simp only [parseBody] at h
    have h0 : FetchWrote 0 t { t with reqBody := t.reqBody.afterForm (env.lib.readForm t.reqBody.content bd env.limits.requestBodyInMem).2 } :=
      fetchWrote_same rfl rfl rfl rfl
    split at h
    · cases h; exact ⟨h0.mono (by omega), fun _ => h0⟩
    · cases h; exact ⟨fetchWrote_abort (c := t.respBody) .tooLarge, by rintro ⟨⟩⟩
    · cases h; exact ⟨h0.mono (by omega), fun _ => h0⟩
    · cases h

theorem requestBodyLoop_wrote {env : Env} {ct bd : Bytes} : ∀ {tps : List BodyType} {t t' : Tx}
    {tp : Option BodyType} {r : Parsed}, requestBodyLoop env ct bd tps t = .ok (t', tp, r) → FetchWrote 1 t t' := by
  intro tps
  induction tps with
  | nil => intro t t' tp r h; simp only [requestBodyLoop] at h; cases h; exact (FetchWrote.refl _).mono (by omega)
  | cons tp tps ih =>
    intro t t' tp' r h
    simp only [requestBodyLoop] at h
    split at h
    · exact ih h
    · split at h
      · split at h
        · exact ih h
        · cases h; exact (FetchWrote.refl _).mono (by omega)
      · obtain ⟨⟨t1, res, err⟩, h1, h2⟩ := Res.bind_eq_ok.1 h
        obtain ⟨w1, w0⟩ := parseBody_wrote h1
        have hc : FetchWrote 0 t1 (t1.setCache tp res) := fetchWrote_same rfl rfl rfl rfl
        simp only at h2
        split at h2
        · cases h2
          exact (w1.trans hc).trans (k := 0) ⟨.same rfl rfl rfl, fun h => ⟨h, rfl⟩⟩
        · split at h2
          · exact ((w0 rfl).trans hc).trans (ih h2)
          · cases h2; exact w1.trans hc

theorem requestBodyParse_wrote {env : Env} {t t' : Tx} {tp : Option BodyType} {r : Parsed}
    (h : requestBodyParse env t = .ok (t', tp, r)) : FetchWrote 1 t t' := by
  simp only [requestBodyParse] at h
  split at h
  · cases h; exact (FetchWrote.refl _).mono (by omega)
  · split at h
    · cases h; exact (FetchWrote.refl _).mono (by omega)
    · exact requestBodyLoop_wrote h

theorem fetchArgsPost_wrote {env : Env} {f : Filter} {t t' : Tx} {vs : List Bytes}
    (h : fetchArgsPost env f t = .ok (vs, t')) : FetchWrote 1 t t' := by
  obtain ⟨⟨t1, tp, r⟩, h1, h2⟩ := Res.bind_eq_ok.1 h
  have hf := requestBodyParse_wrote h1
  simp only at h2
  split at h2
  all_goals first | (simp only [Res.ok.injEq, Prod.mk.injEq] at h2; rw [← h2.2]; exact hf) | cases h2

theorem fetchArgsPostNames_wrote {env : Env} {f : Filter} {t t' : Tx} {vs : List Bytes}
    (h : fetchArgsPostNames env f t = .ok (vs, t')) : FetchWrote 1 t t' := by
  obtain ⟨⟨t1, tp, r⟩, h1, h2⟩ := Res.bind_eq_ok.1 h
  have hf := requestBodyParse_wrote h1
  simp only at h2
  split at h2
  all_goals first | (simp only [Res.ok.injEq, Prod.mk.injEq] at h2; rw [← h2.2]; exact hf) | cases h2

theorem fetchRequestBody_wrote (env : Env) (t : Tx) : FetchWrote 1 t (fetchRequestBody env t).2 := by
  have h0 := (FetchWrote.refl t).mono (k := 1) (by omega)
  simp only [fetchRequestBody]
  split
  · exact h0
  split
  · exact h0
  split
  · exact h0
  split
  · exact h0
  split
  · exact fetchWrote_abort (c := t.respBody) .tooLong
  · exact FetchWrote.mono (j := 0) ⟨.same rfl rfl rfl, fun h => ⟨h, rfl⟩⟩ (by omega)

theorem fetchResponseBody_wrote (env : Env) (t : Tx) : FetchWrote 1 t (fetchResponseBody env t).2 := by
  simp only [fetchResponseBody]
  split
  · exact (FetchWrote.refl t).mono (by omega)
  split
  · exact fetchWrote_abort (b := t.reqBody) .tooLong
  · exact FetchWrote.mono (j := 0) ⟨.same rfl rfl rfl, fun h => ⟨h, rfl⟩⟩ (by omega)

theorem Var.fetch_wrote {env : Env} : ∀ {v : Var} {t t' : Tx} {vs : List Bytes},
    v.fetch env t = .ok (vs, t') → FetchWrote 1 t t' := by
  intro v
  induction v with
  | args g p =>
    intro t t' vs h
    simp only [Var.fetch] at h
    obtain ⟨⟨x, t1⟩, h1, h2⟩ := Res.bind_eq_ok.1 h
    cases h2; exact fetchArgsPost_wrote h1
  | argsNames g p =>
    intro t t' vs h
    simp only [Var.fetch] at h
    obtain ⟨⟨x, t1⟩, h1, h2⟩ := Res.bind_eq_ok.1 h
    cases h2; exact fetchArgsPostNames_wrote h1
  | argsPost f => intro t t' vs h; simp only [Var.fetch] at h; exact fetchArgsPost_wrote h
  | argsPostNames f => intro t t' vs h; simp only [Var.fetch] at h; exact fetchArgsPostNames_wrote h
  | requestBody =>
    intro t t' vs h
    simp only [Var.fetch, Res.ok.injEq] at h
    have := fetchRequestBody_wrote env t
    rw [h] at this; exact this
  | responseBody =>
    intro t t' vs h
    simp only [Var.fetch, Res.ok.injEq] at h
    have := fetchResponseBody_wrote env t
    rw [h] at this; exact this
  | count v ih =>
    intro t t' vs h
    simp only [Var.fetch] at h
    obtain ⟨⟨x, t1⟩, h1, h2⟩ := Res.bind_eq_ok.1 h
    cases h2; exact ih h1
  | _ =>
    intro t t' vs h
    simp only [Var.fetch, Res.ok.injEq, Prod.mk.injEq] at h
    rw [← h.2]; exact (FetchWrote.refl t).mono (by omega)

theorem fetchVars_wrote {env : Env} {r : Rule} : ∀ {vs : List Var} {t t' : Tx} {out : List Bytes},
    fetchVars env r vs t = .ok (out, t') → FetchWrote vs.length t t' := by
  intro vs
  induction vs with
  | nil => intro t t' out h; simp only [fetchVars] at h; cases h; exact .refl _
  | cons v vs ih =>
    intro t t' out h
    simp only [fetchVars, Rule.transformVariable] at h
    obtain ⟨⟨x, t1⟩, h1, h2⟩ := Res.bind_eq_ok.1 h
    obtain ⟨⟨x', t1'⟩, h3, h4⟩ := Res.bind_eq_ok.1 h1
    cases h4
    obtain ⟨⟨y, t2⟩, h5, h6⟩ := Res.bind_eq_ok.1 h2
    cases h6
    exact ((Var.fetch_wrote h3).trans (ih h5)).mono (by simp only [List.length_cons]; omega)

theorem Rule.matches_wrote {env : Env} {r : Rule} {t t' : Tx} {b : Bool} (h : r.matches env t = .ok (b, t')) : FetchWrote r.vars.length t t' := by
  obtain ⟨⟨vals, t1⟩, h1, h2⟩ := Res.bind_eq_ok.1 h
  obtain ⟨b', _, h4⟩ := Res.bind_eq_ok.1 h2
  cases h4
  exact fetchVars_wrote h1

/-- Chains: only the rule that aborts writes. -/
theorem matchSubs_wrote {env : Env} {m : Nat} : ∀ {ss : List Rule} {t t' : Tx} {b : Bool}, (∀ s ∈ ss, s.vars.length ≤ m) →
    matchSubs env ss t = .ok (b, t') → FetchWrote m t t' := by
  intro ss
  induction ss with
  | nil => intro t t' b _ h; simp only [matchSubs] at h; cases h; exact (FetchWrote.refl t).mono (by omega)
  | cons s ss ih =>
    intro t t' b hm h
    simp only [matchSubs] at h
    obtain ⟨⟨x, t1⟩, h1, h2⟩ := Res.bind_eq_ok.1 h
    have w := Rule.matches_wrote h1
    simp only at h2
    split at h2
    · cases h2; exact w.mono (hm s (by simp))
    · next hx =>
      have hx : x = true := by simpa using hx
      subst hx
      have ha := Rule.matches_true_not_abort h1
      have w0 : FetchWrote 0 t t1 := ⟨.same w.wrote.ip w.wrote.port (w.calm ha).2, w.calm⟩
      exact (w0.trans (ih (fun s hs => hm s (by simp [hs])) h2)).mono (by omega)

/-! ### Actions -/

theorem Action.alone_wrote {rs : RuleSet} {n : Nat} {a : Action} (hl : a.Library) (hb : a ≠ .block) {t t' : Tx} (h : Action.run rs n a t = .ok t') :
    Wrote a.linesAlone t t' ∧ t'.abort = t.abort := by
  cases a with
  | block => exact absurd rfl hb
  | custom g f => exact hl.elim
  | pass =>
    simp only [Action.run, Res.ok.injEq] at h; subst h
    exact ⟨⟨rfl, rfl, (fun l hl => absurd hl (by simp [Tx.resetIntervention, Tx.setIntervention, Tx.intervention, Intervention.neutral])), (Nat.zero_le _)⟩, rfl⟩
  | skip =>
    simp only [Action.run, Res.ok.injEq] at h; subst h
    simp only [skipDo, Tx.jumpTo]; split <;> exact ⟨.same rfl rfl rfl, rfl⟩
  | allow arg =>
    simp only [Action.run, Res.ok.injEq] at h; subst h
    simp only [allowDo]
    split
    · exact ⟨.same rfl rfl rfl, rfl⟩
    split
    · exact ⟨.same rfl rfl rfl, rfl⟩
    split
    · exact ⟨.same rfl rfl rfl, rfl⟩
    · exact ⟨.refl t, rfl⟩
  | status m => simp only [Action.run, Res.ok.injEq] at h; subst h; exact ⟨.same rfl rfl rfl, rfl⟩
  | log =>
    simp only [Action.run, Res.ok.injEq] at h; subst h
    exact ⟨.line rfl rfl rfl (.ran (itoa_decimal _) (itoa_decimal _)), rfl⟩
  | deny =>
    simp only [Action.run, Res.ok.injEq] at h; subst h
    rw [denyDo_eq]
    exact ⟨.line rfl rfl rfl .denied, rfl⟩

theorem doAll_wrote {d : Action → Tx → Res Tx} {w : Action → Nat} : ∀ {as : List Action}, (∀ a ∈ as, ∀ t t', d a t = .ok t' → Wrote (w a) t t' ∧ t'.abort = t.abort) →
    ∀ {t t' : Tx}, doAll d as t = .ok t' → Wrote (as.map w).sum t t' ∧ t'.abort = t.abort
  | [], _, t, t', h => by cases h; exact ⟨.refl t, rfl⟩
  | a :: as, hd, t, t', h => by
    simp only [doAll] at h
    obtain ⟨t1, h1, h2⟩ := Res.bind_eq_ok.1 h
    obtain ⟨w1, e1⟩ := hd a (by simp) t t1 h1
    obtain ⟨w2, e2⟩ := doAll_wrote (fun b hb => hd b (by simp [hb])) h2
    exact ⟨by rw [List.map_cons, List.sum_cons]; exact w1.trans w2, e2.trans e1⟩

theorem sum_inGroup (w : Action → Nat) (g : Int) (a : Action) (as : List Action) :
    ((inGroup g (a :: as)).map w).sum = (if a.group = g then w a else 0) + ((inGroup g as).map w).sum := by
  simp only [inGroup, List.filter_cons]
  by_cases h : a.group = g <;> simp [h]

theorem sum_grouped (w : Action → Nat) : ∀ as : List Action, ((grouped as).map w).sum ≤ (as.map w).sum
  | [] => by simp [grouped, inGroup]
  | a :: as => by
    have ih := sum_grouped w as
    simp only [grouped, List.map_append, List.sum_append_nat, sum_inGroup, List.map_cons, List.sum_cons] at ih ⊢
    grind

theorem actionsExecute_wrote {d : Action → Tx → Res Tx} {w : Action → Nat} {as : List Action}
    (hd : ∀ a ∈ as, ∀ t t', d a t = .ok t' → Wrote (w a) t t' ∧ t'.abort = t.abort) {t t' : Tx} (h : actionsExecute d as t = .ok t') :
    Wrote (as.map w).sum t t' ∧ t'.abort = t.abort := by
  obtain ⟨h1, h2⟩ := doAll_wrote (fun a ha => hd a (mem_grouped ha)) (actionsExecute_ok h)
  exact ⟨h1.mono (sum_grouped w as), h2⟩

theorem Action.run_wrote {rs : RuleSet} (hrs : ∀ a ∈ rs.defaultActions, a.Library ∧ a ≠ .block) {n : Nat} {a : Action} (hl : a.Library) {t t' : Tx}
    (h : Action.run rs n a t = .ok t') : Wrote (rs.linesOf a) t t' ∧ t'.abort = t.abort := by
  by_cases hb : a = .block
  · subst hb
    cases n with
    | zero => simp only [Action.run] at h; cases h
    | succ n =>
      simp only [Action.run] at h
      exact actionsExecute_wrote (fun a ha t t' h => Action.alone_wrote (hrs a ha).1 (hrs a ha).2 h) h
  · have : rs.linesOf a = a.linesAlone := by cases a <;> first | rfl | exact absurd rfl hb
    rw [this]
    exact Action.alone_wrote hl hb h

theorem subActions_wrote {rs : RuleSet} (hrs : ∀ a ∈ rs.defaultActions, a.Library ∧ a ≠ .block) {n : Nat} : ∀ {ss : List Rule}, (∀ s ∈ ss, ∀ a ∈ s.actions, a.Library) →
    ∀ {t t' : Tx}, subActions rs n ss t = .ok t' → Wrote ((ss.flatMap Rule.actions).map rs.linesOf).sum t t' ∧ t'.abort = t.abort
  | [], _, t, t', h => by simp only [subActions] at h; cases h; exact ⟨.refl t, rfl⟩
  | s :: ss, hs, t, t', h => by
    simp only [subActions] at h
    obtain ⟨t1, h1, h2⟩ := Res.bind_eq_ok.1 h
    obtain ⟨w1, e1⟩ := actionsExecute_wrote (w := rs.linesOf) (fun a ha t t' h => Action.run_wrote hrs (hs s (by simp) a ha) h) h1
    obtain ⟨w2, e2⟩ := subActions_wrote hrs (fun s' hs' => hs s' (by simp [hs'])) h2
    refine ⟨?_, e2.trans e1⟩
    rw [List.flatMap_cons, List.map_append, List.sum_append_nat]
    exact w1.trans w2

/-! ### Rules -/

/-- A rule writes its lines, or aborts and writes a line for each variable at most. -/
theorem Rule.run_wrote {env : Env} {rs : RuleSet} (hrs : ∀ a ∈ rs.defaultActions, a.Library ∧ a ≠ .block) {m n : Nat} {r : Rule} (ha : ∀ a ∈ r.allActions, a.Library)
    (hm : r.vars.length ≤ m ∧ ∀ s ∈ r.subRules, s.vars.length ≤ m) {t t' : Tx} (h0 : t.abort = false) (h : r.run env rs n t = .ok t') :
    (t'.abort = false ∧ Wrote (rs.linesOfRule r) t t') ∨ (t'.abort = true ∧ t'.intervention.disruptive = true ∧ Wrote m t t') := by
  simp only [Rule.run] at h
  obtain ⟨⟨b, t1⟩, h1, h2⟩ := Res.bind_eq_ok.1 h
  have w1 := Rule.matches_wrote h1
  have f1 := Rule.matches_fetched h1
  have ends : ∀ {u : Tx}, FetchWrote m t u → Fetched t u →
      (u.abort = false ∧ Wrote (rs.linesOfRule r) t u) ∨ (u.abort = true ∧ u.intervention.disruptive = true ∧ Wrote m t u) := by
    intro u w f
    cases hu : u.abort with
    | true =>
      refine .inr ⟨rfl, ?_, w.wrote⟩
      rcases f.verdict with ⟨e, _⟩ | ⟨_, e, _⟩
      · rw [e, h0] at hu; cases hu
      · exact e
    | false => exact .inl ⟨rfl, (Wrote.same w.wrote.ip w.wrote.port (w.calm hu).2).mono (by omega)⟩
  simp only at h2
  split at h2
  · cases h2; exact ends (w1.mono hm.1) f1
  · next hb =>
    have hb : b = true := by simpa using hb
    subst hb
    have ha1 := Rule.matches_true_not_abort h1
    have w10 : FetchWrote 0 t t1 := ⟨.same w1.wrote.ip w1.wrote.port (w1.calm ha1).2, w1.calm⟩
    obtain ⟨⟨b, t2⟩, h3, h4⟩ := Res.bind_eq_ok.1 h2
    have w2 := (w10.trans (matchSubs_wrote hm.2 h3)).mono (k := m) (by omega)
    simp only at h4
    split at h4
    · cases h4; exact ends w2 (f1.trans (matchSubs_fetched h3))
    · obtain ⟨t3, h5, h6⟩ := Res.bind_eq_ok.1 h4
      obtain ⟨w3, e3⟩ := actionsExecute_wrote (w := rs.linesOf) (fun a h t t' => Action.run_wrote hrs (ha a (by simp [Rule.allActions, h]))) h5
      obtain ⟨w4, e4⟩ := subActions_wrote hrs (fun s hs a h => ha a (by simp only [Rule.allActions, List.mem_append, List.mem_flatMap]; exact .inr ⟨s, hs, h⟩)) h6
      have w34 := w3.trans w4
      rw [← List.sum_append_nat, ← List.map_append] at w34
      next hb2 =>
      have hb2 : b = true := by simpa using hb2
      subst hb2
      have ha2 : t2.abort = false := by
        cases hss : r.subRules with
        | nil => rw [hss] at h3; simp only [matchSubs] at h3; cases h3; exact ha1
        | cons s ss => exact matchSubs_true_not_abort ha1 h3
      refine .inl ⟨by rw [e4, e3]; exact ha2, ?_⟩
      have w20 : Wrote 0 t t2 := .same w2.wrote.ip w2.wrote.port (w2.calm ha2).2
      exact (w20.trans w34).mono (by simp only [RuleSet.linesOfRule, Rule.allActions]; omega)

/-! ### Phases -/

/-- The lines of the rule at a position. -/
def RuleSet.linesAt (rs : RuleSet) (e : Int × Int) : Nat := if e.2 < 0 then 0 else ((rs.phases e.1)[e.2.toNat]?).elim 0 rs.linesOfRule

section
variable {env : Env} {rs : RuleSet} {m : Nat}

theorem process_wrote (hrs : rs.OfLibrary) (hm : rs.ReadsAtMost m) {n : Nat} {p i : Int} {t t' : Tx} (h0 : t.abort = false) (h : rs.process env n t p i = .ok t') :
    (t'.abort = false ∧ Wrote ((if i < (rs.phases p).length then [(p, i)] else []).map rs.linesAt).sum t t') ∨
      (t'.abort = true ∧ t'.intervention.disruptive = true ∧ Wrote m t t') := by
  simp only [RuleSet.process] at h
  split at h
  · next hlt =>
    split at h
    · cases h
    · next hneg =>
      split at h
      · cases h
      · next r hr =>
        have hmem : r ∈ rs.phases p := List.mem_of_getElem? hr
        rcases Rule.run_wrote hrs.defaults (hrs.acts p r hmem) (hm p r hmem) h0 h with h | h
        · refine .inl ⟨h.1, ?_⟩
          rw [if_pos hlt]
          simpa [RuleSet.linesAt, hr, hneg] using h.2
        · exact .inr h
  · cases h; exact .inl ⟨h0, (Wrote.refl t).mono (by omega)⟩

theorem processLoop_wrote (hrs : rs.OfLibrary) (hm : rs.ReadsAtMost m) {p : Int} : ∀ {n : Nat} {next : Int} {t t' : Tx} {tr : Trace}, t.abort = false →
    processLoop env rs p n next t = .ok (t', tr) → Wrote ((tr.map rs.linesAt).sum + if t'.abort then m else 0) t t'
  | 0, next, t, t', tr, _, h => by simp only [processLoop] at h; cases h
  | n + 1, next, t, t', tr, h0, h => by
    simp only [processLoop] at h
    split at h
    · obtain ⟨t1, h1, h2⟩ := Res.bind_eq_ok.1 h
      have ht : ∀ u : Tx, Wrote 0 u u.touch := fun u => .same rfl rfl rfl
      rcases process_wrote hrs hm h0 h1 with ⟨a1, w1⟩ | ⟨a1, d1, w1⟩
      · split at h2
        · cases h2
          exact (w1.trans (ht t1)).mono (by omega)
        · obtain ⟨⟨t2, tr2⟩, h3, h4⟩ := Res.bind_eq_ok.1 h2
          cases h4
          have hn : Wrote 0 t1.touch (t1.touch.next (rs.phases t1.touch.phase).length).1 ∧ (t1.touch.next (rs.phases t1.touch.phase).length).1.abort = t1.abort := by
            simp only [Tx.next]
            split
            · exact ⟨.same rfl rfl rfl, rfl⟩
            · split <;> exact ⟨.same rfl rfl rfl, rfl⟩
          have w2 := processLoop_wrote hrs hm (by rw [hn.2]; exact a1) h3
          refine (((w1.trans (ht t1)).trans hn.1).trans w2).mono ?_
          rw [List.map_append, List.sum_append_nat]
          dsimp only
          omega
      · rw [if_pos (show t1.touch.intervention.disruptive = true from d1)] at h2
        cases h2
        refine (w1.trans (ht t1)).mono ?_
        rw [show t1.touch.abort = t1.abort from rfl, a1]
        simp only [if_true]
        omega
    · cases h; exact (Wrote.refl t).mono (by omega)

theorem processPhase_wrote (hrs : rs.OfLibrary) (hm : rs.ReadsAtMost m) {p : Int} {n : Nat} {t t' : Tx} {tr : Trace} (h : processPhase env rs n p t = .ok (t', tr)) :
    Wrote ((tr.map rs.linesAt).sum + if t'.abort = true ∧ t.abort = false then m else 0) t t' ∧ (t.abort = true → t'.abort = true) := by
  simp only [processPhase] at h
  split at h
  · cases h; exact ⟨(Wrote.refl t).mono (by omega), id⟩
  · simp only [processPhase'] at h
    split at h
    · cases h; exact ⟨Wrote.mono (j := 0) ⟨rfl, rfl, fun _ h => .inl h, Nat.le_refl _⟩ (by omega), id⟩
    · next ha =>
      have ha' : t.abort = false := by simpa [Tx.jumpToPhase] using ha
      have hn : Wrote 0 t ((t.jumpToPhase p).next (rs.phases (t.jumpToPhase p).phase).length).1 ∧
          ((t.jumpToPhase p).next (rs.phases (t.jumpToPhase p).phase).length).1.abort = t.abort := by
        simp only [Tx.next]
        split
        · exact ⟨.same rfl rfl rfl, rfl⟩
        · split <;> exact ⟨.same rfl rfl rfl, rfl⟩
      have w := processLoop_wrote hrs hm (by rw [hn.2]; exact ha') h
      refine ⟨(hn.1.trans w).mono ?_, fun e => by rw [ha'] at e; cases e⟩
      simp only [ha', and_true]
      cases t'.abort <;> simp

/-! ### Calls -/

/-- What a call may write. -/
def StepWrote (rs : RuleSet) (m : Nat) (op : Op) (t t' : Tx) (o : Out) (tr : Trace) : Prop :=
    (t'.srcIp, t'.srcPort) ∈ (t.srcIp, t.srcPort) :: op.client ∧
      (∀ l ∈ t'.intervention.log, l ∈ t.intervention.log ∨ LineBy ((t.srcIp, t.srcPort) :: op.client) op.hostLines l) ∧
      t'.intervention.log.length ≤ t.intervention.log.length + op.hostLines.length + (tr.map rs.linesAt).sum + (if t'.abort = true ∧ t.abort = false then m else 0) ∧
      (t.abort = true → t'.abort = true) ∧ (∀ i, o = .intervention i → i = t.intervention) ∧
      (op = .result → t'.abort = false → t'.intervention.log = [])

/-- What one call writes: its own lines, those of the rules it evaluates, and, if it is the one
that aborts, one for each variable of a rule at most. -/
theorem step_wrote (hrs : rs.OfLibrary) (hm : rs.ReadsAtMost m) {n : Nat} {op : Op} {t t' : Tx} {o : Out} {tr : Trace} (h : t.step env rs n op = .ok (t', o, tr)) :
    StepWrote rs m op t t' o tr := by
  have of : ∀ {u : Tx}, u.intervention = t.intervention → u.abort = t.abort → (u.srcIp, u.srcPort) ∈ (t.srcIp, t.srcPort) :: op.client →
      Wrote ((tr.map rs.linesAt).sum + if t'.abort = true ∧ u.abort = false then m else 0) u t' ∧ (u.abort = true → t'.abort = true) → op.hostLines = [] → o = .unit → op ≠ .result → StepWrote rs m op t t' o tr := by
    intro u e1 e2 e3 ⟨w, k⟩ e4 e5 e6
    unfold StepWrote
    rw [e4]
    refine ⟨(by rw [w.ip, w.port]; exact e3), fun l hl => ?_, ?_, (by rw [← e2]; exact k), (fun i hi => by rw [e5] at hi; cases hi), fun e => absurd e e6⟩
    · rcases w.lines l hl with h | ⟨c, hc, g⟩
      · exact .inl (by rw [← e1]; exact h)
      · rw [List.mem_singleton] at hc
        subst hc
        exact .inr ⟨_, e3, g⟩
    · have := w.count
      rw [e1, e2] at this
      simp only [List.length_nil]
      omega
  have ph : ∀ {u : Tx} {p : Int}, u.intervention = t.intervention → u.abort = t.abort → (u.srcIp, u.srcPort) ∈ (t.srcIp, t.srcPort) :: op.client →
      ((processPhase env rs n p u).bind fun x => .ok (x.1, Out.unit, x.2)) = .ok (t', o, tr) → op.hostLines = [] → op ≠ .result → StepWrote rs m op t t' o tr := by
    intro u p e1 e2 e3 h e4 e6
    obtain ⟨⟨t1, tr1⟩, h1, h2⟩ := Res.bind_eq_ok.1 h
    cases h2
    exact of e1 e2 e3 (processPhase_wrote hrs hm h1) e4 rfl e6
  cases op
  case processConnection a b c d => exact ph (u := { t with srcIp := a, srcPort := b, dstIp := c, dstPort := d }) rfl rfl (by simp [Op.client]) h rfl (by simp)
  case processRequestHeader hd => exact ph (u := { t with reqHeader := orEmpty hd }) rfl rfl (by simp) h rfl (by simp)
  case processResponseHeaders c p hd => exact ph (u := { t with respCode := c, respProto := p, respHeader := orEmpty hd }) rfl rfl (by simp) h rfl (by simp)
  case processRequestBody => exact ph (u := t) rfl rfl (by simp) h rfl (by simp)
  case processResponseBody => exact ph (u := t) rfl rfl (by simp) h rfl (by simp)
  case processLogging => exact ph (u := t) rfl rfl (by simp) h rfl (by simp)
  case processPhase p => exact ph (u := t) rfl rfl (by simp) h rfl (by simp)
  case appendRequestBody p io =>
    obtain ⟨⟨b, k, e⟩, h1, h2⟩ := Res.bind_eq_ok.1 h
    cases h2
    exact ⟨by simp, fun l hl => .inl hl, Nat.le_add_right_of_le (Nat.le_add_right_of_le (Nat.le_add_right _ _)), id, (fun i hi => by cases hi), (fun e => by cases e)⟩
  case appendResponseBody p io =>
    obtain ⟨⟨b, k, e⟩, h1, h2⟩ := Res.bind_eq_ok.1 h
    cases h2
    exact ⟨by simp, fun l hl => .inl hl, Nat.le_add_right_of_le (Nat.le_add_right_of_le (Nat.le_add_right _ _)), id, (fun i hi => by cases hi), (fun e => by cases e)⟩
  all_goals simp only [Tx.step, Res.ok.injEq, Prod.mk.injEq] at h
  all_goals obtain ⟨rfl, rfl, rfl⟩ := h
  case logf msg =>
    refine ⟨List.mem_cons_self, fun l hl => ?_, ?_, id, (fun i hi => by cases hi), (fun e => by cases e)⟩
    · rcases List.mem_append.1 hl with hl | hl
      · exact .inl hl
      · rw [List.mem_singleton] at hl
        exact .inr ⟨_, List.mem_cons_self, _, _, msg, itoa_decimal t.phase, .inr (by simp [Op.hostLines]), hl⟩
    · simp [Tx.log, Tx.setIntervention, Tx.intervention, Op.hostLines]
  case abortWithError code e =>
    refine ⟨List.mem_cons_self, fun l hl => ?_, ?_, fun _ => rfl, (fun i hi => by cases hi), (fun e => by cases e)⟩
    · rcases List.mem_append.1 hl with hl | hl
      · exact .inl hl
      · rw [List.mem_singleton] at hl
        exact .inr ⟨_, List.mem_cons_self, _, _, _, itoa_decimal t.phase, .inr (by simp [Op.hostLines]), hl⟩
    · simp only [Tx.abortWithError, Tx.log, Tx.setIntervention, Tx.intervention, Op.hostLines, Option.getD_some, List.length_append, List.length_cons, List.length_nil]
      omega
  case abortWithStatus code =>
    exact ⟨List.mem_cons_self, fun l hl => .inl hl, Nat.le_add_right_of_le (Nat.le_add_right_of_le (Nat.le_add_right _ _)), fun _ => rfl, (fun i hi => by cases hi), (fun e => by cases e)⟩
  case intervention =>
    exact ⟨List.mem_cons_self, fun l hl => .inl hl, Nat.le_add_right_of_le (Nat.le_add_right_of_le (Nat.le_add_right _ _)), id, (fun i hi => by cases hi; rfl), (fun e => by cases e)⟩
  case resetIntervention =>
    exact ⟨List.mem_cons_self, fun l hl => (by cases hl), Nat.zero_le _, id, (fun i hi => by cases hi), (fun e => by cases e)⟩
  case result =>
    simp only [Tx.result]
    cases ha : t.abort with
    | true =>
      have : t.touch.abort = true := ha
      simp only [this, Bool.not_true, Bool.false_eq_true, if_false]
      exact ⟨List.mem_cons_self, fun l hl => .inl hl, Nat.le_add_right_of_le (Nat.le_add_right_of_le (Nat.le_add_right _ _)), fun _ => ha, (fun i hi => by cases hi; rfl), (fun _ e => by rw [this] at e; cases e)⟩
    | false =>
      have : t.touch.abort = false := ha
      simp only [this, Bool.not_false, if_true]
      exact ⟨List.mem_cons_self, fun l hl => (by cases hl), Nat.zero_le _, (fun e => by rw [ha] at e; cases e), (fun i hi => by cases hi; rfl), fun _ _ => rfl⟩
  case processRequestURL u me p =>
    exact ⟨List.mem_cons_self, fun l hl => .inl hl, Nat.le_add_right_of_le (Nat.le_add_right_of_le (Nat.le_add_right _ _)), id, (fun i hi => by cases hi), (fun e => by cases e)⟩
  case jumpToPhase i =>
    exact ⟨List.mem_cons_self, fun l hl => .inl hl, Nat.le_add_right_of_le (Nat.le_add_right_of_le (Nat.le_add_right _ _)), id, (fun i hi => by cases hi), (fun e => by cases e)⟩
  case nextPhase =>
    exact ⟨List.mem_cons_self, fun l hl => .inl hl, Nat.le_add_right_of_le (Nat.le_add_right_of_le (Nat.le_add_right _ _)), id, (fun i hi => by cases hi), (fun e => by cases e)⟩
  case jumpTo i =>
    simp only [Tx.jumpTo]
    split <;> exact ⟨List.mem_cons_self, fun l hl => .inl hl, Nat.le_add_right_of_le (Nat.le_add_right_of_le (Nat.le_add_right _ _)), id, (fun i hi => by cases hi), (fun e => by cases e)⟩
  case next =>
    simp only [Tx.next]
    split
    · exact ⟨List.mem_cons_self, fun l hl => .inl hl, Nat.le_add_right_of_le (Nat.le_add_right_of_le (Nat.le_add_right _ _)), id, (fun i hi => by cases hi), (fun e => by cases e)⟩
    · split <;> exact ⟨List.mem_cons_self, fun l hl => .inl hl, Nat.le_add_right_of_le (Nat.le_add_right_of_le (Nat.le_add_right _ _)), id, (fun i hi => by cases hi), (fun e => by cases e)⟩

theorem Spec.LineBy.mono {cs cs' : List (Bytes × Bytes)} {ms ms' : List Bytes} {l : Bytes} (h : LineBy cs ms l) (h1 : ∀ c ∈ cs, c ∈ cs') (h2 : ∀ m ∈ ms, m ∈ ms') : LineBy cs' ms' l := by
  obtain ⟨c, hc, d, p, msg, g1, g2, g3⟩ := h
  exact ⟨c, h1 c hc, d, p, msg, g1, g2.imp id (h2 msg), g3⟩

theorem verdicts_cons (o : Out) (os : List Out) : verdicts (o :: os) = verdicts [o] ++ verdicts os := by
  cases o <;> rfl

theorem handedOut_cons {op : Op} {o : Out} {ops : List Op} {os : List Out} : handedOut (op :: ops) (o :: os) = handedOut [op] [o] + handedOut ops os := by
  cases op <;> cases o <;> simp [handedOut]

/-- What a history of calls writes. -/
theorem steps_wrote (hrs : rs.OfLibrary) (hm : rs.ReadsAtMost m) {n : Nat} : ∀ {ops : List Op} {t t' : Tx} {os : List Out} {tr : Trace}, t.steps env rs n ops = .ok (t', os, tr) →
    (∀ i ∈ t'.intervention :: verdicts os, ∀ l ∈ i.log, l ∈ t.intervention.log ∨ LineBy ((t.srcIp, t.srcPort) :: ops.flatMap Op.client) (ops.flatMap Op.hostLines) l) ∧
      (∀ i ∈ t'.intervention :: verdicts os,
        i.log.length ≤ t.intervention.log.length + (ops.flatMap Op.hostLines).length + (tr.map rs.linesAt).sum + (if t.abort = true then 0 else m)) ∧
      (t'.abort = false → t.abort = false ∧
        t'.intervention.log.length + handedOut ops os ≤ t.intervention.log.length + (ops.flatMap Op.hostLines).length + (tr.map rs.linesAt).sum) := by
  intro ops
  induction ops with
  | nil =>
    intro t t' os tr h
    simp only [Tx.steps] at h
    cases h
    refine ⟨?_, ?_, ?_⟩
    · intro i hi l hl
      simp only [verdicts, List.filterMap_nil, List.mem_singleton] at hi
      subst hi; exact .inl hl
    · intro i hi
      simp only [verdicts, List.filterMap_nil, List.mem_singleton] at hi
      subst hi; omega
    · intro ha
      exact ⟨ha, by simp [handedOut]⟩
  | cons op ops ih =>
    intro t t' os tr h
    obtain ⟨t1, o, tr1, os2, tr2, h1, h2, rfl, rfl⟩ := steps_cons h
    obtain ⟨a1, a2, a3, a4, a5, a6⟩ := step_wrote hrs hm h1
    obtain ⟨b1, b2, b3⟩ := ih h2
    have hv : ∀ i ∈ verdicts [o], i = t.intervention := by
      intro i hi
      cases o with
      | intervention j =>
        simp only [verdicts, List.filterMap_cons, List.filterMap_nil, List.mem_singleton] at hi
        subst hi; exact a5 i rfl
      | _ => simp [verdicts] at hi
    have hcl : ∀ c ∈ (t1.srcIp, t1.srcPort) :: ops.flatMap Op.client, c ∈ (t.srcIp, t.srcPort) :: (op :: ops).flatMap Op.client := by
      intro c hc
      rw [List.flatMap_cons]
      rcases List.mem_cons.1 hc with rfl | hc
      · rcases List.mem_cons.1 a1 with e | e
        · rw [e]; exact List.mem_cons_self
        · exact List.mem_cons_of_mem _ (List.mem_append_left _ e)
      · exact List.mem_cons_of_mem _ (List.mem_append_right _ hc)
    have hcl0 : ∀ c ∈ (t.srcIp, t.srcPort) :: op.client, c ∈ (t.srcIp, t.srcPort) :: (op :: ops).flatMap Op.client := by
      intro c hc
      rw [List.flatMap_cons]
      rcases List.mem_cons.1 hc with rfl | hc
      · exact List.mem_cons_self
      · exact List.mem_cons_of_mem _ (List.mem_append_left _ hc)
    refine ⟨?_, ?_, ?_⟩
    · intro i hi l hl
      rw [verdicts_cons] at hi
      have hi : i ∈ verdicts [o] ∨ i ∈ t'.intervention :: verdicts os2 := by
        simp only [List.mem_cons, List.mem_append] at hi ⊢
        grind
      rcases hi with hi | hi
      · rw [hv i hi] at hl; exact .inl hl
      · rcases b1 i hi l hl with hl | hl
        · rcases a2 l hl with hl | hl
          · exact .inl hl
          · exact .inr (hl.mono hcl0 fun x hx => by rw [List.flatMap_cons]; exact List.mem_append_left _ hx)
        · exact .inr (hl.mono hcl fun x hx => by rw [List.flatMap_cons]; exact List.mem_append_right _ hx)
    · intro i hi
      rw [verdicts_cons] at hi
      have hi : i ∈ verdicts [o] ∨ i ∈ t'.intervention :: verdicts os2 := by
        simp only [List.mem_cons, List.mem_append] at hi ⊢
        grind
      rw [List.flatMap_cons, List.length_append, List.map_append, List.sum_append_nat]
      rcases hi with hi | hi
      · rw [hv i hi]; omega
      · have := b2 i hi
        cases h0 : t.abort <;> cases h1' : t1.abort <;> simp only [h0, h1', and_self, and_true, and_false, if_true, if_false, Bool.false_eq_true, reduceCtorEq] at a3 this ⊢ <;> first | omega | (have := a4 h0; rw [h1'] at this; cases this)
    · intro ha
      obtain ⟨c1, c2⟩ := b3 ha
      have h0 : t.abort = false := by
        cases h0 : t.abort with
        | false => rfl
        | true => have := a4 h0; rw [c1] at this; cases this
      refine ⟨h0, ?_⟩
      rw [List.flatMap_cons, List.length_append, List.map_append, List.sum_append_nat, handedOut_cons]
      simp only [c1, Bool.false_eq_true, false_and, if_false] at a3
      have hh : t1.intervention.log.length + handedOut [op] [o] ≤ t.intervention.log.length + op.hostLines.length + (tr1.map rs.linesAt).sum := by
        by_cases hop : op = .result
        · subst hop
          rw [a6 rfl c1]
          cases o with
          | intervention i => rw [a5 i rfl]; simp [handedOut]; omega
          | _ => simp [handedOut]
        · have : handedOut [op] [o] = 0 := by
            cases op <;> cases o <;> first | rfl | exact absurd rfl hop
          omega
      omega

end

/-! ### All rules -/

theorem sum_le_of_nodup {α : Type} [DecidableEq α] (w : α → Nat) : ∀ {l l' : List α}, l.Nodup → (∀ e ∈ l, w e ≠ 0 → e ∈ l') → (l.map w).sum ≤ (l'.map w).sum
  | [], l', _, _ => by simp
  | e :: l, l', hn, hs => by
    rw [List.nodup_cons] at hn
    rw [List.map_cons, List.sum_cons]
    by_cases he : w e = 0
    · have := sum_le_of_nodup w hn.2 fun x hx => hs x (List.mem_cons_of_mem _ hx)
      omega
    · obtain ⟨a, b, rfl⟩ := List.append_of_mem (hs e List.mem_cons_self he)
      have := sum_le_of_nodup w (l' := a ++ b) hn.2 fun x hx hw => by
        have hx' := hs x (List.mem_cons_of_mem _ hx) hw
        have hne : x ≠ e := by rintro rfl; exact hn.1 hx
        simp only [List.mem_append, List.mem_cons] at hx' ⊢
        grind
      simp only [List.map_append, List.sum_append_nat, List.map_cons, List.sum_cons] at this ⊢
      omega

/-- The lines of rules that are evaluated once are among those of all rules. -/
theorem linesAt_sum {rs : RuleSet} (hp : ∀ p, p ≤ 0 ∨ 7 ≤ p → rs.phases p = []) {tr : Trace}
    (h : tr.Pairwise fun a b => a.1 < b.1 ∨ (a.1 = b.1 ∧ a.2 < b.2)) : (tr.map rs.linesAt).sum ≤ rs.allLines := by
  have hn : tr.Nodup := h.imp fun {a b} hab e => by subst e; omega
  refine Nat.le_trans (sum_le_of_nodup rs.linesAt (l' := ([1, 2, 3, 4, 5, 6] : List Int).flatMap fun p => (List.range (rs.phases p).length).map fun j : Nat => (p, (j : Int))) hn ?_) ?_
  · intro e he hw
    have h0 : ¬ e.2 < 0 := fun h => hw (by rw [RuleSet.linesAt, if_pos h])
    have hlt : e.2.toNat < (rs.phases e.1).length := by
      refine Decidable.byContradiction fun hc => hw ?_
      rw [RuleSet.linesAt, if_neg h0, List.getElem?_eq_none (by omega)]
      rfl
    have hne : rs.phases e.1 ≠ [] := by intro e; rw [e] at hlt; simp at hlt
    have hr : 0 < e.1 ∧ e.1 < 7 := by
      refine Decidable.byContradiction fun hc => hne (hp _ ?_)
      omega
    refine List.mem_flatMap.2 ⟨e.1, ?_, List.mem_map.2 ⟨e.2.toNat, List.mem_range.2 hlt, ?_⟩⟩
    · simp only [List.mem_cons, List.not_mem_nil, or_false]; omega
    · rw [Int.toNat_of_nonneg (by omega)]
  · have hone : ∀ p : Int, (((List.range (rs.phases p).length).map fun j : Nat => (p, (j : Int))).map rs.linesAt).sum = ((rs.phases p).map rs.linesOfRule).sum := by
      intro p
      congr 1
      apply List.ext_getElem
      · simp
      · intro i h1 h2
        have : i < (rs.phases p).length := by simpa using h1
        simp [RuleSet.linesAt, this, show ¬ (i : Int) < 0 by omega]
    have : ∀ ps : List Int, ((ps.flatMap fun p => (List.range (rs.phases p).length).map fun j : Nat => (p, (j : Int))).map rs.linesAt).sum =
        (ps.map fun p => ((rs.phases p).map rs.linesOfRule).sum).sum := by
      intro ps
      induction ps with
      | nil => rfl
      | cons p ps ih => rw [List.flatMap_cons, List.map_append, List.sum_append_nat, hone, ih, List.map_cons, List.sum_cons]
    rw [this]
    exact Nat.le_refl _

end Verif
