import Verif.Proofs.Sized
import Verif.Proofs.PhaseRun
/-! The bounds on what is held, through calls. -/
namespace Verif
open Spec

/-- The same was told. -/
structure SameTold (t u : Tx) : Prop where
  srcIp : u.srcIp = t.srcIp
  url : u.url = t.url
  method : u.method = t.method
  reqProto : u.reqProto = t.reqProto
  reqHeader : u.reqHeader = t.reqHeader
  respCode : u.respCode = t.respCode
  respProto : u.respProto = t.respProto
  respHeader : u.respHeader = t.respHeader

theorem SameTold.refl (t : Tx) : SameTold t t := ⟨rfl, rfl, rfl, rfl, rfl, rfl, rfl, rfl⟩

theorem SameTold.trans {a b c : Tx} (h1 : SameTold a b) (h2 : SameTold b c) : SameTold a c :=
  ⟨h2.1.trans h1.1, h2.2.trans h1.2, h2.3.trans h1.3, h2.4.trans h1.4, h2.5.trans h1.5, h2.6.trans h1.6, h2.7.trans h1.7, h2.8.trans h1.8⟩

theorem Fetched.handed {t t' : Tx} (h : Fetched t t') : SameTold t t' := by
  rw [h.same]; exact ⟨rfl, rfl, rfl, rfl, rfl, rfl, rfl, rfl⟩

theorem SameTold.atMost {t u : Tx} (h : SameTold t u) (req resp form : Nat) : ∀ v, atMost u req resp form v = atMost t req resp form v := by
  intro v
  induction v with
  | count v ih => simp only [Spec.atMost, ih]
  | _ => simp only [Spec.atMost, querySize, h.srcIp, h.url, h.method, h.reqProto, h.reqHeader, h.respCode, h.respProto, h.respHeader]

variable {env : Env} {rs : RuleSet} {req resp form : Nat}

/-- What looking at variables and running actions of the library preserves: the bounds, and what was told. -/
def SizedAs (req resp form : Nat) (t0 u : Tx) : Prop := Sized req resp form u ∧ SameTold t0 u

theorem SizedAs.congr {t0 t u : Tx} (h : SizedAs req resp form t0 t) (h1 : u.cache = t.cache) (h2 : u.reqBody = t.reqBody) (h3 : u.respBody = t.respBody)
    (h4 : SameTold t u) : SizedAs req resp form t0 u := ⟨h.1.congr h1 h2 h3, h.2.trans h4⟩

/-- Looking at any variable of the model leaves the bounds. -/
theorem Sized.fetch_any (hl : env.lib.Frugal form) : ∀ {v : Var} {t : Tx}, Sized req resp form t → ∀ {vs : List Bytes} {t' : Tx},
    v.fetch env t = .ok (vs, t') → Sized req resp form t' := by
  intro v
  induction v with
  | custom f => intro t h vs t' hv; cases hv; exact h
  | count v ih =>
    intro t h vs t' hv
    obtain ⟨⟨x, t1⟩, h1, h2⟩ := Res.bind_eq_ok.1 hv
    cases h2; exact ih h h1
  | _ => intro t h vs t' hv; exact (Sized.fetch hl (by trivial) h hv).2

theorem SizedAs.fetch (hl : env.lib.Frugal form) {t0 t : Tx} (h : SizedAs req resp form t0 t) {v : Var} {vs : List Bytes} {t' : Tx}
    (hv : v.fetch env t = .ok (vs, t')) : SizedAs req resp form t0 t' :=
  ⟨h.1.fetch_any hl hv, h.2.trans (Var.fetch_fetched hv).handed⟩

/-- All values that a rule hands to its operator. -/
theorem SizedAs.fetchVars (hl : env.lib.Frugal form) (r : Rule) {t0 : Tx} : ∀ {vs : List Var} {t : Tx}, SizedAs req resp form t0 t →
    ∀ {out : List Bytes} {t' : Tx}, fetchVars env r vs t = .ok (out, t') → SizedAs req resp form t0 t' := by
  intro vs
  induction vs with
  | nil => intro t h out t' hv; cases hv; exact h
  | cons v vs ih =>
    intro t h out t' hv
    simp only [Verif.fetchVars, Rule.transformVariable] at hv
    obtain ⟨⟨x, t1⟩, h1, h2⟩ := Res.bind_eq_ok.1 hv
    obtain ⟨⟨x', t1'⟩, h3, h4⟩ := Res.bind_eq_ok.1 h1
    cases h4
    obtain ⟨⟨y, t2⟩, h5, h6⟩ := Res.bind_eq_ok.1 h2
    cases h6
    exact ih (h.fetch hl h3) h5

theorem SizedAs.matches (hl : env.lib.Frugal form) {r : Rule} {t0 t t' : Tx} {b : Bool} (h : SizedAs req resp form t0 t)
    (hm : r.matches env t = .ok (b, t')) : SizedAs req resp form t0 t' := by
  obtain ⟨⟨vals, t1⟩, h1, h2⟩ := Res.bind_eq_ok.1 hm
  obtain ⟨b', _, h4⟩ := Res.bind_eq_ok.1 h2
  cases h4
  exact h.fetchVars hl r h1

theorem SizedAs.matchSubs (hl : env.lib.Frugal form) {t0 : Tx} : ∀ {ss : List Rule} {t t' : Tx} {b : Bool}, SizedAs req resp form t0 t →
    matchSubs env ss t = .ok (b, t') → SizedAs req resp form t0 t' := by
  intro ss
  induction ss with
  | nil => intro t t' b h hm; cases hm; exact h
  | cons s ss ih =>
    intro t t' b h hm
    simp only [Verif.matchSubs] at hm
    obtain ⟨⟨b1, t1⟩, h1, h2⟩ := Res.bind_eq_ok.1 hm
    have hf := h.matches hl h1
    cases b1 with
    | false => simp at h2; obtain ⟨_, rfl⟩ := h2; exact hf
    | true => simp at h2; exact ih hf h2

theorem SizedAs.prim {t0 : Tx} (a : Action) (hb : a ≠ .block) (ha : a.Library) (n : Nat) (t t' : Tx) (h : SizedAs req resp form t0 t)
    (hr : Action.run rs n a t = .ok t') : SizedAs req resp form t0 t' := by
  cases a
  case block => exact absurd rfl hb
  case custom g f => exact ha.elim
  case deny => simp only [Action.run] at hr; cases hr; exact h.congr rfl rfl rfl ⟨rfl, rfl, rfl, rfl, rfl, rfl, rfl, rfl⟩
  case log => simp only [Action.run] at hr; cases hr; exact h.congr rfl rfl rfl ⟨rfl, rfl, rfl, rfl, rfl, rfl, rfl, rfl⟩
  case pass => simp only [Action.run] at hr; cases hr; exact h.congr rfl rfl rfl ⟨rfl, rfl, rfl, rfl, rfl, rfl, rfl, rfl⟩
  case status k => simp only [Action.run] at hr; cases hr; exact h.congr rfl rfl rfl ⟨rfl, rfl, rfl, rfl, rfl, rfl, rfl, rfl⟩
  case skip =>
    simp only [Action.run, skipDo, Tx.jumpTo] at hr
    split at hr <;> (cases hr; exact h.congr rfl rfl rfl ⟨rfl, rfl, rfl, rfl, rfl, rfl, rfl, rfl⟩)
  case allow arg =>
    simp only [Action.run, allowDo, Tx.nextPhase] at hr
    repeat' split at hr
    all_goals (cases hr; first | exact h | exact h.congr rfl rfl rfl ⟨rfl, rfl, rfl, rfl, rfl, rfl, rfl, rfl⟩)

theorem SizedAs.rule (hl : env.lib.Frugal form) (hrs : rs.LibraryActions) {n : Nat} {r : Rule} (hr : ∀ a ∈ r.allActions, a.Library) {t0 t t' : Tx}
    (h : SizedAs req resp form t0 t) (hrun : r.run env rs n t = .ok t') : SizedAs req resp form t0 t' := by
  have ha := Action.run_inv (I := SizedAs req resp form t0) (rs := rs) (ok := Action.Library) SizedAs.prim hrs.2 n
  obtain ⟨⟨b, t1⟩, g1, g2⟩ := Res.bind_eq_ok.1 hrun
  have hf := h.matches hl g1
  cases b with
  | false => simp at g2; subst g2; exact hf
  | true =>
    simp at g2
    obtain ⟨⟨b, t2⟩, g3, g4⟩ := Res.bind_eq_ok.1 g2
    have hf2 := hf.matchSubs hl g3
    cases b with
    | false => simp at g4; subst g4; exact hf2
    | true =>
      simp at g4
      obtain ⟨t3, g5, g6⟩ := Res.bind_eq_ok.1 g4
      have hI2 := actionsExecute_inv (I := SizedAs req resp form t0) (fun a hm => ha a (hr a (by simp [Rule.allActions, hm]))) hf2 g5
      refine subActions_inv (I := SizedAs req resp form t0) (fun s hs a hm => ha a (hr a ?_)) hI2 g6
      simp only [Rule.allActions, List.mem_append, List.mem_flatMap]
      exact .inr ⟨s, hs, hm⟩

theorem SizedAs.process (hl : env.lib.Frugal form) (hrs : rs.LibraryActions) {p : Int} {t0 : Tx} :
    ∀ n i t t', SizedAs req resp form t0 t → rs.process env n t p i = .ok t' → SizedAs req resp form t0 t' := by
  intro n i t t' hI h
  refine RuleSet.process_cases h ?_ ?_
  · rintro _ rfl; exact hI
  · intro r k _ _ hr hrun
    exact hI.rule hl hrs (hrs.1 p r hr) hrun

theorem SizedAs.cur {t0 t : Tx} (ph c nx : Int) (h : SizedAs req resp form t0 t) : SizedAs req resp form t0 { t with phase := ph, currentRule := c, nextRule := nx } :=
  h.congr rfl rfl rfl ⟨rfl, rfl, rfl, rfl, rfl, rfl, rfl, rfl⟩

theorem SizedAs.next {t0 : Tx} (t : Tx) (k : Nat) (hI : SizedAs req resp form t0 t) : SizedAs req resp form t0 (t.next k).1 := by
  simp only [Tx.next]
  split
  · exact hI.cur t.phase t.nextRule t.nextRule
  · split
    · exact hI.cur t.phase t.nextRule statusEndOfRules
    · exact hI.cur t.phase t.nextRule (t.nextRule + 1)

theorem SizedAs.phase (hl : env.lib.Frugal form) (hrs : rs.LibraryActions) {p : Int} {n : Nat} {t0 t t' : Tx} {tr : Trace}
    (h : SizedAs req resp form t0 t) (hp : processPhase env rs n p t = .ok (t', tr)) : SizedAs req resp form t0 t' := by
  refine processPhase_cases hp ?_ ?_ ?_
  · rintro _ rfl _; exact h
  · rintro _ _ rfl _; exact h.cur _ _ _
  · intro _ _ he
    exact he.inv (I := SizedAs req resp form t0) (fun t h => h.congr rfl rfl rfl ⟨rfl, rfl, rfl, rfl, rfl, rfl, rfl, rfl⟩) SizedAs.next (SizedAs.process hl hrs) ((h.cur _ _ _).next _ _)

/-- The state in which a rule is evaluated. -/
theorem SizedAs.judged (hl : env.lib.Frugal form) (hrs : rs.LibraryActions) {p i : Int} {t0 t u : Tx} {r : Rule}
    (he : Judged env rs p i t r u) (h : SizedAs req resp form t0 t) : SizedAs req resp form t0 u := by
  induction he with
  | rule => exact h
  | chain _ _ h1 _ h2 => exact (h.matches hl h1).matchSubs hl h2
  | later _ _ h1 _ _ ih =>
    refine ih (SizedAs.next _ _ ?_)
    exact (SizedAs.process hl hrs _ _ _ _ h h1).congr rfl rfl rfl ⟨rfl, rfl, rfl, rfl, rfl, rfl, rfl, rfl⟩

/-- The rule evaluated is one of the rule set, or of a chain in it. -/
theorem Judged.mem {p i : Int} {t u : Tx} {r : Rule} (he : Judged env rs p i t r u) :
    ∃ q ∈ rs.phases p, r = q ∨ r ∈ q.subRules := by
  induction he with
  | rule _ h => exact ⟨_, List.mem_of_getElem? h, .inl rfl⟩
  | chain _ h _ h1 _ => exact ⟨_, List.mem_of_getElem? h, .inr (by rw [h1]; simp)⟩
  | later _ _ _ _ _ ih => exact ih

theorem write_memBuf {b b' : Buf} {p : Bytes} {io : IOFault} {k : Nat} {e : Option BufErr} (h : b.write p io = .ok (b', k, e)) :
    b'.memBuf.length ≤ b.memBuf.length + p.length := by
  simp only [Buf.write] at h
  repeat' split at h
  all_goals first
    | (simp only [Res.ok.injEq, Prod.mk.injEq] at h; obtain ⟨rfl, _⟩ := h; simp [List.length_append, List.length_take]; done)
    | (simp only [Res.ok.injEq, Prod.mk.injEq] at h; obtain ⟨rfl, _⟩ := h; simp only [List.length_append, List.length_take]; omega)
    | cases h

theorem Sized.step (hl : env.lib.Frugal form) (hrs : rs.LibraryActions) {n : Nat} {op : Op} {t t' : Tx} {o : Out} {tr : Trace}
    (h : Sized req resp form t) (hs : t.step env rs n op = .ok (t', o, tr)) :
    Sized (req + sentBytes false [op]) (resp + sentBytes true [op]) form t' := by
  have ph : ∀ (p : Int) (u : Tx), Sized req resp form u → ((processPhase env rs n p u).bind fun (x, y) =>
      (.ok (x, Out.unit, y) : Res (Tx × Out × Trace))) = .ok (t', o, tr) →
      Sized (req + sentBytes false [op]) (resp + sentBytes true [op]) form t' := by
    intro p u hu hp
    obtain ⟨⟨t1, tr1⟩, h1, h2⟩ := Res.bind_eq_ok.1 hp
    cases h2
    exact (SizedAs.phase hl hrs (⟨hu, .refl u⟩ : SizedAs req resp form u u) h1).1.mono (by omega) (by omega)
  have up : ∀ {u : Tx}, Sized req resp form u → Sized (req + sentBytes false [op]) (resp + sentBytes true [op]) form u :=
    fun hu => hu.mono (by omega) (by omega)
  cases op
  case appendRequestBody p io =>
    obtain ⟨⟨b, k, e⟩, g1, g2⟩ := Res.bind_eq_ok.1 hs
    cases g2
    have := write_memBuf g1
    have := up h
    refine ⟨?_, this.respMem, this.values, this.forms⟩
    have := h.reqMem
    simp [sentBytes]; omega
  case appendResponseBody p io =>
    obtain ⟨⟨b, k, e⟩, g1, g2⟩ := Res.bind_eq_ok.1 hs
    cases g2
    have := write_memBuf g1
    have := up h
    refine ⟨this.reqMem, ?_, this.values, this.forms⟩
    have := h.respMem
    simp [sentBytes]; omega
  case result =>
    simp only [Tx.step, Tx.result] at hs
    split at hs <;> (cases hs; exact up (h.congr rfl rfl rfl))
  case jumpTo i =>
    simp only [Tx.step, Tx.jumpTo] at hs
    split at hs <;> (cases hs; exact up (h.congr rfl rfl rfl))
  case next =>
    simp only [Tx.step, Tx.next] at hs
    repeat' split at hs
    all_goals (cases hs; exact up (h.congr rfl rfl rfl))
  all_goals first
    | (refine ph _ _ ?_ hs; exact h.congr rfl rfl rfl)
    | (cases hs; exact up (h.congr rfl rfl rfl))

theorem Sized.steps (hl : env.lib.Frugal form) (hrs : rs.LibraryActions) {n : Nat} : ∀ {ops : List Op} {req resp : Nat} {t t' : Tx} {os : List Out} {tr : Trace},
    Sized req resp form t → t.steps env rs n ops = .ok (t', os, tr) →
    Sized (req + sentBytes false ops) (resp + sentBytes true ops) form t' := by
  intro ops
  induction ops with
  | nil => intro req resp t t' os tr h hs; cases hs; exact h
  | cons op ops ih =>
    intro req resp t t' os tr h hs
    obtain ⟨t1, o, tr1, os2, tr2, h1, h2, rfl, rfl⟩ := steps_cons hs
    have := ih (h.step hl hrs h1) h2
    have e : ∀ b, sentBytes b (op :: ops) = sentBytes b [op] + sentBytes b ops := by intro b; simp [sentBytes]
    rw [e, e, ← Nat.add_assoc, ← Nat.add_assoc]; exact this

end Verif
