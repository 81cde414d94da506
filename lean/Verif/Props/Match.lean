import Verif.Props.Compare
import Verif.Props.Phase
/-!
Properties C09, C12, C13: what a rule's operator is applied to.
-/
namespace Verif
open Sample Spec

/-! ### C09: transformations -/

/-- The value passed through the transformations, first to last. -/
def Spec.pipe (lib : Lib) (t : Tx) : List Trans → Bytes → Bytes
  | [], s => s
  | tr :: rest, s => Spec.pipe lib t rest (tr.run lib t s)

/-- The values of the variables in order, each with the transaction as it is
after the fetch it comes from. -/
inductive FetchedValues (env : Env) : List Var → Tx → List (Tx × Bytes) → Tx → Prop where
  | nil {t} : FetchedValues env [] t [] t
  | cons {v vs t xs t1 ys t2} : v.fetch env t = .ok (xs, t1) → FetchedValues env vs t1 ys t2 →
      FetchedValues env (v :: vs) t (xs.map (fun x => (t1, x)) ++ ys) t2

theorem transformString_eq (env : Env) (r : Rule) (t : Tx) (s : Bytes) :
    r.transformString env t s = Spec.pipe env.lib t r.trans s := by
  simp only [Rule.transformString]
  induction r.trans generalizing s with
  | nil => rfl
  | cons tr rest ih => simp only [List.foldl_cons, Spec.pipe, ih]

theorem fetchVars_values {env : Env} {r : Rule} : ∀ {vs : List Var} {t t' : Tx} {out : List Bytes},
    fetchVars env r vs t = .ok (out, t') →
    ∃ ys, FetchedValues env vs t ys t' ∧ out = ys.map fun y => Spec.pipe env.lib y.1 r.trans y.2 := by
  intro vs
  induction vs with
  | nil => intro t t' out h; simp only [fetchVars] at h; cases h; exact ⟨[], .nil, rfl⟩
  | cons v vs ih =>
    intro t t' out h
    simp only [fetchVars, Rule.transformVariable] at h
    obtain ⟨⟨x, t1⟩, h1, h2⟩ := Res.bind_eq_ok.1 h
    obtain ⟨⟨xs, t1'⟩, h3, h4⟩ := Res.bind_eq_ok.1 h1
    simp only [Res.ok.injEq, Prod.mk.injEq] at h4
    obtain ⟨rfl, rfl⟩ := h4
    obtain ⟨⟨y, t2⟩, h5, h6⟩ := Res.bind_eq_ok.1 h2
    simp only [Res.ok.injEq, Prod.mk.injEq] at h6
    obtain ⟨rfl, rfl⟩ := h6
    obtain ⟨ys, k1, k2⟩ := ih h5
    refine ⟨_, .cons h3 k1, ?_⟩
    rw [k2, List.map_append, List.map_map]
    congr 1
    refine List.map_congr_left fun x _ => ?_
    exact transformString_eq env r t1' x

/-- C09.  A rule's condition holds iff the transaction is not aborted and the
operator accepts (with `!`: refuses) some fetched value passed through the
transformations first to last. -/
theorem C09_condition {env : Env} {r : Rule} {op : Operator} (hop : r.op = some op) {t t' : Tx} {b : Bool}
    (h : r.matches env t = .ok (b, t')) :
    ∃ ys, FetchedValues env r.vars t ys t' ∧
      (b = true ↔ t'.abort = false ∧ ∃ y ∈ ys, op.run t' (Spec.pipe env.lib y.1 r.trans y.2) ≠ r.not) := by
  obtain ⟨⟨vals, t1⟩, h1, h2⟩ := Res.bind_eq_ok.1 h
  obtain ⟨b', h3, h4⟩ := Res.bind_eq_ok.1 h2
  simp only [Res.ok.injEq, Prod.mk.injEq] at h4
  obtain ⟨rfl, rfl⟩ := h4
  obtain ⟨ys, k1, rfl⟩ := fetchVars_values h1
  refine ⟨ys, k1, ?_⟩
  rw [matchLoop_iff hop] at h3
  simp only [Res.ok.injEq] at h3
  rw [← h3, decide_eq_true_eq]
  constructor
  · rintro ⟨ha, v, hv, hne⟩
    obtain ⟨y, hy, rfl⟩ := List.mem_map.1 hv
    exact ⟨ha, y, hy, fun e => hne e.symm⟩
  · rintro ⟨ha, y, hy, hne⟩
    exact ⟨ha, _, List.mem_map.2 ⟨y, hy, rfl⟩, fun e => hne e.symm⟩

theorem pipe_append (lib : Lib) (t : Tx) (as bs : List Trans) (s : Bytes) :
    Spec.pipe lib t (as ++ bs) s = Spec.pipe lib t bs (Spec.pipe lib t as s) := by
  induction as generalizing s with
  | nil => rfl
  | cons a as ih => simp only [List.cons_append, Spec.pipe, ih]

/-- C09.  `t:none` anywhere in the list has no effect on the rule. -/
theorem C09_none_is_neutral (env : Env) (rs : RuleSet) (n : Nat) (r : Rule) (pre post : List Trans) (t : Tx) :
    Rule.run env rs n { r with trans := pre ++ .none :: post } t = Rule.run env rs n { r with trans := pre ++ post } t := by
  have hs : ∀ t s, Rule.transformString env { r with trans := pre ++ .none :: post } t s =
      Rule.transformString env { r with trans := pre ++ post } t s := by
    intro t s
    rw [transformString_eq, transformString_eq]
    simp only [pipe_append, Spec.pipe, Trans.run, transNone]
  have hf : ∀ vs t, fetchVars env { r with trans := pre ++ .none :: post } vs t = fetchVars env { r with trans := pre ++ post } vs t := by
    intro vs
    induction vs with
    | nil => intro t; rfl
    | cons v vs ih =>
      intro t
      simp only [fetchVars, Rule.transformVariable, ih, funext (hs _)]
  have hl : ∀ t vs, matchLoop { r with trans := pre ++ .none :: post } t vs = matchLoop { r with trans := pre ++ post } t vs := by
    intro t vs
    induction vs with
    | nil => rfl
    | cons v vs ih => simp only [matchLoop, ih]
  simp only [Rule.run, Rule.matches, hf, hl]

/-- Order matters: `%41` is `a` after urlDecode and lowercase, but `A` the other way round. -/
example :
    let r (ts : List Trans) : Rule := { vars := [.requestMethod], trans := ts, op := newOperatorRx lib b!"a", actions := [.deny] }
    let go (ts : List Trans) := (txOf (run (rules [(2, r ts)]) [.processRequestURL none b!"%41" [], .processRequestHeader none])).map
      (·.intervention.disruptive)
    go [.urlDecode, .lowercase] = some true ∧ go [.lowercase, .urlDecode] = some false := by
  decide +kernel

/-! ### C12: counting -/

/-- C12.  A rule on `&V` with a numeric operator of argument `n` compares the
number of values of `V` with `n`. -/
theorem C12_count {env : Env} {r : Rule} {v : Var} (hv : r.vars = [.count v]) (htr : r.trans = []) {k : CmpKind} {arg : Bytes}
    {n : Int} (ha : Numeral arg n) {o : OperatorCompare} (ho : newOperatorCompare k arg = some o) (hop : r.op = some (.cmp o))
    {t t' : Tx} {vals : List Bytes} (hf : v.fetch env t = .ok (vals, t')) (hab : t'.abort = false) (hlen : vals.length < 2 ^ 63) :
    ∃ b, r.matches env t = .ok (b, t') ∧ (b = true ↔ (Cmp k vals.length n ↔ r.not = false)) := by
  have hfv : fetchVars env r r.vars t = .ok ([itoa vals.length], t') := by
    rw [hv]
    simp [fetchVars, Rule.transformVariable, Var.fetch, hf, Rule.transformString, htr]
  refine ⟨_, by simp only [Rule.matches, hfv, Res.bind_ok', matchLoop_iff hop]; rfl, ?_⟩
  have hnum : Numeral (itoa vals.length) vals.length := itoa_numeral (by unfold InInt64; omega)
  obtain ⟨o', h1, h2⟩ := C10_compare k arg _ n _ ha hnum
  rw [ho] at h1; cases h1
  rw [decide_eq_true_eq]
  simp only [hab, List.mem_singleton, exists_eq_left, Operator.run, true_and]
  rw [← h2]
  cases r.not <;> cases o.run (itoa vals.length) <;> simp

/-- `&ARGS_GET "@eq 1"` in the sample environment, where a query has one argument. -/
example :
    let r : Rule := { vars := [.count (.argsGet {})], op := (newOperatorCompare .eq b!"1").map .cmp, actions := [.deny] }
    (txOf (run (rules [(2, r)]) [.processRequestURL (some { rawQuery := b!"x" }) [] [], .processRequestHeader none])).map
      (·.intervention.disruptive) = some true := by
  decide +kernel

/-! ### C13: RESPONSE_STATUS -/

/-- C13.  RESPONSE_STATUS with a numeric operator of argument `n` compares the
transaction's status code with `n`, for every 64-bit code. -/
theorem C13_status {env : Env} {r : Rule} (hv : r.vars = [.responseStatus]) (htr : r.trans = []) {k : CmpKind} {arg : Bytes}
    {n : Int} (ha : Numeral arg n) {o : OperatorCompare} (ho : newOperatorCompare k arg = some o) (hop : r.op = some (.cmp o))
    {t : Tx} (hab : t.abort = false) (hcode : InInt64 t.respCode) :
    ∃ b, r.matches env t = .ok (b, t) ∧ (b = true ↔ (Cmp k t.respCode n ↔ r.not = false)) := by
  have hfv : fetchVars env r r.vars t = .ok ([itoa t.respCode], t) := by
    rw [hv]
    simp [fetchVars, Rule.transformVariable, Var.fetch, Rule.transformString, htr]
  refine ⟨_, by simp only [Rule.matches, hfv, Res.bind_ok', matchLoop_iff hop]; rfl, ?_⟩
  obtain ⟨o', h1, h2⟩ := C10_compare k arg _ n _ ha (itoa_numeral hcode)
  rw [ho] at h1; cases h1
  rw [decide_eq_true_eq]
  simp only [hab, List.mem_singleton, exists_eq_left, Operator.run, true_and]
  rw [← h2]
  cases r.not <;> cases o.run (itoa t.respCode) <;> simp

/-- Actions that do not change the response status code. -/
def Action.keepsCode : Action → Prop
  | .custom _ f => ∀ t, (f t).respCode = t.respCode
  | _ => True

/-- C13.  The code a rule sees is the one given to `ProcessResponseHeaders`: in
that call every rule is evaluated on a transaction with this code, which is also
the code at the end. -/
theorem C13_code_from_call {env : Env} {rs : RuleSet} (hrs : rs.Forward) (hdef : ∀ a ∈ rs.defaultActions, a.keepsCode)
    (hact : ∀ p, ∀ r ∈ rs.phases p, ∀ a ∈ r.allActions, a.keepsCode) {n : Nat} {t t' : Tx} {code : Int} {proto : Bytes}
    {h : Option GoMap} {o : Out} {tr : Trace} (ha : t.abort = false) (hp : t.phase < phaseResponseHeaders)
    (hs : t.step env rs n (.processResponseHeaders code proto h) = .ok (t', o, tr)) :
    ∃ (es : List Ev) (t0 s : Tx), tr = evTrace phaseResponseHeaders es ∧ Evaluated env rs phaseResponseHeaders t0 es s ∧
      t0.respCode = code ∧ (∀ e ∈ es, e.before.respCode = code) ∧ t'.respCode = code := by
  simp only [Tx.step] at hs
  obtain ⟨⟨t1, tr1⟩, g1, g2⟩ := Res.bind_eq_ok.1 hs
  simp only [Res.ok.injEq, Prod.mk.injEq] at g2
  obtain ⟨rfl, rfl, rfl⟩ := g2
  have hr := fun h7 ha hp => phase_refines (p := phaseResponseHeaders) hrs (by decide) h7 ha hp g1
  obtain ⟨es, s, h1, h2, h3, _⟩ := hr (by decide) hp ha
  have hprim : ∀ a, a ≠ .block → Action.keepsCode a → ∀ n (u u' : Tx), u.respCode = code → Action.run rs n a u = .ok u' → u'.respCode = code := by
    intro a hb hk n u u' hu hr
    cases a with
    | block => exact absurd rfl hb
    | skip => simp only [Action.run, Res.ok.injEq] at hr; subst hr; simp only [skipDo, Tx.jumpTo]; split <;> exact hu
    | allow arg =>
      simp only [Action.run, Res.ok.injEq] at hr; subst hr
      simp only [allowDo]; split
      · exact hu
      · split
        · exact hu
        · split <;> exact hu
    | custom g f => simp only [Action.run, Res.ok.injEq] at hr; subst hr; exact (hk u).trans hu
    | _ => simp only [Action.run, Res.ok.injEq] at hr; subst hr; exact hu
  have hsans : ∀ {u v : Tx}, u.sansCursor = v.sansCursor → u.respCode = v.respCode := by
    intro u v h
    have := congrArg (fun x : Tx => x.respCode) h
    exact this
  have key : ∀ {t0 s : Tx} {es : List Ev}, Evaluated env rs phaseResponseHeaders t0 es s → t0.respCode = code →
      (∀ e ∈ es, e.before.respCode = code) ∧ s.respCode = code := by
    intro t0 s es h
    induction h with
    | nil => intro h0; exact ⟨by simp, h0⟩
    | @cons t0 e es s hv _ ih =>
      intro h0
      have hb : e.before.respCode = code := (hsans hv.at_.2.2).trans h0
      obtain ⟨m, hrun⟩ := hv.run
      have hmem : e.rule ∈ rs.phases phaseResponseHeaders := List.mem_of_getElem? hv.rule
      have ha : e.after.respCode = code := Rule.run_inv (I := fun u => u.respCode = code) (ok := Action.keepsCode)
        (fun u u' hu hf => by rw [hf.same]; exact hu) hprim hdef (hact _ _ hmem) hb hrun
      obtain ⟨k1, k2⟩ := ih ha
      refine ⟨?_, k2⟩
      intro e' he'
      rcases List.mem_cons.1 he' with rfl | he'
      · exact hb
      · exact k1 e' he'
  obtain ⟨k1, k2⟩ := key h2.evaluated.1 rfl
  exact ⟨es, _, s, h1, h2.evaluated.1, rfl, k1, (hsans h3).symm.trans k2⟩

/-- RESPONSE_STATUS `@eq 404` on a 404 response. -/
example :
    let r : Rule := { vars := [.responseStatus], op := (newOperatorCompare .eq b!"404").map .cmp, actions := [.deny] }
    (txOf (run (rules [(4, r)]) [.processResponseHeaders 404 [] none])).map (·.intervention.disruptive) = some true ∧
    (txOf (run (rules [(4, r)]) [.processResponseHeaders 200 [] none])).map (·.intervention.disruptive) = some false := by
  decide +kernel

end Verif
