import Verif.Spec.During
import Verif.Proofs.Flow
/-!
What the place of the next rule has to do with an evaluation: nothing, unless an
action sets it.
-/
namespace Verif

/-- Parts that do not look at the place of the next rule.  All parts of the packages
are of this kind. -/
def Trans.Blind : Trans → Prop
  | .custom f => ∀ (t : Tx) (x : Int) (s : Bytes), f { t with nextRule := x } s = f t s
  | _ => True

def Operator.Blind : Operator → Prop
  | .custom f => ∀ (t : Tx) (x : Int) (s : Bytes), f { t with nextRule := x } s = f t s
  | _ => True

def Var.Blind : Var → Prop
  | .custom f => ∀ (t : Tx) (x : Int), f { t with nextRule := x } = f t
  | .count v => v.Blind
  | _ => True

/-- An action written by the host may neither look at the place of the next rule nor
set it, nor change the phase; those of the packages may. -/
def Action.Blind : Action → Prop
  | .custom _ f => ∀ (t : Tx), (f t).phase = t.phase ∧ ∀ x : Int, f { t with nextRule := x } = { f t with nextRule := x }
  | _ => True

/-- Variables that depend on the limits of the engine. -/
def Var.Limited : Var → Prop
  | .args _ _ => True
  | .argsNames _ _ => True
  | .argsPost _ => True
  | .argsPostNames _ => True
  | .requestBody => True
  | .responseBody => True
  | .count v => v.Limited
  | _ => False

/-- The same but for the place of the next rule. -/
def putNext {α : Type} (x : Int) (p : α × Tx) : Res (α × Tx) := .ok (p.1, { p.2 with nextRule := x })

theorem parseBody_next (env : Env) (tp : BodyType) (bnd : Bytes) (t : Tx) (x : Int) :
    parseBody env tp bnd { t with nextRule := x } = (parseBody env tp bnd t).bind fun p => .ok ({ p.1 with nextRule := x }, p.2) := by
  cases tp with
  | urlencoded =>
    simp only [parseBody]
    split <;> rfl
  | multipart =>
    simp only [parseBody]
    split <;> rfl

theorem requestBodyLoop_next (env : Env) (ct bnd : Bytes) (x : Int) : ∀ (tps : List BodyType) (t : Tx),
    requestBodyLoop env ct bnd tps { t with nextRule := x } = (requestBodyLoop env ct bnd tps t).bind fun p => .ok ({ p.1 with nextRule := x }, p.2)
  | [], t => rfl
  | tp :: tps, t => by
    simp only [requestBodyLoop]
    split
    · exact requestBodyLoop_next env ct bnd x tps t
    · cases t.cache.lookup tp with
      | some res =>
        simp only
        split
        · exact requestBodyLoop_next env ct bnd x tps t
        · rfl
      | none =>
        simp only [parseBody_next]
        cases parseBody env tp bnd t with
        | panic => rfl
        | fuel => rfl
        | ok p =>
          obtain ⟨t', res, err⟩ := p
          simp only [Res.bind]
          cases err with
          | some e => rfl
          | none =>
            simp only
            split
            · exact requestBodyLoop_next env ct bnd x tps (t'.setCache tp res)
            · rfl

theorem requestBodyParse_next (env : Env) (t : Tx) (x : Int) :
    requestBodyParse env { t with nextRule := x } = (requestBodyParse env t).bind fun p => .ok ({ p.1 with nextRule := x }, p.2) := by
  simp only [requestBodyParse]
  split
  · rfl
  · split
    · rfl
    · exact requestBodyLoop_next env _ _ x _ t

theorem fetchArgsPost_next (env : Env) (f : Filter) (t : Tx) (x : Int) :
    fetchArgsPost env f { t with nextRule := x } = (fetchArgsPost env f t).bind (putNext x) := by
  simp only [fetchArgsPost, requestBodyParse_next]
  cases requestBodyParse env t with
  | panic => rfl
  | fuel => rfl
  | ok p =>
    obtain ⟨t', tp, parsed⟩ := p
    simp only [Res.bind]
    split <;> rfl

theorem fetchArgsPostNames_next (env : Env) (f : Filter) (t : Tx) (x : Int) :
    fetchArgsPostNames env f { t with nextRule := x } = (fetchArgsPostNames env f t).bind (putNext x) := by
  simp only [fetchArgsPostNames, requestBodyParse_next]
  cases requestBodyParse env t with
  | panic => rfl
  | fuel => rfl
  | ok p =>
    obtain ⟨t', tp, parsed⟩ := p
    simp only [Res.bind]
    split <;> rfl

/-- A fetch neither sees nor changes the place of the next rule. -/
theorem fetch_next (env : Env) : ∀ (v : Var), v.Blind → ∀ (t : Tx) (x : Int),
    v.fetch env { t with nextRule := x } = (v.fetch env t).bind (putNext x)
  | .args g p, _, t, x => by
    simp only [Var.fetch, fetchArgsPost_next]
    cases fetchArgsPost env p t <;> rfl
  | .argsNames g p, _, t, x => by
    simp only [Var.fetch, fetchArgsPostNames_next]
    cases fetchArgsPostNames env p t <;> rfl
  | .argsGet _, _, _, _ => rfl
  | .argsGetNames _, _, _, _ => rfl
  | .argsPost f, _, t, x => fetchArgsPost_next env f t x
  | .argsPostNames f, _, t, x => fetchArgsPostNames_next env f t x
  | .queryString, _, _, _ => rfl
  | .remoteAddr, _, _, _ => rfl
  | .requestBasename, _, _, _ => rfl
  | .requestBody, _, t, x => by
    simp only [Var.fetch, fetchRequestBody]
    split
    · rfl
    · split
      · rfl
      · split
        · rfl
        · split
          · rfl
          · split <;> rfl
  | .requestCookies _, _, _, _ => rfl
  | .requestCookiesNames _, _, _, _ => rfl
  | .requestFilename, _, _, _ => rfl
  | .requestHeaders _, _, _, _ => rfl
  | .requestHeadersNames _, _, _, _ => rfl
  | .requestMethod, _, _, _ => rfl
  | .requestProtocol, _, _, _ => rfl
  | .requestUri, _, _, _ => rfl
  | .responseBody, _, t, x => by
    simp only [Var.fetch, fetchResponseBody]
    split
    · rfl
    · split <;> rfl
  | .responseContentLength, _, _, _ => rfl
  | .responseContentType, _, _, _ => rfl
  | .responseHeaders _, _, _, _ => rfl
  | .responseHeadersNames _, _, _, _ => rfl
  | .responseProtocol, _, _, _ => rfl
  | .responseStatus, _, _, _ => rfl
  | .count v, h, t, x => by
    simp only [Var.fetch, fetch_next env v h t x]
    cases v.fetch env t <;> rfl
  | .custom f, h, t, x => by simp only [Var.fetch, h t x]; rfl

/-- Two environments that a variable cannot tell apart. -/
structure Env.Alike (env env' : Env) (limited : Prop) : Prop where
  lib : env.lib = env'.lib
  ord : env.ord = env'.ord
  limits : limited → env.limits = env'.limits

theorem fetch_env {env env' : Env} : ∀ (v : Var), env.Alike env' v.Limited → ∀ (t : Tx), v.fetch env t = v.fetch env' t := by
  have eq {env env' : Env} (h : env.Alike env' True) : env = env' := by
    obtain ⟨lib, ord, limits⟩ := env
    obtain ⟨lib', ord', limits'⟩ := env'
    obtain ⟨h1, h2, h3⟩ := h
    simp only at h1 h2 h3
    simp only [h1, h2, h3 trivial]
  intro v
  induction v with
  | count v ih => intro h t; simp only [Var.fetch, ih ⟨h.lib, h.ord, h.limits⟩ t]
  | args | argsNames | argsPost | argsPostNames | requestBody | responseBody => intro h t; rw [eq h]
  | _ => intro h t; simp only [Var.fetch, fetchArgsGet, fetchArgsGetNames, fetchRequestUri, h.lib, h.ord]

/-- Rules whose variables do not see changes of the limits that there are, and none of
whose parts looks at the place of the next rule. -/
structure Rule.Clear1 (limitsChange : Prop) (r : Rule) : Prop where
  vars : ∀ v ∈ r.vars, v.Blind ∧ (v.Limited → ¬ limitsChange)
  trans : ∀ x ∈ r.trans, x.Blind
  op : ∀ o, r.op = some o → o.Blind

theorem transform_next (lib : Lib) (r : Rule) (hr : ∀ x ∈ r.trans, x.Blind) (env : Env) (t : Tx) (x : Int) (s : Bytes) (hl : env.lib = lib) :
    r.transformString env { t with nextRule := x } s = r.trans.foldl (fun s tr => tr.run lib t s) s := by
  subst hl
  simp only [Rule.transformString]
  have : ∀ (ts : List Trans), (∀ y ∈ ts, y.Blind) → ∀ s, ts.foldl (fun s tr => tr.run env.lib { t with nextRule := x } s) s = ts.foldl (fun s tr => tr.run env.lib t s) s := by
    intro ts
    induction ts with
    | nil => intro _ s; rfl
    | cons y ys ih =>
      intro hs s
      have e : y.run env.lib { t with nextRule := x } s = y.run env.lib t s := by
        have := hs y List.mem_cons_self
        cases y with
        | custom f => exact this t x s
        | _ => rfl
      simp only [List.foldl_cons, e]
      exact ih (fun z hz => hs z (List.mem_cons_of_mem _ hz)) _
  exact this _ hr s

/-- What a call may see while it is being made. -/
structure Looks (lc : Prop) (C : RuleSet → Prop) (env0 : Env) (look : Nat → Scene) : Prop where
  env : ∀ k, (look k).env.Alike env0 (¬ lc)
  cls : ∀ k, C (look k).rules

section
variable {lc : Prop} {C : RuleSet → Prop} {env0 : Env} {look : Nat → Scene} (he : Looks lc C env0 look)
include he

/-- Whatever a fetch sees, it does what it does in one environment. -/
theorem fetchVars_next {r : Rule} (hr : ∀ x ∈ r.trans, x.Blind) : ∀ {vs : List Var}, (∀ v ∈ vs, v.Blind ∧ (v.Limited → ¬ lc)) → ∀ (t : Tx) (x : Int) (k : Nat),
    ∃ e, k ≤ e ∧ fetchVarsDuring look r vs k { t with nextRule := x } = (fetchVars env0 r vs t).bind fun p => .ok (p.1, { p.2 with nextRule := x }, e)
  | [], _, _, _, k => ⟨k, Nat.le_refl _, rfl⟩
  | v :: vs, hv, t, x, k => by
    have hv1 := hv v List.mem_cons_self
    have he1 := he.env k
    have e1 : v.fetch (look k).env { t with nextRule := x } = (v.fetch env0 t).bind (putNext x) := by
      rw [fetch_next (look k).env v hv1.1, fetch_env v ⟨he1.lib, he1.ord, fun h => he1.limits (hv1.2 h)⟩]
    have ih := fun t => fetchVars_next hr (fun w hw => hv w (List.mem_cons_of_mem _ hw)) t x (k + 1)
    simp only [fetchVars, fetchVarsDuring, Rule.transformVariable, e1]
    cases v.fetch env0 t with
    | panic => exact ⟨k, Nat.le_refl _, rfl⟩
    | fuel => exact ⟨k, Nat.le_refl _, rfl⟩
    | ok p =>
      obtain ⟨xs, t'⟩ := p
      have e2 : xs.map (r.transformString (look k).env { t' with nextRule := x }) = xs.map (r.transformString env0 t') := by
        apply List.map_congr_left
        intro s _
        rw [transform_next env0.lib r hr (look k).env t' x s he1.lib]
        rfl
      obtain ⟨e, hle, h⟩ := ih t'
      refine ⟨e, by omega, ?_⟩
      simp only [Res.bind, putNext, e2, h]
      cases fetchVars env0 r vs t' <;> rfl

omit he in
theorem matchLoop_next {r : Rule} (hr : ∀ o, r.op = some o → o.Blind) (t : Tx) (x : Int) : ∀ (vals : List Bytes),
    matchLoop r { t with nextRule := x } vals = matchLoop r t vals
  | [] => rfl
  | v :: vs => by
    simp only [matchLoop, matchLoop_next hr t x vs]
    cases ho : r.op with
    | none => rfl
    | some o =>
      have e : o.run { t with nextRule := x } v = o.run t v := by
        have := hr o ho
        cases o with
        | custom f => exact this t x v
        | _ => rfl
      simp only [e]

theorem matches_next {r : Rule} (hr : r.Clear1 lc) (t : Tx) (x : Int) (k : Nat) :
    ∃ e, k ≤ e ∧ r.matchesDuring look k { t with nextRule := x } = (r.matches env0 t).bind fun p => .ok (p.1, { p.2 with nextRule := x }, e) := by
  obtain ⟨e, hle, h⟩ := fetchVars_next he hr.trans hr.vars t x k
  refine ⟨e, hle, ?_⟩
  simp only [Rule.matches, Rule.matchesDuring, h]
  cases fetchVars env0 r r.vars t with
  | panic => rfl
  | fuel => rfl
  | ok p =>
    obtain ⟨xs, t'⟩ := p
    simp only [Res.bind, matchLoop_next hr.op]
    cases matchLoop r t' xs <;> rfl

theorem matchSubs_next : ∀ {ss : List Rule}, (∀ s ∈ ss, s.Clear1 lc) → ∀ (t : Tx) (x : Int) (k : Nat),
    ∃ e, k ≤ e ∧ matchSubsDuring look ss k { t with nextRule := x } = (matchSubs env0 ss t).bind fun p => .ok (p.1, { p.2 with nextRule := x }, e)
  | [], _, _, _, k => ⟨k, Nat.le_refl _, rfl⟩
  | s :: ss, hs, t, x, k => by
    obtain ⟨e, hle, h⟩ := matches_next he (hs s List.mem_cons_self) t x k
    have ih := fun t => matchSubs_next (fun w hw => hs w (List.mem_cons_of_mem _ hw)) t x e
    simp only [matchSubs, matchSubsDuring, h]
    cases s.matches env0 t with
    | panic => exact ⟨e, hle, rfl⟩
    | fuel => exact ⟨e, hle, rfl⟩
    | ok p =>
      obtain ⟨b, t'⟩ := p
      simp only [Res.bind]
      cases b
      · exact ⟨e, hle, rfl⟩
      · obtain ⟨e', hle', h'⟩ := ih t'
        exact ⟨e', Nat.le_trans hle hle', h'⟩

end

/-- What actions do to the place of the next rule: nothing, back to the first one, or a
jump. -/
inductive Aim where
  | keep | zero | to (i : Int)

def Aim.val (len : Nat) (b : Int) : Aim → Int
  | .keep => b
  | .zero => 0
  | .to i => if (len : Int) ≤ i then statusEndOfRules else i

def Tx.aimed (rs : RuleSet) (b : Int) (J : Aim) (t : Tx) : Tx := { t with nextRule := J.val (rs.phases t.phase).length b }

/-- A computation that is the same whatever the rule sets it sees and the place of the next
rule, except for that place, which depends on the rules at one time.  (`d look b τ k` begins
at the time `k`, when the rules that count are those at `τ`.) -/
def Aims (P : (Nat → Scene) → Prop) (d : (Nat → Scene) → Int → Nat → Nat → Res (Tx × Nat)) : Prop :=
  ∃ res : Res (Aim × Tx), ∀ look, P look → ∀ b τ k, τ ≤ k →
    ∃ τ' e, τ ≤ τ' ∧ τ' ≤ e ∧ k ≤ e ∧ d look b τ k = res.bind fun p => .ok (p.2.aimed (look τ').rules b p.1, e)

theorem Aims.bind {P : (Nat → Scene) → Prop} {d : (Nat → Scene) → Int → Nat → Nat → Res (Tx × Nat)} {f : (Nat → Scene) → Nat → Tx → Res (Tx × Nat)}
    (h : Aims P d) (hf : ∀ J (t : Tx), Aims P fun look b τ k => f look k (t.aimed (look τ).rules b J)) :
    Aims P fun look b τ k => (d look b τ k).bind fun (t, k) => f look k t := by
  obtain ⟨res, h⟩ := h
  cases res with
  | panic =>
    refine ⟨.panic, fun look hP b τ k hk => ?_⟩
    obtain ⟨τ', e, h1, h2, h3, h4⟩ := h look hP b τ k hk
    exact ⟨τ', e, h1, h2, h3, by simp only [h4]; rfl⟩
  | fuel =>
    refine ⟨.fuel, fun look hP b τ k hk => ?_⟩
    obtain ⟨τ', e, h1, h2, h3, h4⟩ := h look hP b τ k hk
    exact ⟨τ', e, h1, h2, h3, by simp only [h4]; rfl⟩
  | ok p =>
    obtain ⟨res', h'⟩ := hf p.1 p.2
    refine ⟨res', fun look hP b τ k hk => ?_⟩
    obtain ⟨τ', e, h1, h2, h3, h4⟩ := h look hP b τ k hk
    obtain ⟨τ'', e', h1', h2', h3', h4'⟩ := h' look hP b τ' e h2
    refine ⟨τ'', e', by omega, h2', by omega, ?_⟩
    rw [← h4']
    simp only [h4]; rfl

theorem Aims.ok {P : (Nat → Scene) → Prop} (J : Aim) (t : Tx) : Aims P fun look b τ k => .ok (t.aimed (look τ).rules b J, k) :=
  ⟨.ok (J, t), fun _ _ _ τ k hk => ⟨τ, k, Nat.le_refl _, hk, Nat.le_refl _, rfl⟩⟩

/-- What neither sees nor sets the place, and leaves the phase. -/
theorem Aims.plain {P : (Nat → Scene) → Prop} {f : Tx → Tx} (hf : ∀ t, (f t).phase = t.phase ∧ ∀ x : Int, f { t with nextRule := x } = { f t with nextRule := x })
    (J : Aim) (t : Tx) : Aims P fun look b τ k => .ok (f (t.aimed (look τ).rules b J), k + 1) :=
  ⟨.ok (J, f t), fun look _ b τ k hk => ⟨τ, k + 1, Nat.le_refl _, by omega, by omega, by
    have h1 := (hf t).1
    have h2 := (hf t).2 (J.val ((look τ).rules.phases t.phase).length b)
    show Res.ok (f { t with nextRule := _ }, k + 1) = .ok ({ f t with nextRule := J.val ((look τ).rules.phases (f t).phase).length b }, k + 1)
    rw [h2, h1]⟩⟩

theorem doAll_aims {P : (Nat → Scene) → Prop} {d : (Nat → Scene) → Action → Nat → Tx → Res (Tx × Nat)} : ∀ {as : List Action},
    (∀ a ∈ as, ∀ J (t : Tx), Aims P fun look b τ k => d look a k (t.aimed (look τ).rules b J)) →
    ∀ J (t : Tx), Aims P fun look b τ k => doAllDuring (d look) as k (t.aimed (look τ).rules b J)
  | [], _, J, t => .ok J t
  | a :: as, h, J, t => by
    simp only [doAllDuring]
    exact (h a List.mem_cons_self J t).bind (f := fun look k t => doAllDuring (d look) as k t)
      (doAll_aims fun x hx => h x (List.mem_cons_of_mem _ hx))

theorem actionsExecute_aims {P : (Nat → Scene) → Prop} {d : (Nat → Scene) → Action → Nat → Tx → Res (Tx × Nat)} {as : List Action}
    (h : ∀ a ∈ as, ∀ J (t : Tx), Aims P fun look b τ k => d look a k (t.aimed (look τ).rules b J)) (J : Aim) (t : Tx) :
    Aims P fun look b τ k => actionsExecuteDuring (d look) as k (t.aimed (look τ).rules b J) := by
  simp only [actionsExecuteDuring]
  cases hm : actionMap as (List.replicate groupCount []) with
  | none => exact ⟨.panic, fun _ _ _ τ k hk => ⟨τ, k, Nat.le_refl _, hk, Nat.le_refl _, rfl⟩⟩
  | some m =>
    refine doAll_aims (fun a ha => ?_) J t
    rcases actionMap_mem hm a ha with h1 | h1
    · exact h a h1
    · obtain ⟨l, hl, hal⟩ := List.mem_flatten.1 h1
      have := List.eq_of_mem_replicate hl
      subst this
      cases hal

/-- The rule sets in question have all the same default actions. -/
def Steady (C : RuleSet → Prop) : Prop := ∃ D : List Action, (∀ a ∈ D, a.Blind) ∧ ∀ rs, C rs → rs.defaultActions = D

theorem runDuring_other (look : Nat → Scene) {a : Action} (h : a ≠ .block) (n k : Nat) (t : Tx) :
    a.runDuring look n k t = (a.run (look k).rules n t).bind fun t => .ok (t, k + 1) := by
  cases a <;> first | exact absurd rfl h | (cases n <;> rfl)

theorem action_aims {lc : Prop} {C : RuleSet → Prop} {env0 : Env} : ∀ (n : Nat) (a : Action), a.Blind → (a = .block → Steady C) → ∀ J (t : Tx),
    Aims (Looks lc C env0) fun look b τ k => a.runDuring look n k (t.aimed (look τ).rules b J)
  | n, .deny, _, _, J, t => by
    simp only [runDuring_other _ (a := .deny) nofun, Action.run]
    exact .plain (f := denyDo) (fun t => ⟨rfl, fun x => rfl⟩) J t
  | n, .log, _, _, J, t => by
    simp only [runDuring_other _ (a := .log) nofun, Action.run]
    exact .plain (f := logDo) (fun t => ⟨rfl, fun x => rfl⟩) J t
  | 0, .block, _, _, J, t => by
    simp only [Action.runDuring]
    exact ⟨.fuel, fun _ _ _ τ k hk => ⟨τ, k, Nat.le_refl _, hk, Nat.le_refl _, rfl⟩⟩
  | n + 1, .block, _, hs, J, t => by
    have hs' := hs rfl
    obtain ⟨D, hD, hC⟩ := hs'
    obtain ⟨res, h⟩ := actionsExecute_aims (P := Looks lc C env0) (d := fun look => Action.runDuring look n) (as := D)
      (fun a ha => action_aims n a (hD a ha) fun _ => ⟨D, hD, hC⟩) J t
    refine ⟨res, fun look hP b τ k hk => ?_⟩
    obtain ⟨τ', e, h1, h2, h3, h4⟩ := h look hP b τ (k + 1) (by omega)
    refine ⟨τ', e, h1, h2, by omega, ?_⟩
    simp only [Action.runDuring, hC _ (hP.cls k)]
    exact h4
  | n, .pass, _, _, J, t => by
    simp only [runDuring_other _ (a := .pass) nofun, Action.run]
    exact .plain (f := Tx.resetIntervention) (fun t => ⟨rfl, fun x => rfl⟩) J t
  | n, .skip, _, _, J, t => by
    simp only [runDuring_other _ (a := .skip) nofun, Action.run]
    refine ⟨.ok (.to (t.currentRule + 2), t), fun look _ b τ k hk => ⟨k, k + 1, hk, by omega, by omega, ?_⟩⟩
    simp only [skipDo, Tx.jumpTo, Tx.aimed, Res.bind, Aim.val]
    by_cases h : (((look k).rules.phases t.phase).length : Int) ≤ t.currentRule + 2
    · simp only [h, if_true]
    · simp only [h, if_false]
  | n, .status c, _, _, J, t => by
    simp only [runDuring_other _ (a := .status c) nofun, Action.run]
    exact .plain (f := fun t => t.setData b!"status" (.int c)) (fun t => ⟨rfl, fun x => rfl⟩) J t
  | n, .allow arg, _, _, J, t => by
    simp only [runDuring_other _ (a := .allow arg) nofun, Action.run, allowDo]
    split
    · exact ⟨.ok (.zero, t.jumpToPhase phaseLogging), fun _ _ _ τ k hk => ⟨τ, k + 1, Nat.le_refl _, by omega, by omega, rfl⟩⟩
    · split
      · exact ⟨.ok (.zero, t.nextPhase), fun _ _ _ τ k hk => ⟨τ, k + 1, Nat.le_refl _, by omega, by omega, rfl⟩⟩
      · split
        · exact ⟨.ok (.zero, t.jumpToPhase phaseResponseHeaders), fun _ _ _ τ k hk => ⟨τ, k + 1, Nat.le_refl _, by omega, by omega, rfl⟩⟩
        · exact ⟨.ok (J, t), fun _ _ _ τ k hk => ⟨τ, k + 1, Nat.le_refl _, by omega, by omega, rfl⟩⟩
  | n, .custom g f, h, _, J, t => by
    simp only [runDuring_other _ (a := .custom g f) nofun, Action.run]
    exact .plain h J t

/-- Rules for which only the number of rules of the phase makes a difference. -/
structure Rule.Clear (lc : Prop) (C : RuleSet → Prop) (r : Rule) : Prop where
  self : r.Clear1 lc
  subs : ∀ s ∈ r.subRules, s.Clear1 lc
  actions : ∀ s ∈ r :: r.subRules, ∀ a ∈ s.actions, a.Blind ∧ (a = .block → Steady C)

theorem subActions_aims {lc : Prop} {C : RuleSet → Prop} {env0 : Env} (n : Nat) : ∀ {ss : List Rule},
    (∀ s ∈ ss, ∀ a ∈ s.actions, a.Blind ∧ (a = .block → Steady C)) → ∀ J (t : Tx),
    Aims (Looks lc C env0) fun look b τ k => subActionsDuring look n ss k (t.aimed (look τ).rules b J)
  | [], _, J, t => .ok J t
  | s :: ss, h, J, t => by
    simp only [subActionsDuring]
    exact (actionsExecute_aims (d := fun look => Action.runDuring look n)
      (fun a ha => action_aims n a (h s List.mem_cons_self a ha).1 (h s List.mem_cons_self a ha).2) J t).bind
      (f := fun look k t => subActionsDuring look n ss k t) (subActions_aims n fun x hx => h x (List.mem_cons_of_mem _ hx))

/-- A rule does the same wherever the next rule is and whatever rules there are; only
where the next rule is afterwards depends on that. -/
theorem rule_aims {lc : Prop} {C : RuleSet → Prop} {r : Rule} (hr : r.Clear lc C) (env0 : Env) (n : Nat) (t : Tx) :
    Aims (Looks lc C env0) fun look b _ k => r.runDuring look n k { t with nextRule := b } := by
  have stop : ∀ (res : Res (Aim × Tx)), (∀ look, Looks lc C env0 look → ∀ b k, ∃ e, k ≤ e ∧
      r.runDuring look n k { t with nextRule := b } = res.bind fun p => .ok (p.2.aimed (look k).rules b p.1, e)) →
      Aims (Looks lc C env0) fun look b _ k => r.runDuring look n k { t with nextRule := b } := by
    intro res h
    refine ⟨res, fun look hP b τ k hle => ?_⟩
    obtain ⟨e, h1, h2⟩ := h look hP b k
    exact ⟨k, e, hle, h1, h1, h2⟩
  have hm := fun look (he : Looks lc C env0 look) b k => matches_next he hr.self t b k
  simp only [Rule.runDuring] at stop ⊢
  cases h1 : r.matches env0 t with
  | panic =>
    refine stop .panic fun look he b k => ?_
    obtain ⟨e, hle, h⟩ := hm look he b k
    exact ⟨e, hle, by simp only [h, h1]; rfl⟩
  | fuel =>
    refine stop .fuel fun look he b k => ?_
    obtain ⟨e, hle, h⟩ := hm look he b k
    exact ⟨e, hle, by simp only [h, h1]; rfl⟩
  | ok p =>
    obtain ⟨m, t1⟩ := p
    cases m with
    | false =>
      refine stop (.ok (.keep, t1)) fun look he b k => ?_
      obtain ⟨e, hle, h⟩ := hm look he b k
      exact ⟨e, hle, by simp only [h, h1]; rfl⟩
    | true =>
      have hs := fun look (he : Looks lc C env0 look) b k => matchSubs_next he hr.subs t1 b k
      cases h2 : matchSubs env0 r.subRules t1 with
      | panic =>
        refine stop .panic fun look he b k => ?_
        obtain ⟨e, hle, h⟩ := hm look he b k
        obtain ⟨e', hle', h'⟩ := hs look he b e
        exact ⟨e', Nat.le_trans hle hle', by simp only [h, h1, Res.bind, Bool.not_true, Bool.false_eq_true, if_false, h', h2]⟩
      | fuel =>
        refine stop .fuel fun look he b k => ?_
        obtain ⟨e, hle, h⟩ := hm look he b k
        obtain ⟨e', hle', h'⟩ := hs look he b e
        exact ⟨e', Nat.le_trans hle hle', by simp only [h, h1, Res.bind, Bool.not_true, Bool.false_eq_true, if_false, h', h2]⟩
      | ok p =>
        obtain ⟨m, t2⟩ := p
        cases m with
        | false =>
          refine stop (.ok (.keep, t2)) fun look he b k => ?_
          obtain ⟨e, hle, h⟩ := hm look he b k
          obtain ⟨e', hle', h'⟩ := hs look he b e
          exact ⟨e', Nat.le_trans hle hle', by simp only [h, h1, Res.bind, Bool.not_true, Bool.not_false, Bool.false_eq_true, if_false, if_true, h', h2]; rfl⟩
        | true =>
          obtain ⟨res, h3⟩ := (actionsExecute_aims (P := Looks lc C env0) (d := fun look => Action.runDuring look n) (as := r.actions)
            (fun a ha => action_aims n a (hr.actions r List.mem_cons_self a ha).1 (hr.actions r List.mem_cons_self a ha).2) .keep t2).bind
            (f := fun look k t => subActionsDuring look n r.subRules k t) (subActions_aims n fun x hx => hr.actions x (List.mem_cons_of_mem _ hx))
          refine ⟨res, fun look he b τ k hk => ?_⟩
          obtain ⟨e, hle, h⟩ := hm look he b k
          obtain ⟨e', hle', h'⟩ := hs look he b e
          obtain ⟨τ', e'', g1, g2, g3, g4⟩ := h3 look he b τ e' (by omega)
          refine ⟨τ', e'', g1, g2, by omega, ?_⟩
          simp only [h, h1, Res.bind, Bool.not_true, Bool.false_eq_true, if_false, h', h2]
          exact g4

/-! ### Nothing changes meanwhile -/

/-- The result without the time. -/
def Res.untimed {α : Type} (x : Res (α × Nat)) : Res α := x.bind fun p => .ok p.1

section
variable (s : Scene)

theorem fetchVars_still (r : Rule) : ∀ (vs : List Var) (k : Nat) (t : Tx),
    ∃ e, fetchVarsDuring (fun _ => s) r vs k t = (fetchVars s.env r vs t).bind fun p => .ok (p.1, p.2, e)
  | [], k, t => ⟨k, rfl⟩
  | v :: vs, k, t => by
    simp only [fetchVars, fetchVarsDuring]
    cases r.transformVariable s.env v t with
    | panic => exact ⟨k, rfl⟩
    | fuel => exact ⟨k, rfl⟩
    | ok p =>
      obtain ⟨e, h⟩ := fetchVars_still r vs (k + 1) p.2
      refine ⟨e, ?_⟩
      simp only [Res.bind, h]
      cases fetchVars s.env r vs p.2 <;> rfl

theorem matches_still (r : Rule) (k : Nat) (t : Tx) :
    ∃ e, r.matchesDuring (fun _ => s) k t = (r.matches s.env t).bind fun p => .ok (p.1, p.2, e) := by
  obtain ⟨e, h⟩ := fetchVars_still s r r.vars k t
  refine ⟨e, ?_⟩
  simp only [Rule.matchesDuring, Rule.matches, h]
  cases fetchVars s.env r r.vars t with
  | panic => rfl
  | fuel => rfl
  | ok p =>
    simp only [Res.bind]
    cases matchLoop r p.2 p.1 <;> rfl

theorem matchSubs_still : ∀ (ss : List Rule) (k : Nat) (t : Tx),
    ∃ e, matchSubsDuring (fun _ => s) ss k t = (matchSubs s.env ss t).bind fun p => .ok (p.1, p.2, e)
  | [], k, t => ⟨k, rfl⟩
  | r :: ss, k, t => by
    obtain ⟨e, h⟩ := matches_still s r k t
    simp only [matchSubs, matchSubsDuring, h]
    cases r.matches s.env t with
    | panic => exact ⟨k, rfl⟩
    | fuel => exact ⟨k, rfl⟩
    | ok p =>
      obtain ⟨b, t'⟩ := p
      cases b
      · exact ⟨e, rfl⟩
      · obtain ⟨e', h'⟩ := matchSubs_still ss e t'
        exact ⟨e', h'⟩

theorem doAll_still {d : Action → Nat → Tx → Res (Tx × Nat)} {d' : Action → Tx → Res Tx} (h : ∀ a k t, (d a k t).untimed = d' a t) :
    ∀ (as : List Action) (k : Nat) (t : Tx), (doAllDuring d as k t).untimed = doAll d' as t
  | [], _, _ => rfl
  | a :: as, k, t => by
    have h1 := h a k t
    simp only [doAllDuring, doAll, ← h1]
    cases d a k t with
    | panic => rfl
    | fuel => rfl
    | ok p => exact doAll_still h as p.2 p.1

theorem actionsExecute_still {d : Action → Nat → Tx → Res (Tx × Nat)} {d' : Action → Tx → Res Tx} (h : ∀ a k t, (d a k t).untimed = d' a t)
    (as : List Action) (k : Nat) (t : Tx) : (actionsExecuteDuring d as k t).untimed = actionsExecute d' as t := by
  simp only [actionsExecuteDuring, actionsExecute]
  cases actionMap as (List.replicate groupCount []) with
  | none => rfl
  | some m => exact doAll_still h m.flatten k t

theorem action_still : ∀ (n : Nat) (a : Action) (k : Nat) (t : Tx), (a.runDuring (fun _ => s) n k t).untimed = a.run s.rules n t
  | 0, .block, _, _ => rfl
  | n + 1, .block, k, t => actionsExecute_still (action_still n) _ _ _
  | n, .deny, k, t | n, .log, k, t | n, .pass, k, t | n, .skip, k, t | n, .status _, k, t | n, .allow _, k, t | n, .custom _ _, k, t => by
    rw [runDuring_other _ (fun h => by cases h)]
    simp only [Res.untimed, Action.run, Res.bind]

theorem subActions_still (n : Nat) : ∀ (ss : List Rule) (k : Nat) (t : Tx),
    (subActionsDuring (fun _ => s) n ss k t).untimed = subActions s.rules n ss t
  | [], _, _ => rfl
  | r :: ss, k, t => by
    have h1 := actionsExecute_still (action_still s n) r.actions k t
    simp only [subActionsDuring, subActions, ← h1]
    cases actionsExecuteDuring (Action.runDuring (fun _ => s) n) r.actions k t with
    | panic => rfl
    | fuel => rfl
    | ok p => exact subActions_still n ss p.2 p.1

/-- If nothing changes meanwhile, a rule does what it does at once. -/
theorem rule_still (n : Nat) (r : Rule) (k : Nat) (t : Tx) : (r.runDuring (fun _ => s) n k t).untimed = r.run s.env s.rules n t := by
  obtain ⟨e, h⟩ := matches_still s r k t
  simp only [Rule.runDuring, Rule.run, h]
  cases r.matches s.env t with
  | panic => rfl
  | fuel => rfl
  | ok p =>
    obtain ⟨b, t1⟩ := p
    cases b
    · rfl
    · obtain ⟨e', h'⟩ := matchSubs_still s r.subRules e t1
      simp only [Res.bind, Bool.not_true, Bool.false_eq_true, if_false, h']
      cases matchSubs s.env r.subRules t1 with
      | panic => rfl
      | fuel => rfl
      | ok p =>
        obtain ⟨b, t2⟩ := p
        cases b
        · rfl
        · have h1 := actionsExecute_still (action_still s n) r.actions e' t2
          simp only [Bool.not_true, Bool.false_eq_true, if_false, ← h1]
          cases actionsExecuteDuring (Action.runDuring (fun _ => s) n) r.actions e' t2 with
          | panic => rfl
          | fuel => rfl
          | ok p => exact subActions_still s n r.subRules p.2 p.1

end

end Verif
