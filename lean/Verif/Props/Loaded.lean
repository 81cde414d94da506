import Verif.Props.EndToEnd
import Verif.Props.Body
/-!
Rules loaded from text: C21, C30 and C47 for whole exchanges, and C62 for a
request.
-/
namespace Verif
open Sample Spec

/-- Every history of calls returns, if the rules only jump forward and the library returns, or
is not asked for the fields of the body. -/
theorem steps_terminate {env : Env} {rs : RuleSet} (hl : env.lib.FormReturns ∨ NoFields rs) (hb : rs.NoBlockDefault) (hrs : rs.Forward) :
    ∀ (ops : List Op) (t : Tx), ∃ n r, r ≠ .fuel ∧ ∀ m ≥ n, t.steps env rs m ops = r := by
  intro ops
  induction ops with
  | nil => intro t; exact ⟨0, .ok (t, [], []), by simp, fun _ _ => rfl⟩
  | cons op ops ih =>
    intro t
    obtain ⟨n, r, hr, h⟩ := C30_terminates_partial hl hb hrs t op
    cases r with
    | fuel => exact absurd rfl hr
    | panic => exact ⟨n, .panic, by simp, fun m hm => by simp only [Tx.steps, h m hm, Res.bind_panic']⟩
    | ok x =>
      obtain ⟨t1, o, tr⟩ := x
      obtain ⟨n', r', hr', h'⟩ := ih t1
      refine ⟨max n n', r'.bind fun x => .ok (x.1, o :: x.2.1, tr ++ x.2.2), ?_, fun m hm => ?_⟩
      · cases r' with
        | fuel => exact absurd rfl hr'
        | _ => simp
      · simp only [Tx.steps, h m (by omega), h' m (by omega), Res.bind_ok']

/-- Every rule loaded from text has an operator and only built-in actions. -/
theorem loaded_sane {lib : Lib} {vo : VarOrd} {text : Bytes} {set : DireSet} {okV : Var → Prop}
    (hl : DireSet.addSecLangString lib vo [] text = .ok (set, none))
    (hv : ∀ dirs p v f x, Program text dirs → .rule p ∈ dirs → v ∈ p.vars → variableOf f v.tk = some x →
      okV (if v.count then .count x else x)) :
    (set.execute newEngine).ruleSet.Sane okV := by
  obtain ⟨dirs, ds, hp, hd, rfl⟩ := loaded_set hl
  have hdef : (DireSet.execute (group ds) newEngine).ruleSet.defaultActions = [] := (C58_switches (group ds) newEngine).2.2
  refine ⟨?_, by intro a ha; rw [hdef] at ha; cases ha⟩
  intro q r hr
  have key : ∀ p x, .rule p ∈ dirs → RuleMeans lib p x → x.Sane1 okV := by
    intro p x hin hm
    refine ⟨?_, ?_, ?_⟩
    · obtain ⟨op, h, _⟩ := hm.op
      rw [h]; simp
    · intro v hvm
      obtain ⟨ks, _, h2, h3⟩ := hm.vars
      obtain ⟨k, hk, f, y, _, hy, rfl⟩ := pairs_mem_right h3 hvm
      obtain ⟨pv, hpv, rfl⟩ := (h2 k).1 hk
      exact hv dirs p pv f y hp hin hpv hy
    · intro a ha
      obtain ⟨b, _, hba⟩ := pairs_mem_right hm.actions ha
      cases hba <;> trivial
  obtain ⟨_, _, h3, _⟩ := engine_rule hd hr
  obtain ⟨⟨p1, o1, o2⟩, o3⟩ := grouped_rule_origin hd h3
  have h1 := key p1 _ o1 o2
  refine ⟨⟨h1.1, h1.2.1, h1.2.2⟩, fun s hs => ?_⟩
  obtain ⟨p2, k1, k2⟩ := o3 s hs
  exact key p2 s k1 k2

/-- C47 for texts: rules loaded from a text that uses neither ARGS_NAMES nor
ARGS_POST_NAMES (counted or not) never make a call panic, whatever the request
and the library. -/
theorem C47_loaded_no_panic {lib : Lib} {vo : VarOrd} {ord : IterOrd} {text : Bytes} {set : DireSet}
    (hl : DireSet.addSecLangString lib vo [] text = .ok (set, none))
    (hv : ∀ dirs p v, Program text dirs → .rule p ∈ dirs → v ∈ p.vars → v.tk ≠ .argsNames ∧ v.tk ≠ .argsPostNames)
    (n : Nat) (ops : List Op) :
    (set.execute newEngine).newTransaction.steps ((set.execute newEngine).env lib ord) (set.execute newEngine).ruleSet n ops ≠ .panic := by
  have hlim : 0 ≤ (set.execute newEngine).limits.requestBodyInMem ∧ 0 ≤ (set.execute newEngine).limits.responseBody := by
    rw [(C58_switches set newEngine).2.1]
    simp [newEngine, newDefaultLimits]
  refine C47_no_names_partial ((set.execute newEngine).env lib ord) _ (loaded_sane hl ?_) hlim.1 hlim.2 n ops
  intro dirs p v f x hp hin hvin hx
  obtain ⟨h1, h2⟩ := hv dirs p v hp hin hvin
  have : x.readsPostNames = false := by
    cases htk : v.tk <;> rw [htk] at hx h1 h2 <;> simp only [variableOf, Option.some.injEq, reduceCtorEq] at hx <;>
      first | (subst hx; rfl) | exact absurd rfl h1 | exact absurd rfl h2
  split
  · exact this
  · exact this

/-- The variables that look at the fields of the body. -/
def Spec.fieldTokens : List VarTok := [.args, .argsNames, .argsPost, .argsPostNames]

/-- No rule of the text looks at the fields of the body. -/
def Spec.TextNoFields (text : Bytes) : Prop := ∀ dirs p v, Program text dirs → .rule p ∈ dirs → v ∈ p.vars → v.tk ∉ fieldTokens

theorem loaded_noFields {lib : Lib} {vo : VarOrd} {text : Bytes} {set : DireSet} (hl : DireSet.addSecLangString lib vo [] text = .ok (set, none))
    (hv : TextNoFields text) : NoFields (set.execute newEngine).ruleSet := by
  have hs := loaded_sane (okV := fun v => ¬ LooksAtFields v) hl (by
    intro dirs p v f x hp hin hvin hx
    have h1 := hv dirs p v hp hin hvin
    have : ¬ LooksAtFields x := by
      cases htk : v.tk <;> rw [htk] at hx h1 <;> simp only [variableOf, Option.some.injEq, reduceCtorEq] at hx <;>
        first | exact absurd (by decide) h1 | (subst hx; intro h; cases h)
    split
    · intro h
      cases h with
      | count h => exact this h
    · exact this)
  intro p r hr s hsm v hvm
  obtain ⟨h1, h2⟩ := hs.1 p r hr
  rcases List.mem_cons.1 hsm with rfl | hsm
  · exact h1.2.1 v hvm
  · exact (h2 s hsm).2.1 v hvm

/-- C30 for texts: with rules from a text without `allow:request` every call
returns, if the library's form reader does or no rule looks at the fields of the
body. -/
theorem C30_loaded_terminates {lib : Lib} {vo : VarOrd} {ord : IterOrd} {text : Bytes} {set : DireSet}
    (hl : DireSet.addSecLangString lib vo [] text = .ok (set, none))
    (hno : ∀ dirs p a, Program text dirs → .rule p ∈ dirs → a ∈ p.acts.action → a.tk = .allow → ¬ Unquoted a.arg b!"request")
    (hf : lib.FormReturns ∨ TextNoFields text) (t : Tx) (op : Op) :
    ∃ n r, r ≠ .fuel ∧ ∀ m ≥ n, t.step ((set.execute newEngine).env lib ord) (set.execute newEngine).ruleSet m op = r :=
  C30_terminates_partial (hf.imp id (loaded_noFields hl)) (loaded_forward hl hno).2 (loaded_forward hl hno).1 t op

/-- C30 for texts, whole histories: with rules from a text without
`allow:request`, every sequence of calls returns (under the same condition). -/
theorem C30_loaded_history {lib : Lib} {vo : VarOrd} {ord : IterOrd} {text : Bytes} {set : DireSet}
    (hl : DireSet.addSecLangString lib vo [] text = .ok (set, none))
    (hno : ∀ dirs p a, Program text dirs → .rule p ∈ dirs → a ∈ p.acts.action → a.tk = .allow → ¬ Unquoted a.arg b!"request")
    (hf : lib.FormReturns ∨ TextNoFields text) (ops : List Op) :
    ∃ n r, r ≠ .fuel ∧ ∀ m ≥ n,
      (set.execute newEngine).newTransaction.steps ((set.execute newEngine).env lib ord) (set.execute newEngine).ruleSet m ops = r :=
  steps_terminate (hf.imp id (loaded_noFields hl)) (loaded_forward hl hno).2 (loaded_forward hl hno).1 ops _

/-- C21 for texts: with rules from a text without `allow:request`, no sequence of
calls evaluates a rule twice, and phases only move forward. -/
theorem C21_loaded {lib : Lib} {vo : VarOrd} {ord : IterOrd} {text : Bytes} {set : DireSet}
    (hl : DireSet.addSecLangString lib vo [] text = .ok (set, none))
    (hno : ∀ dirs p a, Program text dirs → .rule p ∈ dirs → a ∈ p.acts.action → a.tk = .allow → ¬ Unquoted a.arg b!"request")
    {n : Nat} {ops : List Op} (hops : ∀ op ∈ ops, op.keepsCursor = true) {t : Tx} {os : List Out} {tr : Trace}
    (h : (set.execute newEngine).newTransaction.steps ((set.execute newEngine).env lib ord) (set.execute newEngine).ruleSet n ops = .ok (t, os, tr)) :
    tr.Pairwise (fun a b => a.1 < b.1 ∨ (a.1 = b.1 ∧ a.2 < b.2)) :=
  C21_each_rule_once (loaded_forward hl hno).1 hops h

/-! ### C62 for a request -/

/-- The values of the variables that only depend on the request line and the
client address. -/
def Spec.requestValues (lib : Lib) (ip : Bytes) (u : Option URL) (method proto : Bytes) : VarTok → Option (List Bytes)
  | .requestMethod => some [method]
  | .requestProtocol => some [proto]
  | .remoteAddr => some [ip]
  | .queryString => some (u.toList.map fun u => u.rawQuery)
  | .requestFilename => some (u.toList.map fun u => u.path)
  | .requestUri => some (u.toList.map fun u =>
      lib.urlString { path := u.path, rawPath := u.rawPath, forceQuery := u.forceQuery, rawQuery := u.rawQuery, fragment := u.fragment })
  | _ => none

/-- The built-in transformations do not look at the transaction. -/
theorem pipe_builtin (lib : Lib) (ts : List TransTok) (t t' : Tx) (s : Bytes) :
    Spec.pipe lib t (ts.map transOf) s = Spec.pipe lib t' (ts.map transOf) s := by
  induction ts generalizing s with
  | nil => rfl
  | cons a ts ih =>
    simp only [List.map_cons, Spec.pipe]
    rw [ih]
    congr 1
    cases a <;> rfl

/-- Loaded operators do not look at the transaction, and the text determines
what they accept. -/
theorem op_determined {lib : Lib} {o : POp} {op op' : Operator} (h : OpMeans lib o op) (h' : OpMeans lib o op') (t t' : Tx) (s : Bytes) :
    op.run t s = op'.run t' s := by
  cases h with
  | rx a b =>
    cases h' with
    | rx a' b' => rw [b] at b'; cases b'; rfl
    | cmp a' b' => rw [a] at a'; cases a'
  | @cmp c a b =>
    cases h' with
    | rx a' b' => rw [a'] at a; cases a
    | @cmp c' a' b' =>
      rw [a] at a'
      simp only [Option.some.injEq] at a'
      have : c.arg = c'.arg := by
        have h1 := (parse_trim_iff _ _).2 b
        rw [(parse_trim_iff _ _).2 b'] at h1
        exact (Option.some.inj h1).symm
      simp only [Operator.run, OperatorCompare.run, a', this]

/-- A phase without rules is left at its end. -/
theorem empty_phase_cursor {env : Env} {rs : RuleSet} (hrs : rs.Forward) {p : Int} {n : Nat} {t t' : Tx} {tr : Trace}
    (h0 : 0 ≤ p) (h7 : p ≤ 7) (hp : t.phase < p) (ha : t.abort = false) (hr : rs.phases p = [])
    (h : processPhase env rs n p t = .ok (t', tr)) : t'.phase = p := by
  obtain ⟨es, s, _, hrun, _, hs, _⟩ := processPhase_run hrs h0 h7 hp ha h
  have no : ∀ {e : Ev} {a : Tx}, e.Valid env rs p a → False := by
    intro e a hv
    have := hv.rule
    rw [hr] at this
    simp at this
  obtain ⟨i, u, hu, hrun⟩ : ∃ i u, t.jumpToPhase p = u ∧ PhaseRun env rs p i u es s := ⟨_, _, rfl, hrun⟩
  cases hrun with
  | done => rw [← hs, ← hu, jumpToPhase_self h0 h7]
  | stop hv => exact (no hv).elim
  | leave hv => exact (no hv).elim
  | next hv => exact (no hv).elim
  | skip hv => exact (no hv).elim

/-- The variables of a rule written with a single plain variable. -/
theorem single_variable {lib : Lib} {p : PRule} {r : Rule} (hm : RuleMeans lib p r) {tk : VarTok} (hv : p.vars = [{ tk }]) :
    ∃ f x, variableOf f tk = some x ∧ r.vars = [x] := by
  obtain ⟨ks, h1, h2, h3⟩ := hm.vars
  have hk : ks = [(tk, false)] := by
    have hall : ∀ k ∈ ks, k = (tk, false) := by
      intro k hk
      obtain ⟨v, hvm, rfl⟩ := (h2 k).1 hk
      rw [hv, List.mem_singleton] at hvm
      subst hvm; rfl
    have hin : (tk, false) ∈ ks := (h2 _).2 ⟨_, by rw [hv]; exact List.mem_singleton.2 rfl, rfl⟩
    cases ks with
    | nil => cases hin
    | cons a as =>
      cases as with
      | nil => rw [hall a (by simp)]
      | cons b bs =>
        have e1 := hall a (by simp)
        have e2 := hall b (by simp)
        rw [List.nodup_cons] at h1
        exact absurd (by rw [e1, e2]; simp) h1.1
  rw [hk] at h3
  generalize r.vars = xs at h3 ⊢
  cases h3 with
  | cons hc hn =>
    cases hn
    obtain ⟨f, y, _, hy, hxy⟩ := hc
    exact ⟨f, y, hy, by rw [hxy]; rfl⟩

/-- Fetching a variable of the request line. -/
theorem fetch_requestValues {env : Env} {ip method proto : Bytes} {u : Option URL} {tk : VarTok} {vals : List Bytes}
    (hvals : requestValues env.lib ip u method proto tk = some vals) {f : Filter} {x : Var} (hx : variableOf f tk = some x) {t : Tx}
    (h1 : t.srcIp = ip) (h2 : t.url = u) (h3 : t.method = method) (h4 : t.reqProto = proto) : x.fetch env t = .ok (vals, t) := by
  subst h1 h2 h3 h4
  cases tk <;> simp only [requestValues, Option.some.injEq, reduceCtorEq] at hvals <;>
    (subst hvals; simp only [variableOf, Option.some.injEq] at hx; subst hx)
  all_goals simp only [Var.fetch, fetchRequestUri]
  all_goals cases t.url <;> rfl

/-- C62 for a request.  Load a text with a single `deny` rule in phase 2 on one of
the variables of the request line, start a transaction, hand over the connection,
the request line and the headers, and ask for the result.  All calls return; the
result is disruptive with status 403 iff the variable's value - as given by the
host - passed through the transformations satisfies the operator (with `!`: does
not), and neutral with status 200 otherwise. -/
theorem C62_request {lib : Lib} {vo : VarOrd} {ord : IterOrd} {text : Bytes} {p : PRule} (ht : Program text [.rule p])
    (hd : DenyRule lib p) {tk : VarTok} (hv : p.vars = [{ tk }]) (h2 : p.acts.phase = 2)
    {ip port ip' port' method proto : Bytes} {u : Option URL} {h : Option GoMap} {vals : List Bytes}
    (hvals : requestValues lib ip u method proto tk = some vals) {op : Operator} (hop : OpMeans lib p.op op) (t0 : Tx) :
    ∃ set, DireSet.addSecLangString lib vo [] text = .ok (set, none) ∧
      ∃ N, ∀ n ≥ N, ∃ t' i tr,
        (set.execute newEngine).newTransaction.steps ((set.execute newEngine).env lib ord) (set.execute newEngine).ruleSet n
          [.processConnection ip port ip' port', .processRequestURL u method proto, .processRequestHeader h, .result] =
            .ok (t', [.unit, .unit, .unit, .intervention i], tr) ∧
        (i.disruptive = true ↔ ∃ y ∈ vals, op.run t0 (Spec.pipe lib t0 (p.acts.trans.map transOf) y) ≠ p.op.not) ∧
        i.status = if i.disruptive then 403 else 200 := by
  obtain ⟨set, r, h1, hm, hacts, hfw, hlim, hph⟩ := deny_engine (vo := vo) ht hd
  refine ⟨set, h1, ?_⟩
  have hnb : (set.execute newEngine).ruleSet.NoBlockDefault := by
    intro a ha
    rw [(C58_switches set newEngine).2.2] at ha; cases ha
  have hdirs : ∀ dirs p', Program text dirs → .rule p' ∈ dirs → p' = p := by
    intro dirs p' hp' hin
    have := ((C53_exact id _ _).2 ht).symm.trans ((C53_exact id _ _).2 hp')
    simp only [Res.ok.injEq, Except.ok.injEq] at this
    subst this
    simpa using hin
  obtain ⟨N, res, hres, hN⟩ := steps_terminate (env := (set.execute newEngine).env lib ord) (.inr (loaded_noFields h1 fun dirs p' v hp' hin hvin => by
    rw [hdirs dirs p' hp' hin, hv, List.mem_singleton] at hvin
    subst hvin
    simp only [fieldTokens, List.mem_cons, List.not_mem_nil, or_false]
    rintro (rfl | rfl | rfl | rfl) <;> cases hvals)) hnb hfw
    [.processConnection ip port ip' port', .processRequestURL u method proto, .processRequestHeader h, .result]
    (set.execute newEngine).newTransaction
  have hnp := C47_loaded_no_panic (ord := ord) h1 (by
    intro dirs p' v hp' hin hvin
    rw [hdirs dirs p' hp' hin, hv, List.mem_singleton] at hvin
    subst hvin
    constructor <;> (rintro rfl; cases hvals)) N
      [.processConnection ip port ip' port', .processRequestURL u method proto, .processRequestHeader h, .result]
  refine ⟨N, fun n hn => ?_⟩
  rw [hN n hn]
  have hrun := hN N (Nat.le_refl _)
  rw [hrun] at hnp
  cases res with
  | fuel => exact absurd rfl hres
  | panic => exact absurd rfl hnp
  | ok x =>
    obtain ⟨tf, os, tr⟩ := x
    -- take the four calls apart
    obtain ⟨⟨t1, o1, tr1⟩, a1, b1⟩ := Res.bind_eq_ok.1 hrun
    obtain ⟨⟨_, _, _⟩, b2, b3⟩ := Res.bind_eq_ok.1 b1
    cases b3
    obtain ⟨⟨t2, o2, tr2⟩, a2, b4⟩ := Res.bind_eq_ok.1 b2
    obtain ⟨⟨_, _, _⟩, b5, b6⟩ := Res.bind_eq_ok.1 b4
    cases b6
    obtain ⟨⟨t3, o3, tr3⟩, a3, b7⟩ := Res.bind_eq_ok.1 b5
    obtain ⟨⟨_, _, _⟩, b8, b9⟩ := Res.bind_eq_ok.1 b7
    cases b9
    obtain ⟨⟨t4, o4, tr4⟩, a4, b10⟩ := Res.bind_eq_ok.1 b8
    cases b10
    cases a4
    -- the connection
    obtain ⟨⟨_, _⟩, c1, c2⟩ := Res.bind_eq_ok.1 a1
    cases c2
    have hq : ∀ q, q ≠ (2 : Int) → (set.execute newEngine).ruleSet.phases q = [] := fun q h => by rw [hph, h2, if_neg h]
    have hr1 : (set.execute newEngine).ruleSet.phases phaseConnection = [] := hq _ (by decide)
    have hs1 := empty_phase_run hfw (.inl hr1) c1
    have hp1 : t1.phase = phaseConnection := empty_phase_cursor hfw (by decide) (by decide) (show phaseBegin < phaseConnection by decide) rfl hr1 c1
    -- the request line and the headers
    cases a2
    obtain ⟨⟨_, _⟩, c3, c4⟩ := Res.bind_eq_ok.1 a3
    cases c4
    have hfr : t1.Fresh := Tx.Fresh.sans (t := { newTransaction (set.execute newEngine).limits with srcIp := ip, srcPort := port, dstIp := ip', dstPort := port' })
      ⟨rfl, rfl, rfl, rfl⟩ hs1
    have hc3 : processPhase ((set.execute newEngine).env lib ord) (set.execute newEngine).ruleSet N p.acts.phase
        { t1 with url := u, method := method, reqProto := proto, reqHeader := orEmpty h } = .ok (t3, tr3) := by rw [h2]; exact c3
    obtain ⟨op', v, t5, ys, hop', hopm, hat, hys, _, hfin⟩ := deny_phase hm hacts hfw hph (by omega) (by omega)
      (t := { t1 with url := u, method := method, reqProto := proto, reqHeader := orEmpty h })
      (by rw [h2]; show t1.phase < 2; rw [hp1]; decide) ⟨hfr.1, hfr.2, hfr.3, hfr.4⟩ hc3
    obtain ⟨f, x, hx, hrv⟩ := single_variable hm hv
    have e1 : v.srcIp = ip := by
      have q1 := congrArg Tx.srcIp hat.2.2
      have q2 := congrArg Tx.srcIp hs1
      simp only [Tx.sansCursor] at q1 q2
      exact q1.trans q2
    have e2 : v.url = u := congrArg Tx.url hat.2.2
    have e3 : v.method = method := congrArg Tx.method hat.2.2
    have e4 : v.reqProto = proto := congrArg Tx.reqProto hat.2.2
    have hfet := fetch_requestValues (env := (set.execute newEngine).env lib ord) hvals hx e1 e2 e3 e4
    rw [hrv] at hys
    have hys' : t5 = v ∧ ys = vals.map fun y => (v, y) := by
      cases hys with
      | cons g1 g2 =>
        cases g2
        rw [hfet] at g1
        cases g1
        exact ⟨rfl, by simp⟩
    obtain ⟨rfl, rfl⟩ := hys'
    have hab : t5.abort = false := by rw [sans_abort hat.2.2]; exact hfr.abort
    obtain ⟨g1, g2, g3⟩ := hfin hab
    refine ⟨_, t3.intervention, _, rfl, ?_, ?_⟩
    · rw [g1]
      constructor
      · rintro ⟨y, hy, hne⟩
        obtain ⟨z, hz, rfl⟩ := List.mem_map.1 hy
        refine ⟨z, hz, ?_⟩
        rw [pipe_builtin lib _ t0 t5, op_determined hop hopm t0 t5]; exact hne
      · rintro ⟨z, hz, hne⟩
        refine ⟨(t5, z), List.mem_map.2 ⟨z, hz, rfl⟩, ?_⟩
        rw [pipe_builtin lib _ t0 t5, op_determined hop hopm t0 t5] at hne; exact hne
    · cases hdis : t3.intervention.disruptive with
      | true => exact g2 hdis
      | false => exact g3 hdis

/-- A text with one `deny` rule. -/
def denyText : Bytes := b!"SecRule REQUEST_URI \"@rx /a\" \"id:1,phase:2,t:lowercase,deny\"\n"

def denyParsed : PRule where
  vars := [{ tk := .requestUri }]
  op := { tk := .rx, arg := b!"/a" }
  acts := { id := 1, phase := 2, trans := [.lowercase], action := [⟨.deny, []⟩] }

theorem denyText_program : Program denyText [.rule denyParsed] := (C53_exact id _ _).1 (by decide +kernel)

theorem denyParsed_ok : DenyRule lib denyParsed where
  ok := {
    vars := by intro v hv; rw [List.mem_singleton.1 hv]; exact ⟨by simp, fun h => by cases h⟩
    op := ⟨_, .rx rfl rfl⟩
    acts := by intro a ha; rw [List.mem_singleton.1 ha]; exact .inl ⟨_, .deny⟩ }
  deny := ⟨_, rfl⟩
  phase := by decide

theorem sample_formReturns : lib.FormReturns := by intro b bd m; simp [lib]

/-- `GET /A` is denied by the rule (the toy library's regular expressions match
their own text; the value is lower-cased first), `GET /b` is not. -/
example : ∃ set, DireSet.addSecLangString lib varOrd [] denyText = .ok (set, none) ∧
    ∃ N, ∀ n ≥ N, ∃ t' i tr,
      (set.execute newEngine).newTransaction.steps ((set.execute newEngine).env lib Sample.ord) (set.execute newEngine).ruleSet n
        [.processConnection [] [] [] [], .processRequestURL (some { path := b!"/A" }) b!"GET" b!"HTTP/1.1",
          .processRequestHeader none, .result] =
          .ok (t', [.unit, .unit, .unit, .intervention i], tr) ∧ i.disruptive = true ∧ i.status = 403 := by
  obtain ⟨set, h1, N, h2⟩ := C62_request (lib := lib) (vo := varOrd) (ord := Sample.ord) (ip := []) (port := []) (ip' := []) (port' := [])
    (h := none) (method := b!"GET") (proto := b!"HTTP/1.1")
    denyText_program denyParsed_ok (u := some { path := b!"/A" }) rfl rfl rfl (.rx rfl rfl) (newTransaction limits)
  refine ⟨set, h1, N, fun n hn => ?_⟩
  obtain ⟨t', i, tr, g1, g2, g3⟩ := h2 n hn
  have hd : i.disruptive = true := g2.2 ⟨_, List.mem_singleton.2 rfl, by decide⟩
  exact ⟨t', i, tr, g1, hd, by rw [g3, hd]; rfl⟩

/-- The same text meets the conditions of the theorems on loaded texts. -/
example : (∃ set, DireSet.addSecLangString lib varOrd [] denyText = .ok (set, none)) ∧
    (∀ dirs p a, Program denyText dirs → .rule p ∈ dirs → a ∈ p.acts.action → a.tk = .allow → ¬ Unquoted a.arg b!"request") ∧
    TextNoFields denyText ∧
    ∀ dirs p v, Program denyText dirs → .rule p ∈ dirs → v ∈ p.vars → v.tk ≠ .argsNames ∧ v.tk ≠ .argsPostNames := by
  have hdirs : ∀ dirs p', Program denyText dirs → .rule p' ∈ dirs → p' = denyParsed := by
    intro dirs p' hp' hin
    have := ((C53_exact id _ _).2 denyText_program).symm.trans ((C53_exact id _ _).2 hp')
    simp only [Res.ok.injEq, Except.ok.injEq] at this
    subst this
    simpa using hin
  refine ⟨?_, ?_, ?_, ?_⟩
  · obtain ⟨set, _, h, _⟩ := deny_engine (vo := varOrd) denyText_program denyParsed_ok
    exact ⟨set, h⟩
  · intro dirs p a hp hin ha htk
    rw [hdirs dirs p hp hin, denyParsed, List.mem_singleton] at ha
    rw [ha] at htk; cases htk
  · intro dirs p v hp hin hv
    rw [hdirs dirs p hp hin, denyParsed, List.mem_singleton] at hv
    rw [hv]; decide
  · intro dirs p v hp hin hv
    rw [hdirs dirs p hp hin, denyParsed, List.mem_singleton] at hv
    rw [hv]; simp

end Verif
