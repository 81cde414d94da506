import Verif.Proofs.Growth
import Verif.Proofs.SizedRun
import Verif.Props.Logs
/-! C128, C129: what rules look at is never much larger than what was sent. -/
namespace Verif
open Sample Spec

/-! ### C128: transformations do not multiply -/

/-- C128.  However many transformations a rule names, and whatever the bytes: the result has
at most three bytes for each byte, if the library puts no letter of up to three bytes into
one of four. -/
theorem C128_transformed_length {env : Env} (hl : LowerShort env.lib.lowerHi) {r : Rule} (hr : ∀ tr ∈ r.trans, tr.Library) (t : Tx) (s : Bytes) :
    (r.transformString env t s).length ≤ 3 * s.length :=
  Nat.le_trans (length_le_weight 3 _) (Nat.le_trans (weight_all (Nat.le_refl 3) (.inr hl) t r.trans s hr) (weight_le (Nat.le_refl 3) s))

/-- C128, whatever the library does with letters outside ASCII: at most four. -/
theorem C128_any_library {env : Env} {r : Rule} (hr : ∀ tr ∈ r.trans, tr.Library) (t : Tx) (s : Bytes) :
    (r.transformString env t s).length ≤ 4 * s.length :=
  Nat.le_trans (length_le_weight 4 _) (Nat.le_trans (weight_all (by omega) (.inl (Nat.le_refl 4)) t r.trans s hr) (weight_le (by omega) s))

theorem removeNulls_cont : ∀ n : Nat, transRemoveNulls (List.replicate n 0x80) = (List.replicate n [0xEF, 0xBF, 0xBD]).flatten := by
  intro n
  induction n with
  | zero => rfl
  | succ n ih =>
    have e : stringsMap (replaceRune 0 none) (0x80 :: List.replicate n 0x80) = [0xEF, 0xBF, 0xBD] ++ stringsMap (replaceRune 0 none) (List.replicate n 0x80) := by
      rw [stringsMap, stringsMap, segs_cont (by decide)]; rfl
    rw [List.replicate_succ, transRemoveNulls, e, List.replicate_succ, List.flatten_cons, ← ih]; rfl

/-- C128 is sharp: there are strings of any length that become three times as long. -/
theorem C128_sharp {env : Env} (t : Tx) (n : Nat) : ∃ s : Bytes, s.length = n ∧
    (({ trans := [.removeNulls] } : Rule).transformString env t s).length = 3 * n := by
  refine ⟨List.replicate n 0x80, List.length_replicate, ?_⟩
  show (transRemoveNulls _).length = _
  rw [removeNulls_cont]
  simp [List.length_flatten]
  omega

/-- What a text loads has only transformations and variables of the library. -/
theorem loaded_parts {lib : Lib} {vo : VarOrd} {text : Bytes} {set : DireSet} (hl : DireSet.addSecLangString lib vo [] text = .ok (set, none)) {p : Int} {q : Rule}
    (hq : q ∈ (set.execute newEngine).ruleSet.phases p) : ∀ r, r = q ∨ r ∈ q.subRules → (∀ tr ∈ r.trans, tr.Library) ∧ ∀ v ∈ r.vars, v.Library := by
  obtain ⟨dirs, ds, hp, hd, rfl⟩ := loaded_set hl
  have key : ∀ {p : PRule} {vs ms xs as op}, RuleMeans lib p xs → xs.trans = ms → xs.vars = vs → as = xs.actions → op = xs.op →
      (∀ tr ∈ ms, tr.Library) ∧ ∀ v ∈ vs, v.Library := by
    rintro p vs ms xs as op hm rfl rfl _ _
    constructor
    · intro tr htr f
      rw [hm.trans] at htr
      obtain ⟨k, _, rfl⟩ := List.mem_map.1 htr
      cases k <;> simp [transOf]
    · intro v hv
      obtain ⟨ks, _, _, h⟩ := hm.vars
      obtain ⟨k, _, f, y, _, h1, rfl⟩ := pairs_mem_right h hv
      have : y.Library := by
        generalize k.1 = tk at h1
        cases tk <;> first | (cases h1; trivial) | cases h1
      split <;> exact this
  obtain ⟨_, _, h3, _⟩ := engine_rule hd hq
  obtain ⟨⟨p1, _, o2⟩, o3⟩ := grouped_rule_origin hd h3
  rintro r (rfl | hr)
  · exact key o2 rfl rfl rfl rfl
  · obtain ⟨p2, _, k2⟩ := o3 r hr
    exact key k2 rfl rfl rfl rfl

/-- C128 for texts: so no rule that a text can name makes more of any value. -/
theorem C128_loaded {lib : Lib} {vo : VarOrd} {ord : IterOrd} (hlow : LowerShort lib.lowerHi) {text : Bytes} {set : DireSet}
    (hl : DireSet.addSecLangString lib vo [] text = .ok (set, none)) {p : Int} {q : Rule} (hq : q ∈ (set.execute newEngine).ruleSet.phases p)
    {r : Rule} (hr : r = q ∨ r ∈ q.subRules) (t : Tx) (s : Bytes) :
    (r.transformString ((set.execute newEngine).env lib ord) t s).length ≤ 3 * s.length :=
  C128_transformed_length hlow (loaded_parts hl hq r hr).1 t s

-- three transformations, each of which writes a mark for a byte that is no text: it is written once
example : ({ trans := [.removeNulls, .lowercase, .compressWhitespace] } : Rule).transformString env (newTransaction limits) [0xFF, 0x41, 0xFF]
    = [0xEF, 0xBF, 0xBD, 0x61, 0xEF, 0xBF, 0xBD] := by decide +kernel
example : LowerShort Sample.lib.lowerHi := fun _ h => h

/-! ### C129: what rules look at is bounded by what was sent -/

theorem size_transformed {env : Env} {r : Rule} (hr : ∀ tr ∈ r.trans, tr.Library) (t : Tx) : ∀ vs : List Bytes, size (vs.map (r.transformString env t)) ≤ 4 * size vs
  | [] => Nat.le_refl _
  | v :: vs => by
    have h1 := size_transformed (env := env) hr t vs
    have h2 := C128_any_library (env := env) hr t v
    simp only [size, List.map_cons, List.sum_cons] at h1 ⊢
    omega

theorem fetchVars_size {env : Env} {req resp form : Nat} (hl : env.lib.Frugal form) {r : Rule} (hr : ∀ tr ∈ r.trans, tr.Library) {t0 : Tx} :
    ∀ {vs : List Var} {t : Tx}, (∀ v ∈ vs, v.Library) → SizedAs req resp form t0 t → ∀ {out : List Bytes} {t' : Tx}, fetchVars env r vs t = .ok (out, t') →
      size out ≤ 4 * (vs.map (atMost t0 req resp form)).sum := by
  intro vs
  induction vs with
  | nil => intro t _ _ out t' hv; cases hv; simp [size]
  | cons v vs ih =>
    intro t hlib h out t' hv
    simp only [fetchVars, Rule.transformVariable] at hv
    obtain ⟨⟨x, t1⟩, h1, h2⟩ := Res.bind_eq_ok.1 hv
    obtain ⟨⟨x', t1'⟩, h3, h4⟩ := Res.bind_eq_ok.1 h1
    cases h4
    obtain ⟨⟨y, t2⟩, h5, h6⟩ := Res.bind_eq_ok.1 h2
    cases h6
    have i1 := ih (fun v hv => hlib v (List.mem_cons_of_mem _ hv)) (h.fetch hl h3) h5
    have i2 := (Sized.fetch hl (hlib v List.mem_cons_self) h.1 h3).1
    rw [h.2.atMost] at i2
    have i3 := size_transformed (env := env) hr t1' x'
    simp only [size, List.map_append, List.sum_append, List.map_cons, List.sum_cons] at *
    omega

/-- C129.  After any calls, whatever rule is evaluated during the next one, in whatever state the rules
before it left: the values that are compared - how many they are and how many bytes they have, all
together - are no more than four times what its variables may show of what the host handed over. -/
theorem C129_values_bounded {env : Env} {form : Nat} (hl : env.lib.Frugal form) {rs : RuleSet} (hrs : rs.LibraryActions) {l : Limits} {n : Nat} {ops : List Op}
    {t : Tx} {os : List Out} {tr : Trace} (h : (newTransaction l).steps env rs n ops = .ok (t, os, tr))
    {op : Op} {r : Rule} {u : Tx} (he : JudgedIn env rs t op r u) (hv : ∀ v ∈ r.vars, v.Library) (htr : ∀ x ∈ r.trans, x.Library)
    {out : List Bytes} {u' : Tx} (hf : fetchVars env r r.vars u = .ok (out, u')) :
    out.length + (out.map List.length).sum ≤ 4 * (r.vars.map (atMost (handed t op) (sentBytes false ops) (sentBytes true ops) form)).sum := by
  have hs : Sized (sentBytes false ops) (sentBytes true ops) form t := by
    have := (Sized.new (form := form) l).steps hl hrs h
    simpa using this
  obtain ⟨p, _, _, _, he⟩ := he
  have h0 : SizedAs (sentBytes false ops) (sentBytes true ops) form (handed t op) (handed t op) := by
    refine ⟨?_, .refl _⟩
    cases op <;> exact hs.congr rfl rfl rfl
  have h1 := SizedAs.judged hl hrs he (SizedAs.next _ _ (h0.congr rfl rfl rfl ⟨rfl, rfl, rfl, rfl, rfl, rfl, rfl, rfl⟩))
  have h2 := fetchVars_size hl htr hv h1 hf
  have e : ∀ vs : List Bytes, size vs = vs.length + (vs.map List.length).sum := by
    intro vs
    induction vs with
    | nil => rfl
    | cons v vs ih => simp only [size, List.map_cons, List.sum_cons, List.length_cons] at ih ⊢; omega
  rw [e] at h2; exact h2

/-- C129 speaks of every rule that a call evaluates: what the trace of the call names was evaluated
in some state. -/
theorem C129_covers {env : Env} {rs : RuleSet} {n : Nat} {op : Op} {t t' : Tx} {o : Out} {tr : Trace} (h : t.step env rs n op = .ok (t', o, tr))
    {p i : Int} (hi : (p, i) ∈ tr) : ∃ r u, (rs.phases p)[i.toNat]? = some r ∧ JudgedIn env rs t op r u := by
  have ex : ∀ {q j : Int} {a b : Tx} {tr : Trace}, Exec env rs q j a tr b → (p, i) ∈ tr → ∃ r u, (rs.phases p)[i.toNat]? = some r ∧ p = q ∧ Judged env rs q j a r u := by
    have ev : ∀ {q j : Int} {a t1 : Tx} {n : Nat}, a.phase = q → rs.process env n a q j = .ok t1 → (p, i) ∈ event rs q j →
        ∃ r u, (rs.phases p)[i.toNat]? = some r ∧ p = q ∧ Judged env rs q j a r u := by
      intro q j a t1 n hq hp hm
      simp only [event] at hm
      split at hm
      · simp only [List.mem_singleton, Prod.mk.injEq] at hm
        obtain ⟨rfl, rfl⟩ := hm
        refine RuleSet.process_cases hp ?_ ?_
        · intro hc _; omega
        · intro r k hk hr _ _
          subst hk
          exact ⟨r, a, hr, rfl, .rule hq hr⟩
      · cases hm
    intro q j a b tr he hm
    induction he with
    | out => cases hm
    | stop h1 h2 h3 h4 => exact ev h1 h3 hm
    | go h1 h2 h3 h4 h5 ih =>
      rcases List.mem_append.1 hm with hm | hm
      · exact ev h1 h3 hm
      · obtain ⟨r, u, g1, g2, g3⟩ := ih hm
        exact ⟨r, u, g1, g2, .later h1 h2 h3 h4 g3⟩
  have ph : ∀ (q : Int), phaseAsked op = some q → ((processPhase env rs n q (handed t op)).bind fun (x, y) =>
      (.ok (x, Out.unit, y) : Res (Tx × Out × Trace))) = .ok (t', o, tr) → ∃ r u, (rs.phases p)[i.toNat]? = some r ∧ JudgedIn env rs t op r u := by
    intro q hq hp
    obtain ⟨⟨t1, tr1⟩, h1, h2⟩ := Res.bind_eq_ok.1 hp
    cases h2
    refine processPhase_cases h1 ?_ ?_ ?_
    · rintro _ _ rfl; cases hi
    · rintro _ _ _ rfl; cases hi
    · intro ha hb he
      obtain ⟨r, u, g1, g2, g3⟩ := ex he hi
      exact ⟨r, u, g1, q, hq, ha, hb, g3⟩
  cases op
  case appendRequestBody b io =>
    obtain ⟨_, _, g2⟩ := Res.bind_eq_ok.1 h
    cases g2; cases hi
  case appendResponseBody b io =>
    obtain ⟨_, _, g2⟩ := Res.bind_eq_ok.1 h
    cases g2; cases hi
  all_goals first
    | exact ph _ rfl h
    | (cases h; cases hi)
    | (simp only [Tx.step] at h; split at h <;> (cases h; cases hi))

/-- C129 for texts: it holds of all rules that a text can name. -/
theorem C129_loaded {lib : Lib} {vo : VarOrd} {ord : IterOrd} {form : Nat} (hlib : lib.Frugal form) {text : Bytes} {set : DireSet}
    (hl : DireSet.addSecLangString lib vo [] text = .ok (set, none)) {l : Limits} {n : Nat} {ops : List Op} {t : Tx} {os : List Out} {tr : Trace}
    (h : (newTransaction l).steps ((set.execute newEngine).env lib ord) (set.execute newEngine).ruleSet n ops = .ok (t, os, tr))
    {op : Op} {r : Rule} {u : Tx} (he : JudgedIn ((set.execute newEngine).env lib ord) (set.execute newEngine).ruleSet t op r u)
    {out : List Bytes} {u' : Tx} (hf : fetchVars ((set.execute newEngine).env lib ord) r r.vars u = .ok (out, u')) :
    out.length + (out.map List.length).sum ≤ 4 * (r.vars.map (atMost (handed t op) (sentBytes false ops) (sentBytes true ops) form)).sum := by
  have ho := loaded_ofLibrary hl
  obtain ⟨p, _, _, _, hev⟩ := id he
  obtain ⟨q, hq, hr⟩ := Judged.mem hev
  obtain ⟨h1, h2⟩ := loaded_parts hl hq r hr
  exact C129_values_bounded hlib ⟨ho.acts, fun a ha => (ho.defaults a ha).1⟩ h he h2 h1 hf

/-! A concrete case: a query and a header are looked at through transformations. -/

/-- The library of the model, with no forms. -/
def frugalLib : Lib := { Sample.lib with parseQuery := parseQuery, mediaType := parseMediaType id, urlString := urlString }

theorem frugal : frugalLib.Frugal 0 where
  query := rfl
  media := rfl
  url := rfl
  form := by intro c b m g h; cases h; exact ⟨Nat.le_refl _, Nat.le_refl _⟩

def frugalEnv : Env := { lib := frugalLib, ord := Sample.ord, limits := Sample.limits }

def lookingRule : Rule := { phase := 2, vars := [.args {} {}, .requestHeaders {}], trans := [.urlDecode, .removeNulls], op := some (.rx ⟨b!"x", fun _ => false⟩) }

def lookingSet : RuleSet := ({} : RuleSet).addRules [lookingRule]

theorem lookingSet_actions : lookingSet.LibraryActions := by
  refine ⟨fun p r hr a ha => ?_, fun a ha => by cases ha⟩
  have : r = lookingRule := by
    by_cases hp : p = 2
    · subst hp; simpa [lookingSet, RuleSet.addRules, RuleSet.addRule, phaseEnd, phaseBegin, lookingRule] using hr
    · simp [lookingSet, RuleSet.addRules, RuleSet.addRule, phaseEnd, phaseBegin, lookingRule, hp] at hr
  subst this
  cases ha

/-- The URL has five bytes of query, one of which is no text. -/
def lookingOps : List Op := [.processRequestURL (some { path := b!"/", rawQuery := [0x61, 0x3D, 0xFF, 0x26, 0x62] }) b!"GET" b!"HTTP/1.1"]

def lookingHeader : Op := .processRequestHeader (some [(b!"A", [b!"b"])])

/-- What the operator is given. -/
def lookingAt (t : Tx) : Option (List Bytes) :=
  match fetchVars frugalEnv lookingRule lookingRule.vars ((handed t lookingHeader).jumpToPhase 2) with
  | .ok (out, _) => some out
  | _ => none

-- three values of five bytes, against four times (6 + 1) + 2
example : (txOf ((newTransaction Sample.limits).steps frugalEnv lookingSet 5 lookingOps)).bind lookingAt = some [[0xEF, 0xBF, 0xBD], [], b!"b"] := by decide +kernel
example : (txOf ((newTransaction Sample.limits).steps frugalEnv lookingSet 5 lookingOps)).map
    (fun t => (lookingRule.vars.map (atMost (handed t lookingHeader) (sentBytes false lookingOps) (sentBytes true lookingOps) 0)).sum) = some 9 := by decide +kernel
example : ∃ t os tr r u, (newTransaction Sample.limits).steps frugalEnv lookingSet 5 lookingOps = .ok (t, os, tr) ∧ JudgedIn frugalEnv lookingSet t lookingHeader r u :=
  ⟨_, _, _, lookingRule, _, rfl, 2, rfl, by decide, rfl, .rule (k := 0) rfl rfl⟩

end Verif
