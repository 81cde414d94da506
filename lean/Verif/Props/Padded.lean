import Verif.Props.Exempt
/-! C142: what is added to a request. -/
namespace Verif
open Sample Spec

/-- Each name in `m` is a name in `m'`, with all its values. -/
def Spec.Covers (m m' : GoMap) : Prop := ∀ e ∈ m, ∃ e' ∈ m', e'.1 = e.1 ∧ ∀ v ∈ e.2, v ∈ e'.2

/-- The second call says what the first says, and possibly more: there are more headers, or
more arguments in the query.  The request headers are related by `T`. -/
inductive Spec.Padded (lib : Lib) (T : Option GoMap → GoMap → Prop) : Op → Op → Prop
  | same (op : Op) : Padded lib T op op
  | query {u : URL} {q : Bytes} (m p : Bytes) : Covers (lib.parseQuery u.rawQuery).1 (lib.parseQuery q).1 →
      Padded lib T (.processRequestURL (some u) m p) (.processRequestURL (some { u with rawQuery := q }) m p)
  | headers {h : Option GoMap} {h' : GoMap} : h'.WF → Covers (h.getD []) h' → T h h' → Padded lib T (.processRequestHeader h) (.processRequestHeader (some h'))
  | response {h : Option GoMap} {h' : GoMap} (c : Int) (p : Bytes) : Covers (h.getD []) h' →
      Padded lib T (.processResponseHeaders c p h) (.processResponseHeaders c p (some h'))

/-- The variables that show each header, cookie, or argument by itself, or do not depend on
them at all. -/
def Spec.apart : VarTok → Bool
  | .queryString | .requestUri | .responseContentType | .responseContentLength => false
  | _ => true

/-- No rule counts, or looks at the query as a whole. -/
def Spec.Apart (dirs : List PDir) : Prop := ∀ p ∈ rulesIn dirs, ∀ v ∈ p.vars, v.count = false ∧ apart v.tk = true

/-- The text loads, and with enough rounds both sequences of calls return; the verdicts shown are
related by `R`. -/
def Spec.ShowsBoth (R : List Intervention → List Intervention → Prop) (lib : Lib) (vo : VarOrd) (ord : IterOrd) (text : Bytes) (k : Nat) (ops ops' : List Op) : Prop :=
  ∃ set, DireSet.addSecLangString lib vo [] text = .ok (set, none) ∧
    ∀ n ≥ k, ∃ t t' os os' tr tr',
      (set.execute newEngine).newTransaction.steps ((set.execute newEngine).env lib ord) (set.execute newEngine).ruleSet n ops = .ok (t, os, tr) ∧
      (set.execute newEngine).newTransaction.steps ((set.execute newEngine).env lib ord) (set.execute newEngine).ruleSet n ops' = .ok (t', os', tr') ∧
      R (shown os) (shown os')

/-- C142: what a text refuses it still refuses when headers, cookies, or arguments in the query
are added, if its rules do not skip, allow, count, or look at the query as a whole. -/
def C142_statement : Prop :=
  ∀ (lib : Lib) (vo : VarOrd) (ord : IterOrd) (text : Bytes) (dirs : List PDir) (set : DireSet), Program text dirs → StrictRules (chainsOf (rulesIn dirs)) → Apart dirs →
    DireSet.addSecLangString lib vo [] text = .ok (set, none) →
    ∀ (ops ops' : List Op) (n : Nat) (t t' : Tx) (os os' : List Out) (tr tr' : Trace), Pairs (Padded lib fun _ _ => True) ops ops' →
      (set.execute newEngine).newTransaction.steps ((set.execute newEngine).env lib ord) (set.execute newEngine).ruleSet n ops = .ok (t, os, tr) →
      (set.execute newEngine).newTransaction.steps ((set.execute newEngine).env lib ord) (set.execute newEngine).ruleSet n ops' = .ok (t', os', tr') →
      Pairs (fun v v' => v.disruptive = true → v'.disruptive = true) (shown os) (shown os')

/-! ### One machine, told less and more -/

section
variable {K : Type} {S : Sight K}

/-- Two runs that have gone as far, the second knowing more and refusing no less. -/
structure Fuller (R : K → K → Prop) (m m' : Mach K) : Prop where
  known : R m.known m'.known
  aborted : m'.aborted = m.aborted
  phase : m'.phase = m.phase
  verdict : m.verdict.disruptive = true → m'.verdict.disruptive = true

theorem padded_phase {lib : Lib} {T : Option GoMap → GoMap → Prop} {op op' : Op} (h : Padded lib T op op') : phaseOf op' = phaseOf op := by
  cases h <;> rfl

theorem fuller_call {lib : Lib} {T : Option GoMap → GoMap → Prop} {R : K → K → Prop} (hR : ∀ k k' op op', R k k' → Padded lib T op op' → R (S.learn k op) (S.learn k' op'))
    {cs : List (List PRule)} (hc : StrictRules cs) (he : ∀ k k' q, R k k' → Case S cs k q → Case S cs k' q)
    (h5 : ∀ c ∈ cs, 0 ≤ chainPhase c ∧ chainPhase c ≤ 5) {op op' : Op} (ho : Padded lib T op op') {m m' : Mach K} (hm : Fuller R m m') :
    Fuller R (call S cs m op).1 (call S cs m' op').1 ∧
      Pairs (fun v v' : Intervention => v.disruptive = true → v'.disruptive = true) (call S cs m op).2 (call S cs m' op').2 := by
  obtain ⟨h1, h2, h3, h4⟩ := hm
  have hk := hR _ _ _ _ h1 ho
  have o1 := padded_phase ho
  cases hq : phaseOf op with
  | some q =>
    simp only [call, hq, o1.trans hq]
    by_cases g1 : q ≤ m.phase
    · rw [if_pos g1, if_pos (show q ≤ m'.phase by rw [h3]; exact g1)]
      exact ⟨⟨hk, h2, h3, h4⟩, .nil⟩
    · rw [if_neg g1, if_neg (show ¬ q ≤ m'.phase by rw [h3]; exact g1)]
      by_cases g2 : m.aborted = true
      · rw [if_pos g2, if_pos (h2.trans g2)]
        exact ⟨⟨hk, h2, rfl, h4⟩, .nil⟩
      · rw [if_neg g2, if_neg (show ¬ m'.aborted = true by rw [h2]; exact g2)]
        obtain ⟨a1, a2, a3, a4⟩ := phase_walk (S := S) hc h5 q { m with known := S.learn m.known op }
        obtain ⟨b1, b2, b3, b4⟩ := phase_walk (S := S) hc h5 q { m' with known := S.learn m'.known op' }
        refine ⟨⟨by rw [a1, b1]; exact hk, (b2.trans h2).trans a2.symm, b3.trans a3.symm, fun h => b4.2 ?_⟩, .nil⟩
        rcases a4.1 h with h | h
        · exact .inl (h4 h)
        · exact .inr (he _ _ _ hk h)
  | none =>
    cases ho with
    | query => exact ⟨⟨hk, h2, h3, h4⟩, .nil⟩
    | headers => cases hq
    | response => cases hq
    | same =>
    cases op <;> simp only [phaseOf, reduceCtorEq] at hq <;> simp only [call, phaseOf]
    case result =>
      rw [h2]
      refine ⟨?_, .cons h4 .nil⟩
      split
      · exact ⟨hk, rfl, h3, h4⟩
      · exact ⟨hk, rfl, h3, id⟩
    case intervention => exact ⟨⟨hk, h2, h3, h4⟩, .cons h4 .nil⟩
    case resetIntervention => exact ⟨⟨hk, h2, h3, id⟩, .nil⟩
    case abortWithStatus => exact ⟨⟨hk, rfl, h3, id⟩, .nil⟩
    case abortWithError => exact ⟨⟨hk, rfl, h3, id⟩, .nil⟩
    case jumpToPhase i => exact ⟨⟨hk, h2, rfl, h4⟩, .nil⟩
    case nextPhase => exact ⟨⟨hk, h2, by simp only [goto, h3], h4⟩, .nil⟩
    all_goals exact ⟨⟨hk, h2, h3, h4⟩, .nil⟩

theorem fuller_run {lib : Lib} {T : Option GoMap → GoMap → Prop} {R : K → K → Prop} (hR : ∀ k k' op op', R k k' → Padded lib T op op' → R (S.learn k op) (S.learn k' op'))
    {cs : List (List PRule)} (hc : StrictRules cs) (he : ∀ k k' q, R k k' → Case S cs k q → Case S cs k' q)
    (h5 : ∀ c ∈ cs, 0 ≤ chainPhase c ∧ chainPhase c ≤ 5) {ops ops' : List Op} (ho : Pairs (Padded lib T) ops ops') : ∀ {m m' : Mach K}, Fuller R m m' →
    Pairs (fun v v' : Intervention => v.disruptive = true → v'.disruptive = true) (Spec.run S cs m ops).2 (Spec.run S cs m' ops').2 := by
  induction ho with
  | nil => intro _ _ _; exact .nil
  | cons h _ ih =>
    intro m m' hm
    obtain ⟨g1, g2⟩ := fuller_call (S := S) hR hc he h5 h hm
    simp only [Spec.run]
    exact g2.append (ih g1)

end

/-! ### More facts -/

/-- `k'` has all that is in `k`, and differs only in having more. -/
structure Spec.More (lib : Lib) (k k' : Facts) : Prop where
  src : k'.srcIp = k.srcIp
  method : k'.method = k.method
  proto : k'.proto = k.proto
  status : k'.status = k.status
  respProto : k'.respProto = k.respProto
  path : (k'.url.map fun u => u.path) = k.url.map fun u => u.path
  query : Covers (k.url.toList.flatMap fun u => (lib.parseQuery u.rawQuery).1) (k'.url.toList.flatMap fun u => (lib.parseQuery u.rawQuery).1)
  headers : Covers (k.headers.getD []) (k'.headers.getD [])
  cookies : ∀ l ∈ cookieLines k, l ∈ cookieLines k'
  response : Covers (k.respHeaders.getD []) (k'.respHeaders.getD [])

theorem Spec.Covers.refl (m : GoMap) : Covers m m := fun e he => ⟨e, he, rfl, fun _ h => h⟩

theorem Spec.More.refl (lib : Lib) (k : Facts) : More lib k k where
  src := rfl
  method := rfl
  proto := rfl
  status := rfl
  respProto := rfl
  path := rfl
  query := .refl _
  headers := .refl _
  cookies := fun _ h => h
  response := .refl _

theorem covers_find {m m' : GoMap} (hw : m'.WF) (h : Covers m m') (name : Bytes) :
    ∀ l ∈ ((m.find? fun e => e.1 == name).map Prod.snd).getD [], l ∈ ((m'.find? fun e => e.1 == name).map Prod.snd).getD [] := by
  intro l hl
  cases hf : m.find? fun e => e.1 == name with
  | none => simp [hf] at hl
  | some e =>
    rw [hf] at hl
    have hl : l ∈ e.2 := hl
    have hn : e.1 = name := by simpa using List.find?_some hf
    obtain ⟨e', h1, h2, h3⟩ := h e (List.mem_of_find?_eq_some hf)
    have hf' : (m'.find? fun e => e.1 == name) = some e' := by
      clear hf hl h3 h
      induction m' with
      | nil => cases h1
      | cons a m' ih =>
        simp only [GoMap.WF, List.map_cons, List.nodup_cons] at hw
        rcases List.mem_cons.1 h1 with rfl | h1
        · rw [List.find?_cons_of_pos (by simp [h2, hn])]
        · rw [List.find?_cons_of_neg]
          · exact ih hw.2 h1
          · intro ha
            have ha : a.1 = name := by simpa using ha
            exact hw.1 (by rw [ha, ← hn, ← h2]; exact List.mem_map_of_mem h1)
    rw [hf']
    exact h3 l hl

theorem more_told {lib : Lib} {T : Option GoMap → GoMap → Prop} {k k' : Facts} {op op' : Op} (h : More lib k k') (ho : Padded lib T op op') :
    More lib (told k op) (told k' op') := by
  obtain ⟨a1, a2, a3, a4, a5, a6, a7, a8, a9, a10⟩ := h
  cases ho with
  | same =>
    cases op
    case processConnection => exact ⟨rfl, a2, a3, a4, a5, a6, a7, a8, a9, a10⟩
    case processRequestURL => exact ⟨a1, rfl, rfl, a4, a5, rfl, .refl _, a8, a9, a10⟩
    case processRequestHeader h =>
      cases h <;> exact ⟨a1, a2, a3, a4, a5, a6, a7, .refl _, fun _ h => h, a10⟩
    case processResponseHeaders c p h =>
      cases h <;> exact ⟨a1, a2, a3, rfl, rfl, a6, a7, a8, a9, .refl _⟩
    all_goals exact ⟨a1, a2, a3, a4, a5, a6, a7, a8, a9, a10⟩
  | query m p hq =>
    exact ⟨a1, rfl, rfl, a4, a5, rfl, by simpa [told] using hq, a8, a9, a10⟩
  | @headers h h' hw hc _ =>
    cases h <;> exact ⟨a1, a2, a3, a4, a5, a6, a7, hc, covers_find hw hc _, a10⟩
  | @response h h' c p hc =>
    cases h <;> exact ⟨a1, a2, a3, rfl, rfl, a6, a7, a8, a9, hc⟩

theorem covers_values {P : Bytes → Prop} {m m' : GoMap} (h : Covers m m') {y : Bytes} (hy : ∃ vals, ValuesIn P m vals ∧ y ∈ vals) :
    ∃ vals, ValuesIn P m' vals ∧ y ∈ vals := by
  rw [valuesIn_mem] at hy ⊢
  obtain ⟨e, h1, h2, h3⟩ := hy
  obtain ⟨e', g1, g2, g3⟩ := h e h1
  exact ⟨e', g1, g2 ▸ h2, g3 y h3⟩

theorem covers_names {P : Bytes → Prop} {m m' : GoMap} (h : Covers m m') {y : Bytes} (hy : ∃ vals, NamesIn P m vals ∧ y ∈ vals) :
    ∃ vals, NamesIn P m' vals ∧ y ∈ vals := by
  rw [namesIn_mem] at hy ⊢
  obtain ⟨hy, hP⟩ := hy
  obtain ⟨e, h1, h2⟩ := List.mem_map.1 hy
  obtain ⟨e', g1, g2, _⟩ := h e h1
  exact ⟨List.mem_map.2 ⟨e', g1, g2.trans h2⟩, hP⟩

theorem cookie_member {ls : List Bytes} {cs : List (Bytes × Bytes)} (h : CookieLines ls cs) (c : Bytes × Bytes) :
    c ∈ cs ↔ ∃ l ∈ ls, c ∈ (splitByte 59 l).flatMap fun p => if trimSpace p = [] then [] else [cookiePair (trimSpace p)] := by
  induction h with
  | nil => simp
  | cons hl _ ih => simp only [List.mem_append, ih, List.mem_cons, exists_eq_or_imp, ← hl.pairs]

theorem more_cookies {lib : Lib} {k k' : Facts} (h : More lib k k') {cs : List (Bytes × Bytes)} (hc : CookieLines (cookieLines k) cs) :
    ∃ cs', CookieLines (cookieLines k') cs' ∧ ∀ c ∈ cs, c ∈ cs' := by
  obtain ⟨cs', h'⟩ := C42_every_line (cookieLines k')
  refine ⟨cs', h', fun c hm => ?_⟩
  obtain ⟨l, h1, h2⟩ := (cookie_member hc c).1 hm
  exact (cookie_member h' c).2 ⟨l, h.cookies l h1, h2⟩

/-- What is shown of the less is shown of the more. -/
theorem more_lists {lib : Lib} {k k' : Facts} (h : More lib k k') {P : Bytes → Prop} {tk : VarTok} (ht : apart tk = true) {y : Bytes}
    (hy : ∃ vals, Lists lib k P vals tk ∧ y ∈ vals) : ∃ vals, Lists lib k' P vals tk ∧ y ∈ vals := by
  have hp := h.path
  cases tk
  case queryString => cases ht
  case requestUri => cases ht
  case responseContentType => cases ht
  case responseContentLength => cases ht
  case requestHeaders => exact covers_values h.headers hy
  case responseHeaders => exact covers_values h.response hy
  case argsGet => exact covers_values h.query hy
  case responseHeadersNames => exact covers_names h.response hy
  case argsGetNames => exact covers_names h.query hy
  case requestHeadersNames =>
    refine covers_names ?_ hy
    cases hu : k.url <;> cases hu' : k'.url <;> simp only [hu, hu', Option.map_none, Option.map_some, reduceCtorEq] at hp
    · exact .refl _
    · simpa using h.headers
  case requestCookies =>
    obtain ⟨vals, ⟨cs, hc, hv⟩, hy⟩ := hy
    obtain ⟨cs', hc', hs⟩ := more_cookies h hc
    obtain ⟨vals', g1, g2⟩ := covers_values (P := P) (m := cs.map fun c => (c.1, [c.2])) (m' := cs'.map fun c => (c.1, [c.2])) (fun e he => by
      obtain ⟨c, h1, rfl⟩ := List.mem_map.1 he
      exact ⟨_, List.mem_map_of_mem (hs c h1), rfl, fun _ h => h⟩) ⟨vals, hv, hy⟩
    exact ⟨vals', ⟨cs', hc', g1⟩, g2⟩
  case requestCookiesNames =>
    obtain ⟨vals, ⟨cs, hc, hv⟩, hy⟩ := hy
    obtain ⟨cs', hc', hs⟩ := more_cookies h hc
    obtain ⟨g1, g2⟩ := namesIn_mem.1 ⟨vals, hv, hy⟩
    obtain ⟨c, h1, h2⟩ := List.mem_map.1 g1
    obtain ⟨vals', g1, g2⟩ := namesIn_mem.2 ⟨List.mem_map.2 ⟨c, hs c h1, h2⟩, g2⟩
    exact ⟨vals', ⟨cs', hc', g1⟩, g2⟩
  case requestBasename =>
    simp only [Lists] at hy ⊢
    cases hu : k.url <;> cases hu' : k'.url <;> simp only [hu, hu', Option.map_none, Option.map_some, reduceCtorEq, Option.some.injEq] at hp hy ⊢
    · exact hy
    · rw [hp]; exact hy
  case requestFilename =>
    have e : (k'.url.toList.map fun u => u.path) = k.url.toList.map fun u => u.path := by
      rw [← Option.toList_map, ← Option.toList_map, hp]
    simp only [Lists, shows, e] at hy ⊢
    exact hy
  all_goals
    simp only [Lists, shows, h.src, h.method, h.proto, h.status, h.respProto] at hy ⊢
    exact hy

theorem more_case {K : Type} {S : Sight K} {lib : Lib} {L : K → (Bytes → Prop) → List Bytes → VarTok → Prop} (hS : ∀ k p, S.holds k p ↔ HoldsBy lib (L k) p)
    {R : K → K → Prop} {dirs : List PDir} (hL : ∀ k k' P tk y, R k k' → apart tk = true → (∃ p ∈ rulesIn dirs, ∃ v ∈ p.vars, v.tk = tk) →
      (∃ vals, L k P vals tk ∧ y ∈ vals) → ∃ vals, L k' P vals tk ∧ y ∈ vals)
    (ha : Apart dirs) {k k' : K} (h : R k k') (q : Int) (hc : Case S (chainsOf (rulesIn dirs)) k q) : Case S (chainsOf (rulesIn dirs)) k' q := by
  obtain ⟨c, h1, h2, h3, h4⟩ := hc
  refine ⟨c, h1, h2, h3, fun p hp => ?_⟩
  have hpr : p ∈ rulesIn dirs := mem_chainsOf h1 hp
  obtain ⟨v, hv, y, ⟨vals, g1, g2⟩, hacc⟩ := (hS k p).1 (h4 p hp)
  obtain ⟨a1, a2⟩ := ha p hpr v hv
  simp only [a1, Bool.false_eq_true, if_false] at g1 g2
  obtain ⟨vals', g1', g2'⟩ := hL k k' _ _ y h a2 ⟨p, hpr, v, hv, rfl⟩ ⟨vals, g1, g2⟩
  refine (hS k' p).2 ⟨v, hv, y, ⟨vals', ?_, ?_⟩, hacc⟩
  · simpa only [a1] using g1'
  · simpa only [a1, Bool.false_eq_true, if_false] using g2'

/-- C142 for rules that read no body.  Missing: bodies, see below. -/
theorem C142_padded_partial {lib : Lib} {vo : VarOrd} {ord : IterOrd} {text : Bytes} {dirs : List PDir} (ht : Program text dirs)
    (hok : ∀ d ∈ dirs, DirOk lib d) (hv : ∀ p ∈ rulesIn dirs, ∀ v ∈ p.vars, readsBody v.tk = false) (hs : StrictRules (chainsOf (rulesIn dirs)))
    (ha : Apart dirs) {ops ops' : List Op} (ho : Pairs (Padded lib fun _ _ => True) ops ops') :
    ShowsBoth (Pairs fun v v' => v.disruptive = true → v'.disruptive = true) lib vo ord text ((chainsOf (rulesIn dirs)).length + 2) ops ops' := by
  obtain ⟨set, h1, h2⟩ := C87_machine (vo := vo) (ord := ord) ht hok hv (strict_noReturn hs)
  refine ⟨set, h1, fun n hn => ?_⟩
  obtain ⟨t, os, tr, g1, g2⟩ := h2 ops n hn
  obtain ⟨t', os', tr', g1', g2'⟩ := h2 ops' n hn
  refine ⟨t, t', os, os', tr, tr', g1, g1', ?_⟩
  rw [g2, g2']
  exact fuller_run (R := More lib) (fun _ _ _ _ => more_told) hs
    (fun k k' q h => more_case (lib := lib) (L := Lists lib) (fun _ _ => .rfl) (fun _ _ _ _ _ h ht _ => more_lists h ht) ha h q)
    (fun c h => ⟨chain_low ht h, chain_five ht h⟩) ho ⟨.refl _ _, rfl, rfl, id⟩

/-! ### Bodies -/

/-- The Content-Type that counts stays the same. -/
def Spec.SameType (h : Option GoMap) (h' : GoMap) : Prop := firstValue (some h') b!"Content-Type" = firstValue h b!"Content-Type"

/-- The same where bodies count. -/
structure Spec.MoreKnown (lib : Lib) (k k' : Known) : Prop where
  facts : More lib k.facts k'.facts
  req : k'.req = k.req
  resp : k'.resp = k.resp
  type : firstValue k'.facts.headers b!"Content-Type" = firstValue k.facts.headers b!"Content-Type"

theorem more_learn {lib : Lib} {k k' : Known} {op op' : Op} (h : MoreKnown lib k k') (ho : Padded lib SameType op op') :
    MoreKnown lib (learn k op) (learn k' op') := by
  have hf := more_told h.facts ho
  obtain ⟨a1, a2, a3, a4⟩ := h
  cases ho with
  | same =>
    cases op
    case appendRequestBody => exact ⟨a1, by simp only [learn, a2], a3, a4⟩
    case appendResponseBody =>
      simp only [learn, a3]
      split
      · exact ⟨a1, a2, rfl, a4⟩
      · exact ⟨a1, a2, a3, a4⟩
    case processRequestHeader h => cases h <;> exact ⟨hf, a2, a3, rfl⟩
    case processResponseHeaders c p h => cases h <;> exact ⟨hf, a2, a3, a4⟩
    all_goals exact ⟨hf, a2, a3, a4⟩
  | query => exact ⟨hf, a2, a3, a4⟩
  | @headers h h' _ _ ht => cases h <;> exact ⟨hf, a2, a3, ht⟩
  | @response h => cases h <;> exact ⟨hf, a2, a3, a4⟩

theorem more_posted {lib : Lib} {k k' : Known} (h : MoreKnown lib k k') (req : Bool) : (Posted req k' ↔ Posted req k) ∧ declared lib k' = declared lib k := by
  simp only [Posted, declared, h.facts.method, h.req, h.type, and_self]

theorem Spec.Covers.append {m m' : GoMap} (h : Covers m m') (r : GoMap) : Covers (m ++ r) (m' ++ r) := fun e he => by
  rcases List.mem_append.1 he with he | he
  · obtain ⟨e', g1, g2⟩ := h e he
    exact ⟨e', List.mem_append_left _ g1, g2⟩
  · exact ⟨e, List.mem_append_right _ he, rfl, fun _ h => h⟩

theorem covers_twoNames {P : Bytes → Prop} {m m' r : GoMap} (h : Covers m m') {y : Bytes}
    (hy : ∃ vals : List Bytes, (∃ a b, NamesIn P m a ∧ NamesIn P r b ∧ vals.Perm (a ++ b)) ∧ y ∈ vals) :
    ∃ vals : List Bytes, (∃ a b, NamesIn P m' a ∧ NamesIn P r b ∧ vals.Perm (a ++ b)) ∧ y ∈ vals := by
  obtain ⟨g1, g2⟩ := twoNames_mem.1 hy
  refine twoNames_mem.2 ⟨g1.imp (fun g => ?_) id, g2⟩
  obtain ⟨e, j1, j2⟩ := List.mem_map.1 g
  obtain ⟨e', j3, j4, _⟩ := h e j1
  exact List.mem_map.2 ⟨e', j3, j4.trans j2⟩

theorem more_listsAll {lib : Lib} {req resp : Bool} {k k' : Known} (h : MoreKnown lib k k') {P : Bytes → Prop} {tk : VarTok} (ht : apart tk = true) {y : Bytes}
    (hy : ∃ vals, ListsAll lib req resp k P vals tk ∧ y ∈ vals) : ∃ vals, ListsAll lib req resp k' P vals tk ∧ y ∈ vals := by
  obtain ⟨e1, e2⟩ := more_posted h req
  have e3 : ∀ m, PostArgs lib req k' m ↔ PostArgs lib req k m := fun m => by simp only [PostArgs, e1, e2, h.req]
  have e4 : BodyShown lib req k' ↔ BodyShown lib req k := by simp only [BodyShown, e1, h.type]
  have hget : Covers (getArgs lib k) (getArgs lib k') := h.facts.query
  have g := more_lists (P := P) (y := y) h.facts ht
  cases tk
  case requestBody => simp only [ListsAll, e4, h.req] at hy ⊢; exact hy
  case responseBody => simp only [ListsAll, h.resp] at hy ⊢; exact hy
  case argsPost => simp only [ListsAll, e3] at hy ⊢; exact hy
  case argsPostNames => simp only [ListsAll, e3] at hy ⊢; exact hy
  case args =>
    obtain ⟨vals, ⟨m, hm, hv⟩, hy⟩ := hy
    obtain ⟨vals', g1, g2⟩ := covers_values (m' := getArgs lib k' ++ m) (hget.append m) ⟨vals, hv, hy⟩
    exact ⟨vals', ⟨m, (e3 m).2 hm, g1⟩, g2⟩
  case argsNames =>
    obtain ⟨vals, ⟨m, a, b, hm, ha, hb, hp⟩, hy⟩ := hy
    obtain ⟨vals', ⟨a', b', i1, i2, i3⟩, i4⟩ := covers_twoNames hget ⟨vals, ⟨a, b, ha, hb, hp⟩, hy⟩
    exact ⟨vals', ⟨m, a', b', (e3 m).2 hm, i1, i2, i3⟩, i4⟩
  all_goals exact g hy

theorem padded_sent {lib : Lib} {T : Option GoMap → GoMap → Prop} {ops ops' : List Op} (h : Pairs (Padded lib T) ops ops') : sent false ops' = sent false ops := by
  induction h with
  | nil => rfl
  | cons h _ ih =>
    cases h <;> simp_all [sent, chunkOf]

theorem padded_known {lib : Lib} {ops ops' : List Op} (h : Pairs (Padded lib SameType) ops ops') : ∀ {k k' : Known}, MoreKnown lib k k' →
    MoreKnown lib (ops.foldl learn k) (ops'.foldl learn k') := by
  induction h with
  | nil => exact id
  | cons h _ ih => exact fun hk => ih (more_learn hk h)

theorem padded_split {lib : Lib} {T : Option GoMap → GoMap → Prop} {ops : List Op} : ∀ {pre' post' : List Op}, Pairs (Padded lib T) ops (pre' ++ post') →
    ∃ pre post, ops = pre ++ post ∧ Pairs (Padded lib T) pre pre' ∧ Pairs (Padded lib T) post post'
  | [], _, h => ⟨[], ops, rfl, .nil, h⟩
  | _ :: _, _, h => by
    cases h with
    | cons h1 h2 =>
      obtain ⟨pre, post, rfl, h3, h4⟩ := padded_split h2
      exact ⟨_ :: pre, post, rfl, .cons h1 h3, h4⟩

theorem padded_settled {lib : Lib} {q : Int} {ops ops' : List Op} (h : Pairs (Padded lib SameType) ops ops') (hf : FormSettled lib q ops) : FormSettled lib q ops' where
  low := hf.low
  high := hf.high
  wellFormed := by
    rw [(padded_known h (k := {}) (k' := {}) ⟨.refl _ _, rfl, rfl, rfl⟩).req]
    exact hf.wellFormed
  settled := by
    rintro pre' p io post' rfl o ho q' hq
    obtain ⟨pre, post, rfl, h1, h2⟩ := padded_split h
    cases h2 with
    | cons h3 h4 =>
      cases h3
      obtain ⟨o', h5, h6⟩ := h1.right o ho
      exact hf.settled _ _ _ _ rfl o' h5 q' ((padded_phase h6).symm.trans hq)
  plain := by
    rintro pre' ⟨post', rfl⟩
    obtain ⟨pre, post, rfl, h1, _⟩ := padded_split h
    rw [(more_posted (padded_known h1 (k := {}) (k' := {}) ⟨.refl _ _, rfl, rfl, rfl⟩) true).2]
    exact hf.plain pre (List.prefix_append _ _)

/-- C142 likewise with bodies of up to 131072 bytes, if the Content-Type that counts stays, and
rules read arguments from the body only once the form is settled, and well-formed.  Missing: other
Content-Types, which hide bodies, see below; larger bodies, malformed forms. -/
theorem C142_bodies_partial {lib : Lib} {vo : VarOrd} {ord : IterOrd} {text : Bytes} {dirs : List PDir} (ht : Program text dirs)
    (hok : ∀ d ∈ dirs, DirOk lib d) (hs : StrictRules (chainsOf (rulesIn dirs))) (ha : Apart dirs) {ops ops' : List Op}
    (ho : Pairs (Padded lib SameType) ops ops') {q : Int} (hsize : (sent false ops).length ≤ 131072)
    (hform : ∀ c ∈ chainsOf (rulesIn dirs), 1 ≤ chainPhase c → (∃ p ∈ c, ∃ v ∈ p.vars, readsArgs v.tk = true) → q ≤ chainPhase c ∧ FormSettled lib q ops) :
    ShowsBoth (Pairs fun v v' => v.disruptive = true → v'.disruptive = true) lib vo ord text ((chainsOf (rulesIn dirs)).length + 2) ops ops' := by
  obtain ⟨set, h1, h2⟩ := C88_machine (vo := vo) (ord := ord) ht hok (strict_noReturn hs)
  refine ⟨set, h1, fun n hn => ?_⟩
  obtain ⟨t, os, tr, g1, g2⟩ := h2 hsize hform n hn
  obtain ⟨t', os', tr', g1', g2'⟩ := h2 (ops := ops') (q := q) (padded_sent ho ▸ hsize) (fun c h3 h4 h5 => (hform c h3 h4 h5).imp id fun h => padded_settled ho h) n hn
  refine ⟨t, t', os, os', tr, tr', g1, g1', ?_⟩
  rw [g2, g2']
  exact fuller_run (R := MoreKnown lib) (fun _ _ _ _ => more_learn) hs
    (fun k k' q h => more_case (lib := lib) (L := ListsAll lib _ _) (fun _ _ => .rfl) (fun _ _ _ _ _ h ht _ => more_listsAll h ht) ha h q)
    (fun c h => ⟨chain_low ht h, chain_five ht h⟩) ho ⟨⟨.refl _ _, rfl, rfl, rfl⟩, rfl, rfl, id⟩

theorem more_listsForm {lib : Lib} {req resp : Bool} {fs : List (Bytes × Bytes)} {k k' : Known} (h : MoreKnown lib k k') {P : Bytes → Prop} {tk : VarTok}
    (ht : apart tk = true) {y : Bytes} (hy : ∃ vals, ListsForm lib req resp fs k P vals tk ∧ y ∈ vals) : ∃ vals, ListsForm lib req resp fs k' P vals tk ∧ y ∈ vals := by
  have e1 := (more_posted h req).1
  have e3 : ∀ m, SentArgs req fs k' m ↔ SentArgs req fs k m := fun m => by simp only [SentArgs, e1]
  have hget : Covers (getArgs lib k) (getArgs lib k') := h.facts.query
  have g := more_listsAll (req := req) (resp := resp) (P := P) (y := y) h ht
  cases tk
  case argsPost => simp only [ListsForm, e3] at hy ⊢; exact hy
  case argsPostNames => simp only [ListsForm, e3] at hy ⊢; exact hy
  case args =>
    obtain ⟨vals, ⟨m, hm, hv⟩, hy⟩ := hy
    obtain ⟨vals', g1, g2⟩ := covers_values (m' := getArgs lib k' ++ m) (hget.append m) ⟨vals, hv, hy⟩
    exact ⟨vals', ⟨m, (e3 m).2 hm, g1⟩, g2⟩
  case argsNames =>
    obtain ⟨vals, ⟨m, a, b, hm, ha, hb, hp⟩, hy⟩ := hy
    obtain ⟨vals', ⟨a', b', i1, i2, i3⟩, i4⟩ := covers_twoNames hget ⟨vals, ⟨a, b, ha, hb, hp⟩, hy⟩
    exact ⟨vals', ⟨m, a', b', (e3 m).2 hm, i1, i2, i3⟩, i4⟩
  all_goals exact g hy

theorem padded_form {lib : Lib} {q : Int} {bnd : Bytes} {ps : List (Option Bytes × Bytes)} {ops ops' : List Op} (h : Pairs (Padded lib SameType) ops ops')
    (hf : FormSent q bnd ps ops) : FormSent q bnd ps ops' where
  low := hf.low
  high := hf.high
  settled := by
    rintro pre' p io post' rfl o ho q' hq
    obtain ⟨pre, post, rfl, h1, h2⟩ := padded_split h
    cases h2 with
    | cons h3 h4 =>
      cases h3
      obtain ⟨o', h5, h6⟩ := h1.right o ho
      exact hf.settled _ _ _ _ rfl o' h5 q' ((padded_phase h6).symm.trans hq)
  boundary := hf.boundary
  declared := by
    rintro pre' ⟨post', rfl⟩ ⟨o, ho, p, hp, hq⟩
    obtain ⟨pre, post, rfl, h1, _⟩ := padded_split h
    obtain ⟨o', h5, h6⟩ := h1.right o ho
    have hk := padded_known h1 (k := {}) (k' := {}) ⟨.refl _ _, rfl, rfl, rfl⟩
    have := hf.declared pre (List.prefix_append _ _) ⟨o', h5, p, (padded_phase h6).symm.trans hp, hq⟩
    simpa only [BoundaryIs, Declares, headerGet_first, hk.type] using this
  form := by
    rw [padded_sent h]
    exact hf.form

/-- C142 likewise with a multipart form.  Missing: as there. -/
theorem C142_multipart_partial {lib : Lib} (hm : lib.ReadsMedia) (hl : lib.ReadsForms) {vo : VarOrd} {ord : IterOrd} {text : Bytes} {dirs : List PDir}
    (ht : Program text dirs) (hok : ∀ d ∈ dirs, DirOk lib d) (hs : StrictRules (chainsOf (rulesIn dirs))) (ha : Apart dirs) {ops ops' : List Op}
    (ho : Pairs (Padded lib SameType) ops ops') {q : Int} {bnd : Bytes} {ps : List (Option Bytes × Bytes)} (hf : ReadsSentForm (chainsOf (rulesIn dirs)) q bnd ps ops) :
    ShowsBoth (Pairs fun v v' => v.disruptive = true → v'.disruptive = true) lib vo ord text ((chainsOf (rulesIn dirs)).length + 2) ops ops' := by
  obtain ⟨set, h1, h2⟩ := C133_machine hm hl (vo := vo) (ord := ord) ht hok (strict_noReturn hs)
  refine ⟨set, h1, fun n hn => ?_⟩
  obtain ⟨t, os, tr, g1, g2⟩ := h2 hf.size hf.form n hn
  obtain ⟨t', os', tr', g1', g2'⟩ := h2 (ops := ops') (q := q) (bnd := bnd) (ps := ps) (padded_sent ho ▸ hf.size)
    (fun c h3 h4 h5 => (hf.form c h3 h4 h5).imp id fun h => padded_form ho h) n hn
  refine ⟨t, t', os, os', tr, tr', g1, g1', ?_⟩
  rw [g2, g2']
  exact fuller_run (R := MoreKnown lib) (fun _ _ _ _ => more_learn) hs
    (fun k k' q h => more_case (lib := lib) (L := ListsForm lib _ _ _) (fun _ _ => .rfl) (fun _ _ _ _ _ h ht _ => more_listsForm h ht) ha h q)
    (fun c h => ⟨chain_low ht h, chain_five ht h⟩) ho ⟨⟨.refl _ _, rfl, rfl, rfl⟩, rfl, rfl, id⟩

/-! ### The refutation -/

/-- The request that is refused ... -/
def Sample.evilBody (types : List Bytes) : List Op :=
  [.processRequestURL none b!"POST" [], .processRequestHeader (some [(b!"Content-Type", types)]), .appendRequestBody b!"evil" {}, .processRequestBody, .result]

/-- ... is not with a second Content-Type, put first: the body is no longer looked at. -/
theorem C142_type_hides :
    textVerdicts lib b!"SecRequestBodyAccess On\nSecRule REQUEST_BODY \"@rx evil\" \"id:1,phase:3,deny\"\n" 9 (evilBody [b!"application/x-www-form-urlencoded"]) = some [true] ∧
    textVerdicts lib b!"SecRequestBodyAccess On\nSecRule REQUEST_BODY \"@rx evil\" \"id:1,phase:3,deny\"\n" 9
      (evilBody [b!"text/plain", b!"application/x-www-form-urlencoded"]) = some [false] := by
  decide +kernel

theorem C142_refuted : ¬ C142_statement := by
  intro h
  have p1 : Program b!"SecRequestBodyAccess On\nSecRule REQUEST_BODY \"@rx evil\" \"id:1,phase:3,deny\"\n" (.reqBody true :: [evilIn [{ tk := .requestBody }] false].map .rule) :=
    (C53_exact id _ _).1 (by decide +kernel)
  obtain ⟨set, t, os, tr, a1, a2, a3⟩ := textVerdicts_run C142_type_hides.1
  obtain ⟨set', t', os', tr', b1, b2, b3⟩ := textVerdicts_run C142_type_hides.2
  obtain ⟨rfl⟩ : set = set' := by
    rw [a1] at b1
    cases b1; rfl
  have hp := h lib varOrd Sample.ord _ _ set p1 (exempt_strict _) (by
      intro p hp v hv
      have hp : p ∈ [evilIn [{ tk := .requestBody }] false] := hp
      rw [List.mem_singleton.1 hp] at hv
      rw [List.mem_singleton.1 hv]; exact ⟨rfl, rfl⟩) a1 _ _ 9 t t' os os' tr tr'
    (.cons (.same _) (.cons (.headers (by simp [GoMap.WF]) (by
      intro e he
      rw [List.mem_singleton.1 he]
      exact ⟨_, .head _, rfl, fun v hv => .tail _ hv⟩) trivial) (.cons (.same _) (.cons (.same _) (.cons (.same _) .nil))))) a2 b2
  generalize shown os = l at a3 hp
  generalize shown os' = l' at b3 hp
  cases hp with
  | nil => cases a3
  | cons hv _ =>
    simp only [List.map_cons, List.cons.injEq] at a3 b3
    have := hv a3.1
    rw [b3.1] at this; cases this

/-- Rules that count are the others: a header hides the lack of headers. -/
theorem C142_counts :
    textVerdicts lib b!"SecRule &REQUEST_HEADERS \"@lt 1\" \"id:1,phase:2,deny\"\n" 9 [.processRequestHeader none, .result] = some [true] ∧
    textVerdicts lib b!"SecRule &REQUEST_HEADERS \"@lt 1\" \"id:1,phase:2,deny\"\n" 9 [.processRequestHeader (some [(b!"x", [b!"y"])]), .result] = some [false] := by
  decide +kernel

/-! ### Examples -/

theorem Sample.padded_apart {tk : VarTok} (h : apart tk = true) :
    Apart (.reqBody true :: [evilIn [{ tk := tk }, { tk := tk, index := b!"a", exclusion := true }] false].map .rule) := by
  intro p hp v hv
  have hp : p ∈ [evilIn [{ tk := tk }, { tk := tk, index := b!"a", exclusion := true }] false] := hp
  rw [List.mem_singleton.1 hp] at hv
  simp only [evilIn, List.mem_cons, List.not_mem_nil, or_false] at hv
  rcases hv with rfl | rfl <;> exact ⟨rfl, h⟩

/-- A cookie is seen whatever headers and further cookies are sent along. -/
example {h : GoMap} (hw : h.WF) {ls : List Bytes} (hc : (b!"Cookie", ls) ∈ h) (hl : b!"b=evil" ∈ ls) :
    ShowsBoth (Pairs fun v v' => v.disruptive = true → v'.disruptive = true) lib varOrd Sample.ord
      b!"SecRequestBodyAccess On\nSecRule REQUEST_COOKIES|!REQUEST_COOKIES:a \"@rx evil\" \"id:1,phase:3,deny\"\n" 3
      [.processRequestHeader (some [(b!"Cookie", [b!"b=evil"])]), .processRequestBody, .result] [.processRequestHeader (some h), .processRequestBody, .result] := by
  refine C142_padded_partial (dirs := .reqBody true :: [evilIn [{ tk := .requestCookies }, { tk := .requestCookies, index := b!"a", exclusion := true }] false].map .rule)
    ((C53_exact id _ _).1 (by decide +kernel)) (exempt_ok ⟨_, rfl⟩ (by decide)) ?_ (exempt_strict _) (padded_apart rfl)
    (.cons (.headers hw ?_ trivial) (.cons (.same _) (.cons (.same _) .nil)))
  · intro p hp v hv
    have hp : p ∈ [evilIn [{ tk := .requestCookies }, { tk := .requestCookies, index := b!"a", exclusion := true }] false] := hp
    rw [List.mem_singleton.1 hp] at hv
    simp only [evilIn, List.mem_cons, List.not_mem_nil, or_false] at hv
    rcases hv with rfl | rfl <;> rfl
  · intro e he
    rw [List.mem_singleton.1 he]
    exact ⟨_, hc, rfl, fun v hv => List.mem_singleton.1 hv ▸ hl⟩

/-- It is refused to begin with. -/
example : textVerdicts lib b!"SecRequestBodyAccess On\nSecRule REQUEST_COOKIES|!REQUEST_COOKIES:a \"@rx evil\" \"id:1,phase:3,deny\"\n" 9
    [.processRequestHeader (some [(b!"Cookie", [b!"b=evil"])]), .processRequestBody, .result] = some [true] := by
  decide +kernel

/-- The fields of a form, whatever header is sent along. -/
example (x y : Bytes) (hsize : x.length + y.length ≤ 131072) (vs : List Bytes) :
    ShowsBoth (Pairs fun v v' => v.disruptive = true → v'.disruptive = true) lib varOrd Sample.ord
      b!"SecRequestBodyAccess On\nSecRule ARGS|!ARGS:a \"@rx evil\" \"id:1,phase:3,deny\"\n" 3 (formOps x y ++ [.result])
      [.processConnection [] [] [] [], .processRequestURL none b!"POST" [],
        .processRequestHeader (some [(b!"X", vs), (b!"Content-Type", [b!"application/x-www-form-urlencoded"])]),
        .appendRequestBody x {}, .appendRequestBody y {}, .processRequestBody, .result] := by
  refine C142_bodies_partial (q := 3) (dirs := .reqBody true :: [evilIn [{ tk := .args }, { tk := .args, index := b!"a", exclusion := true }] false].map .rule)
    ((C53_exact id _ _).1 (by decide +kernel)) (exempt_ok ⟨_, rfl⟩ (by decide)) (exempt_strict _) (padded_apart rfl)
    (.cons (.same _) (.cons (.same _) (.cons (.headers (by simp [GoMap.WF]) ?_ rfl) (.cons (.same _) (.cons (.same _) (.cons (.same _) (.cons (.same _) .nil)))))))
    (by simpa [formOps, sent, chunkOf] using hsize) ?_
  · intro e he
    exact ⟨e, .tail _ he, rfl, fun _ h => h⟩
  · intro c hc _ _
    have hc : c ∈ [[evilIn [{ tk := .args }, { tk := .args, index := b!"a", exclusion := true }] false]] := hc
    rw [List.mem_singleton.1 hc]
    exact ⟨by show (3 : Int) ≤ 3; omega, (formOps_settled x y).result⟩

/-- And of a multipart form. -/
example {x y v : Bytes} (hxy : x ++ y = sentBody v) (h : 13 ∉ v) (hd : v.head? ≠ some 45) (hlen : (sentBody v).length ≤ 4096) (vs : List Bytes) :
    ShowsBoth (Pairs fun v v' => v.disruptive = true → v'.disruptive = true) formLib varOrd Sample.ord
      b!"SecRequestBodyAccess On\nSecRule ARGS_POST|!ARGS_POST:a \"@rx evil\" \"id:1,phase:3,deny\"\n" 3 (sentOps x y ++ [.result])
      [.processConnection [] [] [] [], .processRequestURL none b!"POST" [],
        .processRequestHeader (some [(b!"X", vs), (b!"Content-Type", [b!"MultIpart/mixed; Boundary=foo"])]),
        .appendRequestBody x {}, .appendRequestBody y {}, .processRequestBody, .result] := by
  refine C142_multipart_partial (dirs := .reqBody true :: [evilIn [{ tk := .argsPost }, { tk := .argsPost, index := b!"a", exclusion := true }] false].map .rule)
    formEnv_media formLib_reads ((C53_exact id _ _).1 (by decide +kernel)) (exempt_ok ⟨_, rfl⟩ (by decide)) (exempt_strict _) (padded_apart rfl)
    (.cons (.same _) (.cons (.same _) (.cons (.headers (by simp [GoMap.WF]) ?_ rfl) (.cons (.same _) (.cons (.same _) (.cons (.same _) (.cons (.same _) .nil)))))))
    (evil_reads ?_ hxy h hd hlen)
  · intro e he
    exact ⟨e, .tail _ he, rfl, fun _ h => h⟩
  · intro c hc
    have hc : c ∈ [[evilIn [{ tk := .argsPost }, { tk := .argsPost, index := b!"a", exclusion := true }] false]] := hc
    exact ⟨_, _, _, _, List.mem_singleton.1 hc, rfl⟩

end Verif
