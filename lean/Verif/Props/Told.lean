import Verif.Props.Loaded
import Verif.Props.Variables
import Verif.Props.Collections
/-!
C42 for arbitrary Cookie lines, and C62 for arbitrary histories: the verdict of a
loaded `deny` rule in terms of what the host has told the transaction.
-/
namespace Verif
open Sample Spec

/-! ### Cookies: every line is read -/

theorem blank_append {a b : Bytes} (ha : Blank a) (hb : Blank b) : Blank (a ++ b) := by
  obtain ⟨cs, h1, rfl⟩ := ha
  obtain ⟨ds, h2, rfl⟩ := hb
  refine ⟨cs ++ ds, ?_, by simp⟩
  intro c hc
  rcases List.mem_append.1 hc with h | h
  · exact h1 c h
  · exact h2 c h

theorem CookieItem.total {p : Bytes} (h : 59 ∉ p) : ∃ cs, CookieItem p cs := by
  obtain ⟨l, r, e, hl, hr⟩ := trimSpace_split p
  have ht := trimSpace_is_trimmed p
  generalize trimSpace p = t at e ht
  subst e
  simp only [List.mem_append, not_or] at h
  by_cases h0 : t = []
  · subst h0
    exact ⟨[], .blank (by simpa using blank_append hl hr)⟩
  · by_cases h1 : (61 : UInt8) ∈ t
    · obtain ⟨n, v, rfl, hn⟩ := List.eq_append_cons_of_mem h1
      simp only [List.mem_append, List.mem_cons, not_or] at h
      exact ⟨_, .pair hl hr hn h.1.2.1 h.1.2.2.2 ht⟩
    · exact ⟨_, .bare hl hr h0 h1 h.1.2 ht⟩

theorem CookieLine.total (l : Bytes) : ∃ cs, CookieLine l cs := by
  suffices ∀ k (l : Bytes), l.length ≤ k → ∃ cs, CookieLine l cs from this _ l (Nat.le_refl _)
  intro k
  induction k with
  | zero =>
    intro l hl
    have : l = [] := List.length_eq_zero_iff.1 (by omega)
    subst this
    obtain ⟨cs, h⟩ := CookieItem.total (p := []) (by simp)
    exact ⟨cs, .one h⟩
  | succ k ih =>
    intro l hl
    by_cases h : (59 : UInt8) ∈ l
    · obtain ⟨p, rest, rfl, hp⟩ := List.eq_append_cons_of_mem h
      obtain ⟨cs, h1⟩ := CookieItem.total hp
      obtain ⟨cs', h2⟩ := ih rest (by simp only [List.length_append, List.length_cons] at hl; omega)
      exact ⟨_, .more h1 h2⟩
    · obtain ⟨cs, h1⟩ := CookieItem.total h
      exact ⟨cs, .one h1⟩

/-- C42: every list of Cookie lines carries some pairs ... -/
theorem C42_every_line (ls : List Bytes) : ∃ cs, CookieLines ls cs := by
  induction ls with
  | nil => exact ⟨[], .nil⟩
  | cons l ls ih =>
    obtain ⟨cs, h1⟩ := CookieLine.total l
    obtain ⟨cs', h2⟩ := ih
    exact ⟨_, .cons h1 h2⟩

theorem CookieItem.pairs {p : Bytes} {cs : List (Bytes × Bytes)} (h : CookieItem p cs) :
    59 ∉ p ∧ cs = if trimSpace p = [] then [] else [cookiePair (trimSpace p)] := by
  refine ⟨(h.read []).2, ?_⟩
  cases h with
  | blank hw => rw [if_pos (trimSpace_all_blank hw)]
  | @pair l r n v hl hr h1 h2 h3 ht =>
    rw [trimSpace_of_trimmed hl hr ht, if_neg (by simp), cookiePair_pair h1]
  | @bare l r n hl hr hne h1 h2 ht =>
    rw [trimSpace_of_trimmed hl hr ht, if_neg hne, cookiePair_bare h1]

theorem CookieLine.pairs {l : Bytes} {cs : List (Bytes × Bytes)} (h : CookieLine l cs) :
    cs = (splitByte 59 l).flatMap fun p => if trimSpace p = [] then [] else [cookiePair (trimSpace p)] := by
  induction h with
  | one hi =>
    obtain ⟨h1, h2⟩ := hi.pairs
    rw [splitByte_one h1, h2]; simp
  | more hi _ ih =>
    obtain ⟨h1, h2⟩ := hi.pairs
    rw [splitByte_sep h1, List.flatMap_cons, ← h2, ih]

/-- ... and only one list of pairs. -/
theorem C42_one_reading {ls : List Bytes} {cs cs' : List (Bytes × Bytes)} (h : CookieLines ls cs) (h' : CookieLines ls cs') :
    cs = cs' := by
  induction h generalizing cs' with
  | nil => cases h'; rfl
  | cons hl _ ih =>
    cases h' with
    | cons hl' hls' => rw [hl.pairs, hl'.pairs, ih hls']

/-- A line with a value containing `=`, a bare name and an empty piece. -/
example : CookieLines [b!" a=1=2 ;; b ", b!"c="] [(b!"a", b!"1=2"), (b!"b", []), (b!"c", [])] := by
  obtain ⟨cs, h⟩ := C42_every_line [b!" a=1=2 ;; b ", b!"c="]
  have : cs = [(b!"a", b!"1=2"), (b!"b", []), (b!"c", [])] := by
    cases h with
    | cons h1 h2 =>
      cases h2 with
      | cons h3 h4 =>
        cases h4
        rw [h1.pairs, h3.pairs]
        decide +kernel
  exact this ▸ h

/-! ### Values of the variables, from what the host told -/

/-- The names picked by the selectors of a variable, as the code does it: when both
literal and regular-expression inclusions are given, one of each kind must hold
(see C40). -/
def Spec.Picked (rx : Bytes → Option (Bytes → Bool)) (ss : List Selector) (k : Bytes) : Prop :=
  ((∀ s, .incl s ∈ ss → ∃ re, IsRegex s re) ∨ (.incl k ∈ ss ∧ ¬ ∃ re, IsRegex k re)) ∧
  ((∀ s, .incl s ∈ ss → ¬ ∃ re, IsRegex s re) ∨ ∃ s, .incl s ∈ ss ∧ (∃ re, IsRegex s re) ∧ Denotes rx s k) ∧
  ¬ ∃ s, .excl s ∈ ss ∧ Denotes rx s k

theorem keep_picked {rx : Bytes → Option (Bytes → Bool)} {ss : List Selector} {f : Filter} (h : applySelectors rx {} ss = some f)
    (k : Bytes) : f.keep k = true ↔ Picked rx ss k := by
  have h1 := C40_selected h ⟨fun m => m, fun m => .refl m⟩ [(k, [])] k
  rw [f.mem_names] at h1
  simpa [Picked] using h1

/-- With inclusions of one kind only, the names picked are the names chosen. -/
theorem picked_chosen {rx : Bytes → Option (Bytes → Bool)} {ss : List Selector} {f : Filter} (h : applySelectors rx {} ss = some f)
    (hone : (∀ s, .incl s ∈ ss → ¬ ∃ re, IsRegex s re) ∨ ∀ s, .incl s ∈ ss → ∃ re, IsRegex s re) (k : Bytes) :
    Picked rx ss k ↔ Chosen rx ss k := by
  have h1 := C40_selectors_partial h hone ⟨fun m => m, fun m => .refl m⟩ [(k, [])] k
  rw [f.mem_names, keep_picked h] at h1
  simpa using h1

/-- `vals` are, in some order, the values of the entries of `m` with a name in `P`. -/
def Spec.ValuesIn (P : Bytes → Prop) (m : List (Bytes × List Bytes)) (vals : List Bytes) : Prop :=
  ∃ keep : Bytes → Bool, (∀ k, keep k = true ↔ P k) ∧ vals.Perm ((m.filter fun e => keep e.1).flatMap Prod.snd)

/-- `vals` are, in some order, the names in `P` of the entries of `m`. -/
def Spec.NamesIn {α : Type} (P : Bytes → Prop) (m : List (Bytes × α)) (vals : List Bytes) : Prop :=
  vals.Nodup ∧ ∀ k, k ∈ vals ↔ k ∈ m.map Prod.fst ∧ P k

/-- The Cookie lines among the request headers. -/
def Spec.cookieLines (k : Facts) : List Bytes :=
  (((k.headers.getD []).find? fun e => e.1 == b!"Cookie").map Prod.snd).getD []

/-- The variables that read a body; the others depend on what `Facts` records. -/
def Spec.readsBody : VarTok → Bool
  | .args | .argsNames | .argsPost | .argsPostNames | .requestBody | .responseBody => true
  | _ => false

/-- `vals` are, in some order, the values of a variable restricted to the names in
`P`, given what the host has told. -/
def Spec.Lists (lib : Lib) (k : Facts) (P : Bytes → Prop) (vals : List Bytes) : VarTok → Prop
  | .requestHeaders => ValuesIn P (k.headers.getD []) vals
  | .requestHeadersNames => NamesIn P (k.url.toList.flatMap fun _ => k.headers.getD []) vals
  | .responseHeaders => ValuesIn P (k.respHeaders.getD []) vals
  | .responseHeadersNames => NamesIn P (k.respHeaders.getD []) vals
  | .argsGet => ValuesIn P (k.url.toList.flatMap fun u => (lib.parseQuery u.rawQuery).1) vals
  | .argsGetNames => NamesIn P (k.url.toList.flatMap fun u => (lib.parseQuery u.rawQuery).1) vals
  | .requestCookies => ∃ cs, CookieLines (cookieLines k) cs ∧ ValuesIn P (cs.map fun c => (c.1, [c.2])) vals
  | .requestCookiesNames => ∃ cs, CookieLines (cookieLines k) cs ∧ NamesIn P cs vals
  | .requestBasename =>
    match k.url with
    | none => vals = []
    | some u => ∃ b, vals = [b] ∧ Basename u.path b
  | tk => shows lib k tk = some vals

/-- `y` is one of the values tested for the variable `v` of a rule with the
variables `vs`: one of its values or, for `&`, their number. -/
def Spec.Tested (lib : Lib) (k : Facts) (vs : List PVar) (v : VarTok × Bool) (y : Bytes) : Prop :=
  ∃ vals, Lists lib k (Picked lib.rx (selectors vs v.1 v.2)) vals v.1 ∧ if v.2 then y = itoa vals.length else y ∈ vals

theorem Spec.ValuesIn.perm {P : Bytes → Prop} {m : List (Bytes × List Bytes)} {vals vals' : List Bytes} (h : ValuesIn P m vals)
    (h' : ValuesIn P m vals') : vals.Perm vals' := by
  obtain ⟨a, ha, h1⟩ := h
  obtain ⟨b, hb, h2⟩ := h'
  have : a = b := by
    funext k
    rw [Bool.eq_iff_iff, ha, hb]
  subst this
  exact h1.trans h2.symm

theorem Spec.NamesIn.perm {α : Type} {P : Bytes → Prop} {m : List (Bytes × α)} {vals vals' : List Bytes} (h : NamesIn P m vals)
    (h' : NamesIn P m vals') : vals.Perm vals' :=
  perm_of_nodup h.1 h'.1 fun k => by rw [h.2, h'.2]

/-- What the host told determines the values up to order. -/
theorem Spec.Lists.perm {lib : Lib} {k : Facts} {P : Bytes → Prop} {tk : VarTok} {vals vals' : List Bytes} (h : Lists lib k P vals tk)
    (h' : Lists lib k P vals' tk) : vals.Perm vals' := by
  cases tk
  case requestHeaders => exact ValuesIn.perm h h'
  case responseHeaders => exact ValuesIn.perm h h'
  case argsGet => exact ValuesIn.perm h h'
  case requestHeadersNames => exact NamesIn.perm h h'
  case responseHeadersNames => exact NamesIn.perm h h'
  case argsGetNames => exact NamesIn.perm h h'
  case requestCookies =>
    obtain ⟨cs, h1, h2⟩ := h
    obtain ⟨cs', h3, h4⟩ := h'
    rw [C42_one_reading h3 h1] at h4
    exact h2.perm h4
  case requestCookiesNames =>
    obtain ⟨cs, h1, h2⟩ := h
    obtain ⟨cs', h3, h4⟩ := h'
    rw [C42_one_reading h3 h1] at h4
    exact h2.perm h4
  case requestBasename =>
    simp only [Lists] at h h'
    cases hu : k.url with
    | none => rw [hu] at h h'; simp only at h h'; rw [h, h']
    | some u =>
      rw [hu] at h h'
      obtain ⟨b, rfl, h1⟩ := h
      obtain ⟨b', rfl, h2⟩ := h'
      rw [C43_unique h1 h2]
  all_goals
    simp only [Lists] at h h'
    rw [h] at h'
    cases h'
    exact .refl _

/-- A variable that reads no body has the values the host told. -/
theorem fetch_lists {env : Env} {tk : VarTok} (hb : readsBody tk = false) {f : Filter} {x : Var} (hx : variableOf f tk = some x)
    {P : Bytes → Prop} (hP : Selectable tk = true → ∀ k, f.keep k = true ↔ P k) (t : Tx) :
    ∃ vals, x.fetch env t = .ok (vals, t) ∧ Lists env.lib t.facts P vals tk := by
  have vals : ∀ m, (∀ k, f.keep k = true ↔ P k) → ValuesIn P m (f.fetch env.ord m) := fun m h => ⟨f.keep, h, f.fetch_perm _ _⟩
  have names : ∀ m, (∀ k, f.keep k = true ↔ P k) → NamesIn P m (f.names env.ord m) :=
    fun m h => ⟨f.names_nodup _ _, fun k => by rw [f.mem_names, h]⟩
  cases tk <;> first | (cases hb; done) | (cases hx; done) | skip
  case requestHeaders => cases hx; exact ⟨_, rfl, vals _ (hP rfl)⟩
  case responseHeaders => cases hx; exact ⟨_, rfl, vals _ (hP rfl)⟩
  case responseHeadersNames => cases hx; exact ⟨_, rfl, names _ (hP rfl)⟩
  case requestHeadersNames =>
    cases hx
    refine ⟨_, rfl, ?_⟩
    simp only [Lists, Tx.facts]
    cases t.url with
    | none => exact ⟨.nil, by simp⟩
    | some u => simpa using names _ (hP rfl)
  case argsGet =>
    cases hx
    refine ⟨_, rfl, ?_⟩
    simp only [Lists, Tx.facts, fetchArgsGet]
    cases t.url with
    | none => exact ⟨f.keep, hP rfl, .refl _⟩
    | some u => simpa using vals _ (hP rfl)
  case argsGetNames =>
    cases hx
    refine ⟨_, rfl, ?_⟩
    simp only [Lists, Tx.facts, fetchArgsGetNames]
    cases t.url with
    | none => exact ⟨.nil, by simp⟩
    | some u => simpa using names _ (hP rfl)
  case requestCookies =>
    cases hx
    obtain ⟨cs, hcs⟩ := C42_every_line (cookieLines t.facts)
    refine ⟨_, rfl, cs, hcs, ?_⟩
    cases hh : t.reqHeader with
    | none =>
      have : cs = [] := by
        simp only [cookieLines, Tx.facts, hh] at hcs
        cases hcs; rfl
      subst this
      exact ⟨f.keep, hP rfl, .refl _⟩
    | some h =>
      have hr : readCookie h = addPairs [] cs := by
        have := hcs.read []
        simp only [cookieLines, Tx.facts, hh, Option.getD_some, ← lookup_find] at this
        simp only [readCookie]
        cases hg : h.get? b!"Cookie" with
        | none => rw [hg] at this; exact this
        | some ls => rw [hg] at this; exact this
      refine ⟨f.keep, hP rfl, (f.fetch_perm _ _).trans ?_⟩
      rw [hr]
      refine (addPairs_values [] cs f.keep).trans (.of_eq ?_)
      simp only [List.filter_nil, List.flatMap_nil, List.nil_append]
      clear hr hcs hh
      induction cs with
      | nil => rfl
      | cons c cs ih => by_cases hc : f.keep c.1 = true <;> simp [hc, ih]
  case requestCookiesNames =>
    cases hx
    obtain ⟨cs, hcs⟩ := C42_every_line (cookieLines t.facts)
    refine ⟨_, rfl, cs, hcs, ?_⟩
    cases hh : t.reqHeader with
    | none =>
      have : cs = [] := by
        simp only [cookieLines, Tx.facts, hh] at hcs
        cases hcs; rfl
      subst this
      exact ⟨.nil, by simp⟩
    | some h =>
      have hr : readCookie h = addPairs [] cs := by
        have := hcs.read []
        simp only [cookieLines, Tx.facts, hh, Option.getD_some, ← lookup_find] at this
        simp only [readCookie]
        cases hg : h.get? b!"Cookie" with
        | none => rw [hg] at this; exact this
        | some ls => rw [hg] at this; exact this
      refine ⟨f.names_nodup _ _, fun k => ?_⟩
      rw [f.mem_names, hr, addPairs_keys, hP rfl]
      simp
  case requestBasename =>
    cases hx
    simp only [Lists, Tx.facts]
    cases hu : t.url with
    | none => exact ⟨[], by simp only [Var.fetch, hu], rfl⟩
    | some u =>
      obtain ⟨b, h1, h2⟩ := C43_basename (env := env) hu
      exact ⟨[b], h1, b, rfl, h2⟩
  case responseContentLength =>
    obtain ⟨vals, hv⟩ : ∃ vals, shows env.lib t.facts .responseContentLength = some vals := by
      simp only [shows]; split <;> exact ⟨_, rfl⟩
    exact ⟨vals, C68_variable hx hv, hv⟩
  case responseContentType =>
    obtain ⟨vals, hv⟩ : ∃ vals, shows env.lib t.facts .responseContentType = some vals := by
      simp only [shows]; split <;> exact ⟨_, rfl⟩
    exact ⟨vals, C68_variable hx hv, hv⟩
  all_goals exact ⟨_, C68_variable hx rfl, rfl⟩

/-- The values of the variables of a loaded rule, none of which reads a body. -/
theorem fetched_tested {env : Env} {vs : List PVar} {t t' : Tx} : ∀ {ks : List (VarTok × Bool)} {xs : List Var} {ys : List (Tx × Bytes)},
    (∀ k ∈ ks, readsBody k.1 = false) → Pairs (Carries env.lib.rx vs) ks xs → FetchedValues env xs t ys t' →
    t' = t ∧ ∀ y, (∃ s, (s, y) ∈ ys) ↔ ∃ k ∈ ks, Tested env.lib t.facts vs k y := by
  intro ks xs ys hb hp hf
  induction hp generalizing ys with
  | nil => cases hf; exact ⟨rfl, by simp⟩
  | @cons k x ks xs hc _ ih =>
    obtain ⟨f, y, hsel, hy, hxy⟩ := hc
    obtain ⟨vals, h1, h2⟩ := fetch_lists (env := env) (hb k List.mem_cons_self) hy (P := Picked env.lib.rx (selectors vs k.1 k.2))
      (fun hs => keep_picked (hsel hs)) t
    cases hf with
    | @cons _ _ _ xs1 t1 ys1 _ g1 g2 =>
      have hval : t1 = t ∧ xs1 = if k.2 then [itoa vals.length] else vals := by
        subst hxy
        cases hk : k.2 with
        | false => rw [hk] at g1; simp only [Bool.false_eq_true, if_false] at g1; rw [h1] at g1; cases g1; exact ⟨rfl, by simp⟩
        | true =>
          rw [hk] at g1
          simp only [if_true, Var.fetch, h1, Res.bind_ok', Res.ok.injEq, Prod.mk.injEq] at g1
          exact ⟨g1.2.symm, by simp [g1.1]⟩
      obtain ⟨rfl, hxs⟩ := hval
      obtain ⟨i1, i2⟩ := ih (fun k hk => hb k (List.mem_cons_of_mem _ hk)) g2
      refine ⟨i1, fun y => ?_⟩
      have : y ∈ xs1 ↔ Tested env.lib t1.facts vs k y := by
        rw [hxs]
        constructor
        · intro hy
          refine ⟨vals, h2, ?_⟩
          split
          · rename_i hk; rw [if_pos hk] at hy; simpa using hy
          · rename_i hk; rw [if_neg hk] at hy; exact hy
        · rintro ⟨vals', h3, h4⟩
          have hp := h3.perm h2
          split at h4
          · rename_i hk; rw [if_pos hk, h4, hp.length_eq]; simp
          · rename_i hk; rw [if_neg hk]; exact hp.mem_iff.1 h4
      simp only [List.mem_cons, exists_eq_or_imp]
      rw [← this, ← i2]
      simp only [List.mem_append, List.mem_map, Prod.mk.injEq]
      constructor
      · rintro ⟨s, ⟨z, h, _, rfl⟩ | h⟩
        · exact .inl h
        · exact .inr ⟨s, h⟩
      · rintro (h | ⟨s, h⟩)
        · exact ⟨t1, .inl ⟨y, h, rfl, rfl⟩⟩
        · exact ⟨s, .inr h⟩

/-! ### Histories -/

/-- The phase a call processes. -/
def Spec.phaseOf : Op → Option Int
  | .processConnection .. => some 1
  | .processRequestHeader _ => some 2
  | .processRequestBody => some 3
  | .processResponseHeaders .. => some 4
  | .processResponseBody => some 5
  | .processLogging => some 6
  | .processPhase p => some p
  | _ => none

theorem step_phaseOf {env : Env} {rs : RuleSet} {n : Nat} {op : Op} {p : Int} (hp : phaseOf op = some p) {t t' : Tx} {o : Out} {tr : Trace}
    (h : t.step env rs n op = .ok (t', o, tr)) :
    ∃ u, processPhase env rs n p u = .ok (t', tr) ∧ u.phase = t.phase ∧ u.abort = t.abort ∧ u.interv = t.interv ∧ u.data = t.data ∧
      u.facts = told t.facts op := by
  cases op <;> simp only [phaseOf, Option.some.injEq, reduceCtorEq] at hp <;> subst hp
  case processRequestHeader hd =>
    obtain ⟨⟨t1, tr1⟩, g1, g2⟩ := Res.bind_eq_ok.1 h
    cases g2; refine ⟨_, g1, ?_⟩; cases hd <;> exact ⟨rfl, rfl, rfl, rfl, rfl⟩
  case processResponseHeaders c q hd =>
    obtain ⟨⟨t1, tr1⟩, g1, g2⟩ := Res.bind_eq_ok.1 h
    cases g2; refine ⟨_, g1, ?_⟩; cases hd <;> exact ⟨rfl, rfl, rfl, rfl, rfl⟩
  all_goals
    obtain ⟨⟨t1, tr1⟩, g1, g2⟩ := Res.bind_eq_ok.1 h
    cases g2; exact ⟨_, g1, rfl, rfl, rfl, rfl, rfl⟩

theorem step_phaseOf_none {env : Env} {rs : RuleSet} {n : Nat} {op : Op} (hp : phaseOf op = none) (hk : op.keepsCursor = true) {t t' : Tx}
    {o : Out} {tr : Trace} (h : t.step env rs n op = .ok (t', o, tr)) : t'.phase = t.phase := by
  cases op <;> first | (cases hp; done) | (cases hk; done) | skip
  case appendRequestBody => obtain ⟨⟨b, k, e⟩, _, g2⟩ := Res.bind_eq_ok.1 h; cases g2; rfl
  case appendResponseBody => obtain ⟨⟨b, k, e⟩, _, g2⟩ := Res.bind_eq_ok.1 h; cases g2; rfl
  case result =>
    simp only [Tx.step, Tx.result, Res.ok.injEq, Prod.mk.injEq] at h
    obtain ⟨rfl, _, _⟩ := h
    split <;> rfl
  all_goals
    simp only [Tx.step, Res.ok.injEq, Prod.mk.injEq] at h
    obtain ⟨rfl, _, _⟩ := h
    rfl

/-- Calls for phases before `p`, none of which has rules, leave the transaction
before `p`. -/
theorem steps_before {env : Env} {rs : RuleSet} (hrs : rs.Forward) {p : Int} (h1 : 1 ≤ p) (hq : ∀ q, q ≠ p → rs.phases q = []) {n : Nat} :
    ∀ {ops : List Op} {t t' : Tx} {os : List Out} {tr : Trace}, t.phase < p →
      (∀ op ∈ ops, op.keepsCursor = true ∧ ∀ q, phaseOf op = some q → q < p) →
      t.steps env rs n ops = .ok (t', os, tr) → t'.phase < p := by
  intro ops
  induction ops with
  | nil => intro t t' os tr hp _ h; cases h; exact hp
  | cons op ops ih =>
    intro t t' os tr hp hops h
    obtain ⟨t1, o, tr1, os2, tr2, g1, g2, _, _⟩ := steps_cons h
    refine ih ?_ (fun o ho => hops o (List.mem_cons_of_mem _ ho)) g2
    obtain ⟨hk, hlt⟩ := hops op List.mem_cons_self
    cases hph : phaseOf op with
    | none => rw [step_phaseOf_none hph hk g1]; exact hp
    | some q =>
      have hqp := hlt q hph
      obtain ⟨u, k1, k2, _⟩ := step_phaseOf hph g1
      by_cases hidle : q ≤ u.phase ∨ u.abort = true ∨ q < 0 ∨ 7 < q
      · obtain ⟨_, _, e⟩ := processPhase_idle hidle k1
        have := jumpToPhase_phase q u
        rcases e with ⟨_, rfl⟩ | ⟨_, e⟩
        · omega
        · rw [e]; omega
      · have ha : u.abort = false := by
          cases hh : u.abort with
          | false => rfl
          | true => exact absurd (.inr (.inl hh)) hidle
        rw [empty_phase_cursor hrs (by omega) (by omega) (by omega) ha (hq q (by omega)) k1]
        exact hqp

theorem sans_facts {t u : Tx} (h : t.sansCursor = u.sansCursor) : t.facts = u.facts := by
  have : t.sansCursor.facts = u.sansCursor.facts := by rw [h]
  exact this

theorem Tx.Fresh.of_eq {t u : Tx} (h : t.Fresh) (ha : u.abort = t.abort) (hi : u.interv = t.interv) (hd : u.data = t.data) : u.Fresh where
  abort := ha.trans h.abort
  disruptive := by simp only [Tx.intervention, hi]; exact h.disruptive
  status := by simp only [Tx.intervention, hi]; exact h.status
  data := by simp only [Tx.getData, hd]; exact h.data

/-- C62 for a history.  Load a text with a single `deny` rule none of whose variables
reads a body, start a transaction, make any calls that neither abort nor move the
cursor nor process the rule's phase or a later one, then the call that processes
the rule's phase, and ask for the result.  All calls return; the result is
disruptive with status 403 iff some value of the variables - as given by what the
host told last, the last call included, and by the selectors - passed through the
transformations satisfies the operator (with `!`: does not), and neutral with
status 200 otherwise. -/
theorem C62_history {lib : Lib} {vo : VarOrd} {ord : IterOrd} {text : Bytes} {p : PRule} (ht : Program text [.rule p])
    (hd : DenyRule lib p) (hv : ∀ v ∈ p.vars, readsBody v.tk = false)
    {op : Operator} (hop : OpMeans lib p.op op) (t0 : Tx) {ops : List Op} {call : Op}
    (hops : ∀ o ∈ ops, o.keepsCursor = true ∧ o.aborts = false ∧ ∀ q, phaseOf o = some q → q < p.acts.phase)
    (hcall : phaseOf call = some p.acts.phase) :
    ∃ set, DireSet.addSecLangString lib vo [] text = .ok (set, none) ∧
      ∃ N, ∀ n ≥ N, ∃ t' os i tr,
        (set.execute newEngine).newTransaction.steps ((set.execute newEngine).env lib ord) (set.execute newEngine).ruleSet n
          (ops ++ [call, .result]) = .ok (t', os ++ [.intervention i], tr) ∧
        (i.disruptive = true ↔ ∃ v ∈ p.vars, ∃ y, Tested lib ((ops ++ [call]).foldl told {}) p.vars (v.tk, v.count) y ∧
          op.run t0 (Spec.pipe lib t0 (p.acts.trans.map transOf) y) ≠ p.op.not) ∧
        i.status = if i.disruptive then 403 else 200 := by
  obtain ⟨set, r, h1, hm, hacts, hfw, hlim, hph⟩ := deny_engine (vo := vo) ht hd
  refine ⟨set, h1, ?_⟩
  have hnb : (set.execute newEngine).ruleSet.NoBlockDefault := by
    intro a ha
    rw [(C58_switches set newEngine).2.2] at ha; cases ha
  have hkf : (set.execute newEngine).ruleSet.KeepsFacts := by
    refine ⟨?_, ?_⟩
    · intro q r' hr' a ha
      rw [hph] at hr'
      split at hr'
      · rw [List.mem_singleton] at hr'
        subst hr'
        rw [Rule.allActions, hm.subRules, hacts] at ha
        simp only [List.flatMap_nil, List.append_nil, List.mem_singleton] at ha
        subst ha; trivial
      · cases hr'
    · intro a ha
      rw [(C58_switches set newEngine).2.2] at ha; cases ha
  have hdirs : ∀ dirs p', Program text dirs → .rule p' ∈ dirs → p' = p := by
    intro dirs p' hp' hin
    have := ((C53_exact id _ _).2 ht).symm.trans ((C53_exact id _ _).2 hp')
    simp only [Res.ok.injEq, Except.ok.injEq] at this
    subst this
    simpa using hin
  have hle : p.acts.phase ≤ 5 := by
    have := C55_legal_phase ((C53_exact id _ _).2 ht) (r := p) (by simp)
    have := hd.phase
    omega
  have hge := hd.phase
  obtain ⟨N, res, hres, hN⟩ := steps_terminate (env := (set.execute newEngine).env lib ord) (.inr (loaded_noFields h1 fun dirs p' v hp' hin hvin => by
    rw [hdirs dirs p' hp' hin] at hvin
    have := hv v hvin
    simp only [fieldTokens, List.mem_cons, List.not_mem_nil, or_false]
    rintro (e | e | e | e) <;> (rw [e] at this; cases this))) hnb hfw
    (ops ++ [call, .result]) (set.execute newEngine).newTransaction
  have hnp := C47_loaded_no_panic (ord := ord) h1 (by
    intro dirs p' v hp' hin hvin
    rw [hdirs dirs p' hp' hin] at hvin
    have := hv v hvin
    constructor <;> (intro e; rw [e] at this; cases this)) N (ops ++ [call, .result])
  refine ⟨N, fun n hn => ?_⟩
  rw [hN n hn]
  have hrun := hN N (Nat.le_refl _)
  rw [hrun] at hnp
  cases res with
  | fuel => exact absurd rfl hres
  | panic => exact absurd rfl hnp
  | ok x =>
    obtain ⟨tf, os, tr⟩ := x
    obtain ⟨t1, os1, tr1, os2, tr2, a1, a2, rfl, rfl⟩ := steps_append hrun
    obtain ⟨t2, o, tr3, os3, tr4, a3, a4, rfl, rfl⟩ := steps_cons a2
    obtain ⟨t3, o', tr5, os4, tr6, a5, a6, rfl, rfl⟩ := steps_cons a4
    simp only [Tx.steps, Res.ok.injEq, Prod.mk.injEq] at a6
    obtain ⟨rfl, rfl, rfl⟩ := a6
    simp only [Tx.step, Tx.result, Res.ok.injEq, Prod.mk.injEq] at a5
    obtain ⟨_, rfl, _⟩ := a5
    have hq : ∀ q, q ≠ p.acts.phase → (set.execute newEngine).ruleSet.phases q = [] := fun q h => by rw [hph, if_neg h]
    have hb : (set.execute newEngine).newTransaction.phase < p.acts.phase := by show (0 : Int) < _; omega
    have hlt := steps_before hfw hge hq hb (fun o ho => ⟨(hops o ho).1, (hops o ho).2.2⟩) a1
    have hfr : t1.Fresh := fresh_steps hfw hq (fresh_new _) (by simp [newTransaction, phaseBegin])
      (fun o ho => ⟨(hops o ho).1, (hops o ho).2.1⟩) hlt a1
    obtain ⟨u, hpp, e1, e2, e3, e4, e5⟩ := step_phaseOf hcall a3
    obtain ⟨op', w, t5, ys, hop', hopm, hat, hys, _, hfin⟩ := deny_phase hm hacts hfw hph (by omega) hle
      (by omega) (hfr.of_eq e2 e3 e4) hpp
    have hwf : w.facts = (ops ++ [call]).foldl told {} := by
      rw [sans_facts hat.2.2, e5, C68_history hkf a1]
      simp only [List.foldl_append, List.foldl_cons, List.foldl_nil]
      rfl
    obtain ⟨ks, _, hks, hpairs⟩ := hm.vars
    obtain ⟨rfl, hval⟩ := fetched_tested (env := (set.execute newEngine).env lib ord) (vs := p.vars) (fun k hk => by
      obtain ⟨v, hvm, rfl⟩ := (hks k).1 hk
      exact hv v hvm) hpairs hys
    rw [hwf] at hval
    have hab : t5.abort = false := by rw [sans_abort hat.2.2, e2]; exact hfr.abort
    obtain ⟨g1, g2, g3⟩ := hfin hab
    refine ⟨_, os1 ++ [o], t2.intervention, _, by rw [List.append_assoc]; rfl, ?_, ?_⟩
    · rw [g1]
      constructor
      · rintro ⟨⟨s, y⟩, hy, hne⟩
        obtain ⟨k, hk, hte⟩ := (hval y).1 ⟨s, hy⟩
        obtain ⟨v, hvm, rfl⟩ := (hks k).1 hk
        refine ⟨v, hvm, y, hte, ?_⟩
        rw [pipe_builtin lib _ t0 s, op_determined hop hopm t0 t5]; exact hne
      · rintro ⟨v, hvm, y, hte, hne⟩
        obtain ⟨s, hy⟩ := (hval y).2 ⟨_, (hks _).2 ⟨v, hvm, rfl⟩, hte⟩
        refine ⟨(s, y), hy, ?_⟩
        rw [pipe_builtin lib _ t0 s, op_determined hop hopm t0 t5] at hne; exact hne
    · cases hdis : t2.intervention.disruptive with
      | true => exact g2 hdis
      | false => exact g3 hdis

/-- A text with a `deny` rule on the entries of a collection. -/
def hostText : Bytes := b!"SecRule REQUEST_HEADERS:Host|!REQUEST_HEADERS:X|REQUEST_COOKIES \"@rx evil\" \"id:1,phase:2,deny\"\n"

def hostParsed : PRule where
  vars := [{ tk := .requestHeaders, index := b!"Host" }, { tk := .requestHeaders, index := b!"X", exclusion := true }, { tk := .requestCookies }]
  op := { tk := .rx, arg := b!"evil" }
  acts := { id := 1, phase := 2, action := [⟨.deny, []⟩] }

theorem hostText_program : Program hostText [.rule hostParsed] := (C53_exact id _ _).1 (by decide +kernel)

theorem hostParsed_ok : DenyRule lib hostParsed where
  ok := {
    vars := by
      intro v hv
      simp only [hostParsed, List.mem_cons, List.not_mem_nil, or_false] at hv
      have no : ∀ {s : Bytes} {P : Bytes → Prop}, isRegex s = false → ∀ re, IsRegex s re → P re := by
        intro s P h re hre
        rw [(isRegex_iff s).2 ⟨re, hre⟩] at h; cases h
      rcases hv with rfl | rfl | rfl
      · exact ⟨by simp, fun _ => no (by decide)⟩
      · exact ⟨by simp, fun _ => no (by decide)⟩
      · exact ⟨by simp, fun _ => no (by decide)⟩
    op := ⟨_, .rx rfl rfl⟩
    acts := by intro a ha; rw [List.mem_singleton.1 ha]; exact .inl ⟨_, .deny⟩ }
  deny := ⟨_, rfl⟩
  phase := by decide

/-- A request whose second Cookie line carries the value is denied, whatever was
said and asked before. -/
example : ∃ set, DireSet.addSecLangString lib varOrd [] hostText = .ok (set, none) ∧
    ∃ N, ∀ n ≥ N, ∃ t' os i tr,
      (set.execute newEngine).newTransaction.steps ((set.execute newEngine).env lib Sample.ord) (set.execute newEngine).ruleSet n
        ([.processConnection [] [] [] [], .processRequestURL none b!"GET" [], .appendRequestBody b!"evil" {}, .result] ++
          [.processRequestHeader (some [(b!"Host", [b!"good"]), (b!"X", [b!"evil"]), (b!"Cookie", [b!"a=b; c", b!"d=evil"])]), .result]) =
          .ok (t', os ++ [.intervention i], tr) ∧ i.disruptive = true ∧ i.status = 403 := by
  obtain ⟨set, h1, N, h2⟩ := C62_history (lib := lib) (vo := varOrd) (ord := Sample.ord) hostText_program hostParsed_ok
    (by intro v hv; simp only [hostParsed, List.mem_cons, List.not_mem_nil, or_false] at hv; rcases hv with rfl | rfl | rfl <;> rfl)
    (.rx rfl rfl) (newTransaction limits)
    (ops := [.processConnection [] [] [] [], .processRequestURL none b!"GET" [], .appendRequestBody b!"evil" {}, .result])
    (call := .processRequestHeader (some [(b!"Host", [b!"good"]), (b!"X", [b!"evil"]), (b!"Cookie", [b!"a=b; c", b!"d=evil"])]))
    (by
      intro o ho
      simp only [List.mem_cons, List.not_mem_nil, or_false] at ho
      rcases ho with rfl | rfl | rfl | rfl <;> refine ⟨rfl, rfl, ?_⟩ <;> intro q hq <;> cases hq
      decide)
    rfl
  refine ⟨set, h1, N, fun n hn => ?_⟩
  obtain ⟨t', os, i, tr, g1, g2, g3⟩ := h2 n hn
  have hd : i.disruptive = true := by
    refine g2.2 ⟨{ tk := .requestCookies }, by simp [hostParsed], b!"evil", ?_, by decide⟩
    obtain ⟨cs, hcs⟩ := C42_every_line [b!"a=b; c", b!"d=evil"]
    have : cs = [(b!"a", b!"b"), (b!"c", []), (b!"d", b!"evil")] := by
      cases hcs with
      | cons h1 h2 =>
        cases h2 with
        | cons h3 h4 => cases h4; rw [h1.pairs, h3.pairs]; decide +kernel
    subst this
    have hk : applySelectors lib.rx {} (selectors hostParsed.vars .requestCookies false) = some {} := rfl
    exact ⟨[b!"b", [], b!"evil"], ⟨_, hcs, fun k => ({} : Filter).keep k, fun k => keep_picked hk k, .refl _⟩, by simp⟩
  exact ⟨t', os, i, tr, g1, hd, by rw [g3, hd]; rfl⟩

end Verif
