import Verif.Props.Reorder
/-! C147: what is missing is seen by counting only. -/
namespace Verif
open Sample Spec

/-- In none of the calls is anything sent that the variable, restricted to the names in `P`, shows; the names of the fields of
the request body are among those in `F`. -/
def Spec.Unsent (lib : Lib) (ops : List Op) (F P : Bytes → Prop) : VarTok → Prop
  | .requestHeaders | .requestHeadersNames => ∀ h, .processRequestHeader (some h) ∈ ops → ∀ e ∈ h, ¬ P e.1
  | .requestCookies | .requestCookiesNames =>
    ∀ h, .processRequestHeader (some h) ∈ ops → ∀ ls, (b!"Cookie", ls) ∈ h → ∀ cs, CookieLines ls cs → ∀ c ∈ cs, ¬ P c.1
  | .argsGet | .argsGetNames => ∀ u m p, .processRequestURL (some u) m p ∈ ops → ∀ e ∈ (lib.parseQuery u.rawQuery).1, ¬ P e.1
  | .argsPost | .argsPostNames => ∀ n, F n → ¬ P n
  | .requestBody => ∀ p io, .appendRequestBody p io ∈ ops → p = []
  | .args | .argsNames =>
    (∀ u m p, .processRequestURL (some u) m p ∈ ops → ∀ e ∈ (lib.parseQuery u.rawQuery).1, ¬ P e.1) ∧ ∀ n, F n → ¬ P n
  | .responseHeaders | .responseHeadersNames => ∀ c p h, .processResponseHeaders c p (some h) ∈ ops → ∀ e ∈ h, ¬ P e.1
  | .responseBody => ∀ p io, .appendResponseBody p io ∈ ops → p = []
  | _ => False

/-- A field of the form in the request body has this name. -/
def Spec.FieldSent (lib : Lib) (ops : List Op) (n : Bytes) : Prop :=
  sent false ops ≠ [] ∧ ∃ e ∈ (lib.parseQuery (sent false ops)).1, e.1 = n

/-- In each chain there is a rule that counts nothing, and of what it looks at nothing is sent. -/
def Spec.Misses (lib : Lib) (ops : List Op) (F : Bytes → Prop) (cs : List (List PRule)) : Prop :=
  ∀ c ∈ cs, 1 ≤ chainPhase c → ∃ p ∈ c, ∀ v ∈ p.vars, v.count = false ∧ Unsent lib ops F (Picked lib.rx (selectors p.vars v.tk v.count)) v.tk

/-- Both texts load, and with `N` or more rounds the calls return under both; the verdicts shown are equal. -/
def Spec.ShowsAlike (lib : Lib) (vo : VarOrd) (ord : IterOrd) (text text' : Bytes) (N : Nat) (ops : List Op) : Prop :=
  ∃ set set', DireSet.addSecLangString lib vo [] text = .ok (set, none) ∧ DireSet.addSecLangString lib vo [] text' = .ok (set', none) ∧
    ∀ n ≥ N, ∃ t t' os os' tr tr',
      (set.execute newEngine).newTransaction.steps ((set.execute newEngine).env lib ord) (set.execute newEngine).ruleSet n ops = .ok (t, os, tr) ∧
      (set'.execute newEngine).newTransaction.steps ((set'.execute newEngine).env lib ord) (set'.execute newEngine).ruleSet n ops = .ok (t', os', tr') ∧
      shown os = shown os'

/-! ### A machine none of whose chains fires -/

section
variable {K : Type} {S S' : Sight K}

/-- The same but for the number of the rule. -/
structure Spec.BesideRule (m m' : Mach K) : Prop where
  known : m'.known = m.known
  phase : m'.phase = m.phase
  verdict : m'.verdict = m.verdict
  chosen : m'.chosen = m.chosen
  aborted : m'.aborted = m.aborted

theorem Spec.BesideRule.refl (m : Mach K) : BesideRule m m := ⟨rfl, rfl, rfl, rfl, rfl⟩

theorem idle_walk {q : Int} {cs : List (List PRule)} : ∀ {i : Nat} {m : Mach K}, (∀ c ∈ cs, ¬ ∀ p ∈ c, S.holds m.known p) →
    BesideRule m (walk S q i false cs m) := by
  induction cs with
  | nil => intro i m _; exact .refl m
  | cons c cs ih =>
    intro i m h
    rw [walk]
    simp only
    rw [if_neg (h c (.head _))]
    split
    · exact ⟨rfl, rfl, rfl, rfl, rfl⟩
    · obtain ⟨a1, a2, a3, a4, a5⟩ := ih (i := i + 1) (m := { m with rule := (i : Int) }) fun d hd => h d (.tail _ hd)
      exact ⟨a1, a2, a3, a4, a5⟩

theorem idle_call (hl : S'.learn = S.learn) (hf : S'.facts = S.facts) {cs : List (List PRule)} {m m' : Mach K} (h0 : 0 ≤ m.phase) (hm : BesideRule m m') {op : Op}
    (hc : ∀ c ∈ cs, 1 ≤ chainPhase c → phaseOf op = some (chainPhase c) → ¬ ∀ p ∈ c, S.holds (S.learn m.known op) p) :
    (call S cs m op).1.known = S.learn m.known op ∧ BesideRule (call S cs m op).1 (call S' [] m' op).1 ∧ (call S' [] m' op).2 = (call S cs m op).2 := by
  obtain ⟨r, rfl⟩ : ∃ r, m' = { m with rule := r } := by
    obtain ⟨a1, a2, a3, a4, a5⟩ := hm
    refine ⟨m'.rule, ?_⟩
    cases m'; cases m
    simp only at a1 a2 a3 a4 a5
    subst a1 a2 a3 a4 a5
    rfl
  cases hq : phaseOf op with
  | some q =>
    simp only [call, hq, hl]
    split
    · exact ⟨rfl, ⟨rfl, rfl, rfl, rfl, rfl⟩, rfl⟩
    · split
      · exact ⟨rfl, ⟨rfl, rfl, rfl, rfl, rfl⟩, rfl⟩
      · obtain ⟨b1, b2, b3, b4, b5⟩ := idle_walk (S := S) (q := q) (cs := cs.filter fun c => chainPhase c = q) (i := 0)
          (m := goto q { m with known := S.learn m.known op }) (fun c h => by
            obtain ⟨h1, h2⟩ := List.mem_filter.1 h
            have h2 : chainPhase c = q := of_decide_eq_true h2
            exact hc c h1 (by omega) (h2 ▸ hq))
        exact ⟨b1, ⟨b1.symm, b2.symm, b3.symm, b4.symm, b5.symm⟩, rfl⟩
  | none =>
    cases op <;> simp only [phaseOf, reduceCtorEq] at hq <;> simp only [call, phaseOf, hl, and_true, true_and]
    case result => split <;> exact ⟨rfl, ⟨rfl, rfl, rfl, rfl, rfl⟩⟩
    case abortWithError => exact ⟨rfl, ⟨rfl, rfl, by simp only [say, hf], rfl, rfl⟩⟩
    case logf => exact ⟨rfl, ⟨rfl, rfl, by simp only [say, hf], rfl, rfl⟩⟩
    all_goals first | exact ⟨rfl, rfl, rfl, rfl, rfl⟩ | exact ⟨rfl, ⟨rfl, rfl, rfl, rfl, rfl⟩⟩ | exact ⟨rfl, ⟨rfl, rfl, rfl, rfl, rfl⟩, rfl⟩

theorem idle_run (hl : S'.learn = S.learn) (hf : S'.facts = S.facts) {cs : List (List PRule)} {I : List Op → K → Prop} {all : List Op}
    (hc : ∀ pre op post k, all = pre ++ op :: post → I (pre ++ [op]) k → ∀ c ∈ cs, 1 ≤ chainPhase c → phaseOf op = some (chainPhase c) → ¬ ∀ p ∈ c, S.holds k p)
    (hI : ∀ pre op k, op ∈ all → I pre k → I (pre ++ [op]) (S.learn k op)) :
    ∀ {ops pre : List Op}, all = pre ++ ops → ∀ {m m' : Mach K}, 0 ≤ m.phase → I pre m.known → BesideRule m m' →
    (Spec.run S cs m ops).2 = (Spec.run S' [] m' ops).2 := by
  intro ops
  induction ops with
  | nil => intros; rfl
  | cons op ops ih =>
    intro pre ha m m' h0 hm hb
    have hk := hI pre op _ (by rw [ha]; simp) hm
    have ha' : all = (pre ++ [op]) ++ ops := by rw [ha]; simp
    obtain ⟨g1, g2, g3⟩ := idle_call (S := S) (S' := S') hl hf h0 hb (hc _ _ _ _ ha hk)
    simp only [Spec.run]
    rw [g3, ih ha' (call_low h0 _) (by rw [g1]; exact hk) g2]

end

/-! ### What is shown comes from some call -/

structure Spec.Sourced (ops : List Op) (k : Facts) : Prop where
  headers : k.headers.getD [] = [] ∨ .processRequestHeader (some (k.headers.getD [])) ∈ ops
  url : k.url = none ∨ ∃ m p, .processRequestURL k.url m p ∈ ops
  response : k.respHeaders.getD [] = [] ∨ ∃ c p, .processResponseHeaders c p (some (k.respHeaders.getD [])) ∈ ops

theorem sourced_told {ops : List Op} {k : Facts} {op : Op} (ho : op ∈ ops) (h : Sourced ops k) : Sourced ops (told k op) := by
  obtain ⟨a1, a2, a3⟩ := h
  cases op
  case processRequestURL => exact ⟨a1, .inr ⟨_, _, ho⟩, a3⟩
  case processRequestHeader h =>
    cases h with
    | none => exact ⟨.inl rfl, a2, a3⟩
    | some h => exact ⟨.inr ho, a2, a3⟩
  case processResponseHeaders c p h =>
    cases h with
    | none => exact ⟨a1, a2, .inl rfl⟩
    | some h => exact ⟨a1, a2, .inr ⟨_, _, ho⟩⟩
  all_goals exact ⟨a1, a2, a3⟩

theorem unsent_cookies {ops : List Op} {k : Facts} (hk : Sourced ops k) {P : Bytes → Prop}
    (h : ∀ h, .processRequestHeader (some h) ∈ ops → ∀ ls, (b!"Cookie", ls) ∈ h → ∀ cs, CookieLines ls cs → ∀ c ∈ cs, ¬ P c.1)
    {cs : List (Bytes × Bytes)} (hc : CookieLines (cookieLines k) cs) : ∀ c ∈ cs, ¬ P c.1 := by
  cases hf : (k.headers.getD []).find? fun e => e.1 == b!"Cookie" with
  | none =>
    simp only [cookieLines, hf, Option.map_none, Option.getD_none] at hc
    cases hc
    intro c hc; cases hc
  | some e =>
    have he := List.mem_of_find?_eq_some hf
    have hn : e.1 = b!"Cookie" := by simpa using List.find?_some hf
    simp only [cookieLines, hf, Option.map_some, Option.getD_some] at hc
    rcases hk.headers with h1 | h1
    · rw [h1] at he; cases he
    · exact h _ h1 e.2 (by rw [← hn]; exact he) cs hc

/-- Of what is not sent nothing is shown. -/
theorem unsent_lists {lib : Lib} {ops : List Op} {k : Facts} (hk : Sourced ops k) {F P : Bytes → Prop} {tk : VarTok} (hb : readsBody tk = false)
    (h : Unsent lib ops F P tk) {vals : List Bytes} (hl : Lists lib k P vals tk) {y : Bytes} (hy : y ∈ vals) : False := by
  have hget : (∀ u m p, .processRequestURL (some u) m p ∈ ops → ∀ e ∈ (lib.parseQuery u.rawQuery).1, ¬ P e.1) →
      ∀ e ∈ k.url.toList.flatMap fun u => (lib.parseQuery u.rawQuery).1, ¬ P e.1 := by
    intro h e he
    obtain ⟨u, h1, h2⟩ := List.mem_flatMap.1 he
    have h1 : k.url = some u := by simpa using h1
    rcases hk.url with h3 | ⟨m, p, h3⟩
    · rw [h3] at h1; cases h1
    · exact h u m p (h1 ▸ h3) e h2
  cases tk <;> first | (cases hb; done) | (cases h; done) | skip
  case requestHeaders =>
    obtain ⟨e, h1, h2, _⟩ := valuesIn_mem.1 ⟨vals, hl, hy⟩
    rcases hk.headers with h3 | h3
    · rw [h3] at h1; cases h1
    · exact h _ h3 e h1 h2
  case requestHeadersNames =>
    obtain ⟨h0, h2⟩ := namesIn_mem.1 ⟨vals, hl, hy⟩
    obtain ⟨e, h4, rfl⟩ := List.mem_map.1 h0
    obtain ⟨_, _, h1⟩ := List.mem_flatMap.1 h4
    rcases hk.headers with h3 | h3
    · rw [h3] at h1; cases h1
    · exact h _ h3 e h1 h2
  case responseHeaders =>
    obtain ⟨e, h1, h2, _⟩ := valuesIn_mem.1 ⟨vals, hl, hy⟩
    rcases hk.response with h3 | ⟨c, p, h3⟩
    · rw [h3] at h1; cases h1
    · exact h c p _ h3 e h1 h2
  case responseHeadersNames =>
    obtain ⟨h0, h2⟩ := namesIn_mem.1 ⟨vals, hl, hy⟩
    obtain ⟨e, h1, rfl⟩ := List.mem_map.1 h0
    rcases hk.response with h3 | ⟨c, p, h3⟩
    · rw [h3] at h1; cases h1
    · exact h c p _ h3 e h1 h2
  case argsGet =>
    obtain ⟨e, h1, h2, _⟩ := valuesIn_mem.1 ⟨vals, hl, hy⟩
    exact hget h e h1 h2
  case argsGetNames =>
    obtain ⟨h0, h2⟩ := namesIn_mem.1 ⟨vals, hl, hy⟩
    obtain ⟨e, h1, rfl⟩ := List.mem_map.1 h0
    exact hget h e h1 h2
  case requestCookies =>
    obtain ⟨cs, h1, h2⟩ := hl
    obtain ⟨e, h3, h4, _⟩ := valuesIn_mem.1 ⟨vals, h2, hy⟩
    obtain ⟨c, h5, rfl⟩ := List.mem_map.1 h3
    exact unsent_cookies hk h h1 c h5 h4
  case requestCookiesNames =>
    obtain ⟨cs, h1, h2⟩ := hl
    obtain ⟨h3, h4⟩ := namesIn_mem.1 ⟨vals, h2, hy⟩
    obtain ⟨c, h5, rfl⟩ := List.mem_map.1 h3
    exact unsent_cookies hk h h1 c h5 h4

theorem misses_holds {lib : Lib} {ops : List Op} {F : Bytes → Prop} {cs : List (List PRule)} (h : Misses lib ops F cs) {L : (Bytes → Prop) → List Bytes → VarTok → Prop}
    {c : List PRule} (hc : c ∈ cs) (h1 : 1 ≤ chainPhase c)
    (hL : ∀ {P tk vals y}, (∃ p ∈ c, ∃ v ∈ p.vars, v.tk = tk) → Unsent lib ops F P tk → L P vals tk → y ∈ vals → False) :
    ¬ ∀ p ∈ c, HoldsBy lib L p := by
  intro hh
  obtain ⟨p, hp, hv⟩ := h c hc h1
  obtain ⟨v, hm, y, ⟨vals, g1, g2⟩, _⟩ := hh p hp
  obtain ⟨a1, a2⟩ := hv v hm
  simp only [a1, Bool.false_eq_true, if_false] at g1 g2 a2
  exact hL ⟨p, hp, v, hm, rfl⟩ a2 g1 g2

theorem rules_none {dirs : List PDir} (h : rulesIn dirs = []) : chainsOf (rulesIn dirs) = [] := by rw [h]; rfl

/-- C147 for rules that read no body: if in each chain there is a rule that counts nothing, and of what it looks at nothing is
sent, then the verdicts shown are those shown under a text without rules, however the tests are negated. -/
theorem C147_missing {lib : Lib} {vo : VarOrd} {ord : IterOrd} {text text' : Bytes} {dirs dirs' : List PDir} (ht : Program text dirs) (ht' : Program text' dirs')
    (hok : ∀ d ∈ dirs, DirOk lib d) (hok' : ∀ d ∈ dirs', DirOk lib d) (hv : ∀ p ∈ rulesIn dirs, ∀ v ∈ p.vars, readsBody v.tk = false)
    (hret : NoReturn (chainsOf (rulesIn dirs))) (hnone : rulesIn dirs' = []) {ops : List Op} (hm : Misses lib ops (fun _ => False) (chainsOf (rulesIn dirs))) :
    ShowsAlike lib vo ord text text' ((chainsOf (rulesIn dirs)).length + 2) ops := by
  obtain ⟨set, h1, h2⟩ := C87_machine (vo := vo) (ord := ord) ht hok hv hret
  obtain ⟨set', h1', h2'⟩ := C87_machine (vo := vo) (ord := ord) ht' hok' (by rw [hnone]; intro p hp; cases hp) (by rw [rules_none hnone]; intro c hc; cases hc)
  refine ⟨set, set', h1, h1', fun n hn => ?_⟩
  obtain ⟨t, os, tr, g1, g2⟩ := h2 ops n hn
  obtain ⟨t', os', tr', g1', g2'⟩ := h2' ops n (by rw [rules_none hnone]; simp only [List.length_nil]; omega)
  refine ⟨t, t', os, os', tr, tr', g1, g1', ?_⟩
  rw [g2, g2', rules_none hnone]
  refine idle_run (S := toldSight lib) (S' := toldSight lib) rfl rfl (I := fun _ => Sourced ops) (fun _ _ _ k _ hk c hc h1 _ => ?_) (fun _ op k ho hk => sourced_told ho hk) (pre := []) rfl (Int.le_refl 0) ⟨.inl rfl, .inl rfl, .inl rfl⟩ (.refl _)
  refine misses_holds (L := Lists lib k) hm hc h1 ?_
  rintro P tk vals y ⟨p, hp, v, hvp, rfl⟩ hu hl hy
  exact unsent_lists hk (hv p (mem_chainsOf hc hp) v hvp) hu hl hy

/-! ### Bodies -/

structure Spec.SourcedKnown (ops pre : List Op) (k : Known) : Prop where
  facts : Sourced ops k.facts
  req : k.req = sent false pre
  resp : (∀ p io, .appendResponseBody p io ∈ ops → p = []) → k.resp = []

theorem sourced_learn {ops pre : List Op} {k : Known} {op : Op} (ho : op ∈ ops) (h : SourcedKnown ops pre k) : SourcedKnown ops (pre ++ [op]) (learn k op) := by
  have hf := sourced_told ho h.facts
  obtain ⟨a1, a2, a3⟩ := h
  have hs : sent false (pre ++ [op]) = sent false pre ++ (chunkOf false op).getD [] := by simp [sent]
  cases op
  case appendRequestBody p io =>
    refine ⟨a1, ?_, a3⟩
    rw [hs, ← a2]; rfl
  case appendResponseBody p io =>
    have hr : k.req = sent false (pre ++ [.appendResponseBody p io]) := by rw [hs, ← a2]; exact (List.append_nil _).symm
    simp only [learn]
    split
    · exact ⟨a1, hr, fun h => by simp only [a3 h, h p io ho, List.append_nil]⟩
    · exact ⟨a1, hr, a3⟩
  all_goals exact ⟨hf, by rw [hs, ← a2]; exact (List.append_nil _).symm, a3⟩

theorem unsent_body {ops pre : List Op} (hp : pre <+: ops) (h : ∀ p io, .appendRequestBody p io ∈ ops → p = []) : sent false pre = [] := by
  simp only [sent, List.flatMap_eq_nil_iff]
  intro op ho
  cases op
  case appendRequestBody p io => exact h p io (hp.subset ho)
  all_goals rfl

/-- Of the arguments nothing is shown, if `m` are those in the body. -/
theorem unsent_args {lib : Lib} {ops : List Op} {k : Known} (hk : Sourced ops k.facts) {F P : Bytes → Prop} {A : GoMap → Prop}
    (hA : (∀ n, F n → ¬ P n) → ∀ m, A m → ∀ e ∈ m, ¬ P e.1) {vals : List Bytes} {y : Bytes} (hy : y ∈ vals) :
    (Unsent lib ops F P .argsPost → ¬ ∃ m, A m ∧ ValuesIn P m vals) ∧ (Unsent lib ops F P .argsPostNames → ¬ ∃ m, A m ∧ NamesIn P m vals) ∧
    (Unsent lib ops F P .args → ¬ ∃ m, A m ∧ ValuesIn P (getArgs lib k ++ m) vals) ∧
    (Unsent lib ops F P .argsNames → ¬ ∃ m a b, A m ∧ NamesIn P (getArgs lib k) a ∧ NamesIn P m b ∧ vals.Perm (a ++ b)) := by
  have hget : ∀ vals, (∀ u m p, .processRequestURL (some u) m p ∈ ops → ∀ e ∈ (lib.parseQuery u.rawQuery).1, ¬ P e.1) →
      ValuesIn P (getArgs lib k) vals → y ∈ vals → False := fun vals h hv hy => unsent_lists (F := F) (tk := .argsGet) hk rfl h hv hy
  have hgetn : ∀ vals, (∀ u m p, .processRequestURL (some u) m p ∈ ops → ∀ e ∈ (lib.parseQuery u.rawQuery).1, ¬ P e.1) →
      NamesIn P (getArgs lib k) vals → y ∈ vals → False := fun vals h hv hy => unsent_lists (F := F) (tk := .argsGetNames) hk rfl h hv hy
  refine ⟨?_, ?_, ?_, ?_⟩
  · rintro h ⟨m, h1, h2⟩
    obtain ⟨e, h3, h4, _⟩ := valuesIn_mem.1 ⟨vals, h2, hy⟩
    exact hA h m h1 e h3 h4
  · rintro h ⟨m, h1, h2⟩
    obtain ⟨h3, h4⟩ := namesIn_mem.1 ⟨vals, h2, hy⟩
    obtain ⟨e, h5, rfl⟩ := List.mem_map.1 h3
    exact hA h m h1 e h5 h4
  · rintro h ⟨m, h1, h2⟩
    obtain ⟨e, h3, h4, h5⟩ := valuesIn_mem.1 ⟨vals, h2, hy⟩
    rcases List.mem_append.1 h3 with h3 | h3
    · obtain ⟨w, h6, h7⟩ := valuesIn_mem.2 ⟨e, h3, h4, h5⟩
      exact hget w h.1 h6 h7
    · exact hA h.2 m h1 e h3 h4
  · rintro h ⟨m, a, b, h1, h2, h3, h4⟩
    rcases List.mem_append.1 (h4.mem_iff.1 hy) with h5 | h5
    · exact hgetn a h.1 h2 h5
    · obtain ⟨h6, h7⟩ := namesIn_mem.1 ⟨b, h3, h5⟩
      obtain ⟨e, h8, rfl⟩ := List.mem_map.1 h6
      exact hA h.2 m h1 e h8 h7

theorem unsent_listsAll {lib : Lib} {req resp : Bool} {ops pre : List Op} {k : Known} (hp : pre <+: ops) (hk : SourcedKnown ops pre k) {F P : Bytes → Prop} {tk : VarTok}
    (hF : readsArgs tk = true → F = FieldSent lib ops ∧ k.req = sent false ops) (h : Unsent lib ops F P tk) {vals : List Bytes} (hl : ListsAll lib req resp k P vals tk)
    {y : Bytes} (hy : y ∈ vals) : False := by
  have hpost : F = FieldSent lib ops ∧ k.req = sent false ops → (∀ n, F n → ¬ P n) → ∀ m, PostArgs lib req k m → ∀ e ∈ m, ¬ P e.1 := by
    rintro ⟨rfl, hr⟩ h m (⟨h1, _, rfl⟩ | ⟨_, rfl⟩) e he
    · rw [hr] at he
      exact h e.1 ⟨hr ▸ h1.2.2, e, he, rfl⟩
    · cases he
  have ha := fun e => unsent_args (lib := lib) hk.facts (hpost e) hy
  have g := fun hb => unsent_lists (tk := tk) (lib := lib) hk.facts hb h (vals := vals) (y := y)
  cases tk
  case requestBody =>
    rcases hl with ⟨h1, _⟩ | ⟨_, rfl⟩
    · exact h1.1.2.2 (hk.req ▸ unsent_body hp h)
    · cases hy
  case responseBody =>
    rcases hl with ⟨h1, _⟩ | ⟨_, rfl⟩
    · exact h1.2 (hk.resp h)
    · cases hy
  case argsPost => exact (ha (hF rfl)).1 h hl
  case argsPostNames => exact (ha (hF rfl)).2.1 h hl
  case args => exact (ha (hF rfl)).2.2.1 h hl
  case argsNames => exact (ha (hF rfl)).2.2.2 h hl
  all_goals exact g rfl hl hy

/-- C147 likewise with bodies of up to 131072 bytes, if rules read arguments from the body only once the form is settled, and
well-formed. -/
theorem C147_bodies {lib : Lib} {vo : VarOrd} {ord : IterOrd} {text text' : Bytes} {dirs dirs' : List PDir} (ht : Program text dirs) (ht' : Program text' dirs')
    (hok : ∀ d ∈ dirs, DirOk lib d) (hok' : ∀ d ∈ dirs', DirOk lib d) (hret : NoReturn (chainsOf (rulesIn dirs))) (hnone : rulesIn dirs' = []) {ops : List Op} {q : Int}
    (hsize : (sent false ops).length ≤ 131072)
    (hform : ∀ c ∈ chainsOf (rulesIn dirs), 1 ≤ chainPhase c → (∃ p ∈ c, ∃ v ∈ p.vars, readsArgs v.tk = true) → q ≤ chainPhase c ∧ FormSettled lib q ops)
    (hm : Misses lib ops (FieldSent lib ops) (chainsOf (rulesIn dirs))) : ShowsAlike lib vo ord text text' ((chainsOf (rulesIn dirs)).length + 2) ops := by
  obtain ⟨set, h1, h2⟩ := C88_machine (vo := vo) (ord := ord) ht hok hret
  obtain ⟨set', h1', h2'⟩ := C88_machine (vo := vo) (ord := ord) ht' hok' (by rw [rules_none hnone]; intro c hc; cases hc)
  refine ⟨set, set', h1, h1', fun n hn => ?_⟩
  obtain ⟨t, os, tr, g1, g2⟩ := h2 hsize hform n hn
  obtain ⟨t', os', tr', g1', g2'⟩ := h2' (ops := ops) (q := q) hsize (by rw [rules_none hnone]; intro c hc; cases hc) n
    (by rw [rules_none hnone]; simp only [List.length_nil]; omega)
  refine ⟨t, t', os, os', tr, tr', g1, g1', ?_⟩
  rw [g2, g2', rules_none hnone]
  refine idle_run (S := bodySight lib (reqAccess dirs) (respAccess dirs)) (S' := bodySight lib (reqAccess dirs') (respAccess dirs')) rfl rfl (I := SourcedKnown ops)
    (fun pre op post k ha hk c hc h1 hp => ?_) (fun _ op k ho hk => sourced_learn ho hk) (pre := []) rfl (Int.le_refl 0) ⟨⟨.inl rfl, .inl rfl, .inl rfl⟩, rfl, fun _ => rfl⟩ (.refl _)
  refine misses_holds (L := ListsAll lib (reqAccess dirs) (respAccess dirs) k) hm hc h1 ?_
  rintro P tk vals y ⟨p, hpc, v, hv, rfl⟩ hu hl hy
  refine unsent_listsAll ⟨post, by rw [ha]; simp⟩ hk (fun h => ⟨rfl, ?_⟩) hu hl hy
  obtain ⟨hq, hs⟩ := hform c hc h1 ⟨p, hpc, v, hv, h⟩
  rw [← sent_settled ha hp hq hs.settled, learned_req]
  exact hk.req

/-- C147 likewise with a multipart form. -/
theorem C147_multipart {lib : Lib} (hme : lib.ReadsMedia) (hlf : lib.ReadsForms) {vo : VarOrd} {ord : IterOrd} {text text' : Bytes} {dirs dirs' : List PDir}
    (ht : Program text dirs) (ht' : Program text' dirs')
    (hok : ∀ d ∈ dirs, DirOk lib d) (hok' : ∀ d ∈ dirs', DirOk lib d) (hret : NoReturn (chainsOf (rulesIn dirs))) (hnone : rulesIn dirs' = []) {ops : List Op} {q : Int}
    {bnd : Bytes} {ps : List (Option Bytes × Bytes)} (hf : ReadsSentForm (chainsOf (rulesIn dirs)) q bnd ps ops)
    (hm : Misses lib ops (· ∈ (fieldsOf ps).map Prod.fst) (chainsOf (rulesIn dirs))) :
    ShowsAlike lib vo ord text text' ((chainsOf (rulesIn dirs)).length + 2) ops := by
  obtain ⟨set, h1, h2⟩ := C133_machine hme hlf (vo := vo) (ord := ord) ht hok hret
  obtain ⟨set', h1', h2'⟩ := C133_machine hme hlf (vo := vo) (ord := ord) ht' hok' (by rw [rules_none hnone]; intro c hc; cases hc)
  refine ⟨set, set', h1, h1', fun n hn => ?_⟩
  obtain ⟨t, os, tr, g1, g2⟩ := h2 hf.size hf.form n hn
  obtain ⟨t', os', tr', g1', g2'⟩ := h2' (ops := ops) (q := q) (bnd := bnd) (ps := ps) hf.size (by rw [rules_none hnone]; intro c hc; cases hc) n
    (by rw [rules_none hnone]; simp only [List.length_nil]; omega)
  refine ⟨t, t', os, os', tr, tr', g1, g1', ?_⟩
  rw [g2, g2', rules_none hnone]
  refine idle_run (S := formSight lib (reqAccess dirs) (respAccess dirs) (fieldsOf ps)) (S' := formSight lib (reqAccess dirs') (respAccess dirs') (fieldsOf ps)) rfl rfl
    (I := SourcedKnown ops) (fun pre op post k ha hk c hc h1 _ => ?_) (fun _ op k ho hk => sourced_learn ho hk) (pre := []) rfl (Int.le_refl 0)
    ⟨⟨.inl rfl, .inl rfl, .inl rfl⟩, rfl, fun _ => rfl⟩ (.refl _)
  refine misses_holds (L := ListsForm lib (reqAccess dirs) (respAccess dirs) (fieldsOf ps) k) hm hc h1 ?_
  intro P tk vals y _ hu hl hy
  have hp : pre ++ [op] <+: ops := ⟨post, by rw [ha]; simp⟩
  have ha := unsent_args (lib := lib) (F := (· ∈ (fieldsOf ps).map Prod.fst)) (P := P) (A := SentArgs (reqAccess dirs) (fieldsOf ps) k) hk.facts (by
    rintro h m (⟨_, rfl⟩ | ⟨_, rfl⟩) e he
    · obtain ⟨f, hf, rfl⟩ := List.mem_map.1 he
      exact h f.1 (List.mem_map_of_mem hf)
    · cases he) hy
  cases tk
  case argsPost => exact ha.1 hu hl
  case argsPostNames => exact ha.2.1 hu hl
  case args => exact ha.2.2.1 hu hl
  case argsNames => exact ha.2.2.2 hu hl
  all_goals exact unsent_listsAll (req := reqAccess dirs) (resp := respAccess dirs) hp hk (fun h => absurd h (by decide)) hu hl hy

/-! ### Counting -/

/-- A negated test does not see that there is no header; a count does. -/
theorem C147_counts :
    textVerdicts lib b!"SecRule REQUEST_HEADERS:Host \"!@rx good\" \"id:1,phase:2,deny\"\n" 9 [.processRequestHeader (some [(b!"X", [b!"y"])]), .result] = some [false] ∧
    textVerdicts lib b!"SecRule &REQUEST_HEADERS:Host \"@eq 0\" \"id:1,phase:2,deny\"\n" 9 [.processRequestHeader (some [(b!"X", [b!"y"])]), .result] = some [true] ∧
    textVerdicts lib b!"SecRule REQUEST_HEADERS:Host \"!@rx good\" \"id:1,phase:2,deny\"\n" 9 [.processRequestHeader (some [(b!"Host", [b!"y"])]), .result] = some [true] := by
  decide +kernel

/-! ### Examples -/

/-- A rule with a negated test. -/
def Sample.notGood (vs : List PVar) : PRule where
  vars := vs
  op := { tk := .rx, arg := b!"good", not := true }
  acts := { id := 1, phase := 3, action := [⟨.deny, []⟩] }

theorem Sample.notGood_ok {lib : Lib} (hr : ∃ f, lib.rx b!"good" = some f) {v : PVar} (h : v.tk ≠ .xml) (hi : ¬ ∃ re, IsRegex v.index re) : ∀ d ∈ [PDir.reqBody true, .rule (notGood [v])], DirOk lib d := by
  intro d hd
  simp only [List.mem_cons, List.not_mem_nil, or_false] at hd
  rcases hd with rfl | rfl
  · trivial
  · exact {
      vars := by
        intro w hw
        rw [List.mem_singleton.1 hw]
        exact ⟨h, fun _ re hre => absurd ⟨re, hre⟩ hi⟩
      op := hr.elim fun _ hr => ⟨_, .rx rfl hr⟩
      acts := by intro a ha; rw [List.mem_singleton.1 ha]; exact .inl ⟨_, .deny⟩ }

theorem Sample.notGood_plain (vs : List PVar) : NoReturn (chainsOf (rulesIn [PDir.reqBody true, .rule (notGood vs)])) := by
  refine strict_noReturn ?_
  intro c hc p hp a ha
  have hc : c ∈ [[notGood vs]] := hc
  rw [List.mem_singleton.1 hc] at hp
  rw [List.mem_singleton.1 hp] at ha; rw [List.mem_singleton.1 ha]; exact ⟨nofun, nofun⟩

/-- A request without Host, whatever else it has, is not refused for its Host not being good. -/
example {h : GoMap} (hh : ∀ e ∈ h, e.1 ≠ b!"Host") :
    ShowsAlike lib varOrd Sample.ord b!"SecRequestBodyAccess On\nSecRule REQUEST_HEADERS:Host \"!@rx good\" \"id:1,phase:3,deny\"\n" b!"" 3
      [.processRequestHeader (some h), .processRequestBody, .result] := by
  refine C147_missing (dirs := [.reqBody true, .rule (notGood [{ tk := .requestHeaders, index := b!"Host" }])]) (dirs' := [])
    ((C53_exact id _ _).1 (by decide +kernel)) ((C53_exact id _ _).1 (by decide +kernel)) (notGood_ok ⟨_, rfl⟩ (by decide) (notRegex (by decide))) (fun _ h => nomatch h) ?_
    (notGood_plain _) rfl ?_
  · intro p hp v hv
    have hp : p ∈ [notGood [{ tk := .requestHeaders, index := b!"Host" }]] := hp
    rw [List.mem_singleton.1 hp] at hv
    rw [List.mem_singleton.1 hv]; rfl
  · intro c hc _
    have hc : c ∈ [[notGood [{ tk := .requestHeaders, index := b!"Host" }]]] := hc
    rw [List.mem_singleton.1 hc]
    refine ⟨_, .head _, fun v hv => ?_⟩
    rw [List.mem_singleton.1 hv]
    refine ⟨rfl, fun h' hm e he hP => ?_⟩
    have : h' = h := by simpa using hm
    subst this
    rw [← keep_picked (f := { incl := [b!"Host"] }) rfl] at hP
    exact hh e he (Eq.symm (by simpa [Filter.keep, stringInSlice] using hP))

/-- A form without a field `user` is not refused for its user not being good. -/
example {x y : Bytes} (hsize : (x ++ y).length ≤ 131072) :
    ShowsAlike lib varOrd Sample.ord b!"SecRequestBodyAccess On\nSecRule ARGS_POST:user \"!@rx good\" \"id:1,phase:3,deny\"\n" b!"" 3 (formOps x y ++ [.result]) := by
  refine C147_bodies (q := 3) (dirs := [.reqBody true, .rule (notGood [{ tk := .argsPost, index := b!"user" }])]) (dirs' := [])
    ((C53_exact id _ _).1 (by decide +kernel)) ((C53_exact id _ _).1 (by decide +kernel)) (notGood_ok ⟨_, rfl⟩ (by decide) (notRegex (by decide))) (fun _ h => nomatch h)
    (notGood_plain _) rfl (by simpa [formOps, sent, chunkOf] using hsize) ?_ ?_
  · intro c hc _ _
    have hc : c ∈ [[notGood [{ tk := .argsPost, index := b!"user" }]]] := hc
    rw [List.mem_singleton.1 hc]
    exact ⟨by show (3 : Int) ≤ 3; omega, (formOps_settled x y).result⟩
  · intro c hc _
    have hc : c ∈ [[notGood [{ tk := .argsPost, index := b!"user" }]]] := hc
    rw [List.mem_singleton.1 hc]
    refine ⟨_, .head _, fun v hv => ?_⟩
    rw [List.mem_singleton.1 hv]
    refine ⟨rfl, ?_⟩
    rintro n ⟨_, e, he, rfl⟩ hP
    have he : e ∈ [(b!"q", [sent false (formOps x y ++ [.result])])] := he
    rw [List.mem_singleton.1 he, ← keep_picked (f := { incl := [b!"user"] }) rfl] at hP
    have hP : ({ incl := [b!"user"] } : Filter).keep b!"q" = true := hP
    revert hP
    decide

/-- Nor is a multipart form with other fields. -/
example {x y v : Bytes} (hxy : x ++ y = sentBody v) (h : 13 ∉ v) (hd : v.head? ≠ some 45) (hlen : (sentBody v).length ≤ 4096) :
    ShowsAlike formLib varOrd Sample.ord b!"SecRequestBodyAccess On\nSecRule ARGS_POST:user \"!@rx good\" \"id:1,phase:3,deny\"\n" b!"" 3 (sentOps x y ++ [.result]) := by
  refine C147_multipart formEnv_media formLib_reads (dirs := [.reqBody true, .rule (notGood [{ tk := .argsPost, index := b!"user" }])]) (dirs' := [])
    ((C53_exact id _ _).1 (by decide +kernel)) ((C53_exact id _ _).1 (by decide +kernel)) (notGood_ok ⟨_, rfl⟩ (by decide) (notRegex (by decide))) (fun _ h => nomatch h)
    (notGood_plain _) rfl (q := 3) (bnd := b!"foo") (ps := [(some b!"a", v), (none, b!"evil")]) ⟨?_, ?_⟩ ?_
  · have e : sent false (sentOps x y ++ [.result]) = sentBody v := by
      rw [← hxy]; simp [sentOps, sent, chunkOf]
    rw [e]; omega
  · intro c hc _ _
    have hc : c ∈ [[notGood [{ tk := .argsPost, index := b!"user" }]]] := hc
    rw [List.mem_singleton.1 hc]
    exact ⟨by show (3 : Int) ≤ 3; omega, (sentOps_sent hxy h hd hlen).result⟩
  · intro c hc _
    have hc : c ∈ [[notGood [{ tk := .argsPost, index := b!"user" }]]] := hc
    rw [List.mem_singleton.1 hc]
    refine ⟨_, .head _, fun w hw => ?_⟩
    rw [List.mem_singleton.1 hw]
    refine ⟨rfl, fun n hn hP => ?_⟩
    have hn : n ∈ [b!"a"] := hn
    rw [← keep_picked (f := { incl := [b!"user"] }) rfl] at hP
    have : ∀ n ∈ [b!"a"], ({ incl := [b!"user"] } : Filter).keep n = false := by decide
    rw [this n hn] at hP
    cases hP

end Verif
