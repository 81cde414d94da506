import Verif.Props.PolicyForm
import Verif.Props.Loop
/-! C134: the encoding of a form makes no difference to the verdicts. -/
namespace Verif
open Sample Spec

/-! ### The machine on two histories -/

/-- The machine with other knowledge. -/
def Spec.Mach.knowing {K : Type} (m : Mach K) (k : K) : Mach K := { m with known := k }

section
variable {K : Type} {S S' : Sight K}

theorem act_knowing {m : Mach K} {k' : K} (h : (S.facts m.known).srcIp = (S'.facts k').srcIp ∧ (S.facts m.known).srcPort = (S'.facts k').srcPort) (a : PAct) :
    act S' (m.knowing k') a = (act S m a).knowing k' := by
  simp only [act]
  cases a.tk
  case deny =>
    have e : denialStatus (m.knowing k') = denialStatus m := rfl
    simp only [say, Mach.knowing, h.1, h.2] at e ⊢
    rw [e]
  case log => simp only [say, Mach.knowing, h.1, h.2]
  case allow =>
    simp only [Mach.knowing, goto]
    split
    · rfl
    · split
      · rfl
      · split <;> rfl
  all_goals rfl

theorem acts_knowing {k' : K} (as : List PAct) : ∀ {m : Mach K}, (S.facts m.known).srcIp = (S'.facts k').srcIp ∧ (S.facts m.known).srcPort = (S'.facts k').srcPort →
    as.foldl (act S') (m.knowing k') = (as.foldl (act S) m).knowing k' ∧ (as.foldl (act S) m).known = m.known := by
  induction as with
  | nil => intro m _; exact ⟨rfl, rfl⟩
  | cons a as ih =>
    intro m h
    have hk := (act_keeps (S := S) a m).1
    rw [List.foldl_cons, List.foldl_cons, act_knowing h]
    obtain ⟨h1, h2⟩ := ih (m := act S m a) (by rw [hk]; exact h)
    exact ⟨h1, h2.trans hk⟩

theorem fire_knowing {k' : K} (c : List PRule) : ∀ {m : Mach K}, (S.facts m.known).srcIp = (S'.facts k').srcIp ∧ (S.facts m.known).srcPort = (S'.facts k').srcPort →
    fire S' (m.knowing k') c = (fire S m c).knowing k' ∧ (fire S m c).known = m.known := by
  induction c with
  | nil => intro m _; exact ⟨rfl, rfl⟩
  | cons p c ih =>
    intro m h
    obtain ⟨g1, g2⟩ := acts_knowing (Spec.inOrder p.acts.action) h
    obtain ⟨h1, h2⟩ := ih (m := (Spec.inOrder p.acts.action).foldl (act S) m) (by rw [g2]; exact h)
    simp only [fire, List.foldl_cons] at h1 h2 ⊢
    rw [g1]
    exact ⟨h1, h2.trans g2⟩

theorem walk_knowing {q : Int} {k' : K} {cs : List (List PRule)} : ∀ {i : Nat} {b : Bool} {m : Mach K},
    (S.facts m.known).srcIp = (S'.facts k').srcIp ∧ (S.facts m.known).srcPort = (S'.facts k').srcPort →
    (∀ c ∈ cs, ∀ p ∈ c, S.holds m.known p ↔ S'.holds k' p) → walk S' q i b cs (m.knowing k') = (walk S q i b cs m).knowing k' := by
  induction cs with
  | nil => intro i b m _ _; cases b <;> rfl
  | cons c cs ih =>
    intro i b m h hh
    have hh' : ∀ c ∈ cs, ∀ p ∈ c, S.holds m.known p ↔ S'.holds k' p := fun d hd => hh d (.tail _ hd)
    cases b with
    | true => rw [walk, walk]; exact ih h hh'
    | false =>
      rw [walk, walk]
      have hc : (∀ p ∈ c, S.holds m.known p) ↔ ∀ p ∈ c, S'.holds k' p :=
        forall_congr' fun p => forall_congr' fun hp => hh c (.head _) p hp
      obtain ⟨g1, g2⟩ := fire_knowing (S := S) (S' := S') (k' := k') c (m := { m with rule := i }) h
      have e : ({ m.knowing k' with rule := i } : Mach K) = Mach.knowing { m with rule := i } k' := rfl
      simp only
      by_cases hf : ∀ p ∈ c, S.holds m.known p
      · rw [if_pos hf, if_pos (show ∀ p ∈ c, S'.holds (Mach.knowing m k').known p from hc.1 hf), e, g1]
        by_cases hd : (fire S { m with rule := (i : Int) } c).verdict.disruptive = true ∨ (fire S { m with rule := (i : Int) } c).phase ≠ q
        · exact (if_pos hd).trans (congrArg (Mach.knowing · k') (if_pos hd).symm)
        · refine (if_neg hd).trans (.trans ?_ (congrArg (Mach.knowing · k') (if_neg hd).symm))
          exact ih (by rw [g2]; exact h) (by rw [g2]; exact hh')
      · rw [if_neg hf, if_neg (show ¬ ∀ p ∈ c, S'.holds (Mach.knowing m k').known p from fun h => hf (hc.2 h))]
        by_cases hd : m.verdict.disruptive = true
        · rw [if_pos hd, if_pos (show (m.knowing k').verdict.disruptive = true from hd)]; rfl
        · rw [if_neg hd, if_neg (show ¬ (m.knowing k').verdict.disruptive = true from hd), e]
          exact ih h hh'

theorem walk_known {q : Int} {cs : List (List PRule)} : ∀ {i : Nat} {b : Bool} {m : Mach K}, (walk S q i b cs m).known = m.known := by
  induction cs with
  | nil => intro i b m; cases b <;> rfl
  | cons c cs ih =>
    intro i b m
    cases b with
    | true => rw [walk]; exact ih
    | false =>
      have hf := (fire_knowing (S := S) (S' := S) (k' := m.known) c (m := { m with rule := (i : Int) }) ⟨rfl, rfl⟩).2
      rw [walk]
      simp only
      split
      · split
        · exact hf
        · exact ih.trans hf
      · split
        · rfl
        · exact ih
end

/-! ### The same calls but for the encoding -/

/-- The same calls in the same order, but for the headers of the request and the chunks of its body. -/
inductive Spec.SameCalls : List Op → List Op → Prop
  | nil : SameCalls [] []
  | same {op : Op} {a b : List Op} : (∀ h, op ≠ .processRequestHeader h) → (∀ p io, op ≠ .appendRequestBody p io) → SameCalls a b → SameCalls (op :: a) (op :: b)
  | header {h h' : Option GoMap} {a b : List Op} : SameCalls a b → SameCalls (.processRequestHeader h :: a) (.processRequestHeader h' :: b)
  | left {p : Bytes} {io : IOFault} {a b : List Op} : SameCalls a b → SameCalls (.appendRequestBody p io :: a) b
  | right {p : Bytes} {io : IOFault} {a b : List Op} : SameCalls a b → SameCalls a (.appendRequestBody p io :: b)

/-- The variables that show something else than request headers and the bytes of the request body. -/
def Spec.pastEncoding : VarTok → Bool
  | .requestHeaders | .requestHeadersNames | .requestCookies | .requestCookiesNames | .requestBody => false
  | _ => true

/-- The request body is an urlencoded form by the time it is read, with these pieces, none of them broken. -/
structure Spec.UrlSent (lib : Lib) (q : Int) (qs : List Piece) (ops : List Op) : Prop where
  settled : FormSettled lib q ops
  type : ∀ pre, pre <+: ops → (∃ o ∈ pre, ∃ p, phaseOf o = some p ∧ q ≤ p) → b!"application/x-www-form-urlencoded" <+: declared lib (pre.foldl learn {})
  query : Query (sent false ops) qs
  whole : .broken ∉ qs

/-- Alike but for the headers and the body of the request. -/
structure Spec.KnownAlike (k k' : Known) : Prop where
  facts : { k.facts with headers := none } = { k'.facts with headers := none }
  resp : k.resp = k'.resp

theorem Spec.KnownAlike.learn {k k' : Known} (h : KnownAlike k k') {op : Op} (h1 : ∀ h, op ≠ .processRequestHeader h) (h2 : ∀ p io, op ≠ .appendRequestBody p io) :
    KnownAlike (learn k op) (learn k' op) := by
  obtain ⟨hf, hr⟩ := h
  obtain ⟨f, r, s⟩ := k
  obtain ⟨f', r', s'⟩ := k'
  cases f; cases f'
  simp only [Facts.mk.injEq] at hf hr
  obtain ⟨rfl, rfl, rfl, rfl, rfl, rfl, rfl, _, rfl, rfl, rfl⟩ := hf
  subst hr
  cases op
  case processRequestHeader => exact absurd rfl (h1 _)
  case appendRequestBody => exact absurd rfl (h2 _ _)
  case appendResponseBody p io =>
    simp only [Verif.Spec.learn]
    split <;> exact ⟨rfl, rfl⟩
  case processResponseHeaders c p o => cases o <;> exact ⟨rfl, rfl⟩
  all_goals exact ⟨rfl, rfl⟩

theorem Spec.KnownAlike.header {k k' : Known} (h : KnownAlike k k') (a b : Option GoMap) :
    KnownAlike (Spec.learn k (.processRequestHeader a)) (Spec.learn k' (.processRequestHeader b)) := by
  obtain ⟨hf, hr⟩ := h
  obtain ⟨f, r, s⟩ := k
  obtain ⟨f', r', s'⟩ := k'
  cases f; cases f'
  simp only [Facts.mk.injEq] at hf hr
  obtain ⟨rfl, rfl, rfl, rfl, rfl, rfl, rfl, _, rfl, rfl, rfl⟩ := hf
  subst hr
  cases a <;> cases b <;> exact ⟨rfl, rfl⟩

theorem Spec.KnownAlike.source {k k' : Known} (h : KnownAlike k k') : k.facts.srcIp = k'.facts.srcIp ∧ k.facts.srcPort = k'.facts.srcPort := by
  have := h.facts
  simp only [Facts.mk.injEq] at this
  exact ⟨this.1, this.2.1⟩

/-! ### What the variables show -/

theorem valuesIn_pairs {P : Bytes → Prop} {vals : List Bytes} (g : GoMap) (cs : List (Bytes × Bytes)) :
    ValuesIn P (g ++ addPairs [] cs) vals ↔ ValuesIn P (g ++ cs.map fun f => (f.1, [f.2])) vals := by
  simp only [ValuesIn, List.filter_append, List.flatMap_append]
  refine exists_congr fun keep => and_congr_right fun _ => ?_
  have h1 : (((addPairs [] cs).filter fun e => keep e.1).flatMap Prod.snd).Perm ((cs.filter fun c => keep c.1).map Prod.snd) := by
    simpa using addPairs_values [] cs keep
  rw [unmapped_values]
  constructor
  · exact fun h => h.trans (h1.append_left _)
  · exact fun h => h.trans (h1.symm.append_left _)

theorem namesIn_pairs {P : Bytes → Prop} {vals : List Bytes} (cs : List (Bytes × Bytes)) :
    NamesIn P (addPairs [] cs) vals ↔ NamesIn P (cs.map fun f => (f.1, [f.2])) vals := by
  simp only [NamesIn, addPairs_keys, unmapped_names]
  simp

/-- The variables show the same. -/
theorem lists_alike {lib : Lib} {a b : Bool} {fs : List (Bytes × Bytes)} {k k' : Known} (h : KnownAlike k k') {P : Bytes → Prop} {tk : VarTok}
    (ht : pastEncoding tk = true)
    (hargs : readsArgs tk = true → ∃ m m', PostArgs lib a k m ∧ SentArgs a fs k' m' ∧
      (m = addPairs [] fs ∧ m' = fs.map (fun f => (f.1, [f.2])) ∨ m = [] ∧ m' = [])) (vals : List Bytes) :
    ListsAll lib a b k P vals tk ↔ ListsForm lib a b fs k' P vals tk := by
  have hg : getArgs lib k = getArgs lib k' := by
    have := h.facts
    simp only [Facts.mk.injEq] at this
    simp only [getArgs, this.2.2.2.2.1]
  by_cases ha : readsArgs tk = true
  · obtain ⟨m, m', h1, h2, hm⟩ := hargs ha
    have hv : ∀ g vals, ValuesIn P (g ++ m) vals ↔ ValuesIn P (g ++ m') vals := by
      intro g vals
      rcases hm with ⟨rfl, rfl⟩ | ⟨rfl, rfl⟩
      · exact valuesIn_pairs g fs
      · exact .rfl
    have hn : ∀ vals, NamesIn P m vals ↔ NamesIn P m' vals := by
      intro vals
      rcases hm with ⟨rfl, rfl⟩ | ⟨rfl, rfl⟩
      · exact namesIn_pairs fs
      · exact .rfl
    cases tk <;> first | (cases ha; done) | skip
    · constructor
      · rintro ⟨n, g1, g2⟩
        rw [g1.unique h1, hg, hv] at g2
        exact ⟨m', h2, g2⟩
      · rintro ⟨n, g1, g2⟩
        rw [g1.unique h2, ← hg, ← hv] at g2
        exact ⟨m, h1, g2⟩
    · constructor
      · rintro ⟨n, g1, g2⟩
        rw [g1.unique h1] at g2
        exact ⟨m', h2, (hv [] vals).1 g2⟩
      · rintro ⟨n, g1, g2⟩
        rw [g1.unique h2] at g2
        exact ⟨m, h1, (hv [] vals).2 g2⟩
    · constructor
      · rintro ⟨n, g1, g2⟩
        rw [g1.unique h1] at g2
        exact ⟨m', h2, (hn vals).1 g2⟩
      · rintro ⟨n, g1, g2⟩
        rw [g1.unique h2] at g2
        exact ⟨m, h1, (hn vals).2 g2⟩
    · constructor
      · rintro ⟨n, x, y, g1, g2, g3, g4⟩
        rw [g1.unique h1] at g3
        exact ⟨m', x, y, h2, hg ▸ g2, (hn y).1 g3, g4⟩
      · rintro ⟨n, x, y, g1, g2, g3, g4⟩
        rw [g1.unique h2] at g3
        exact ⟨m, x, y, h1, hg ▸ g2, (hn y).2 g3, g4⟩
  · rw [listsForm_plain (by simpa using ha)]
    obtain ⟨hf, hr⟩ := h
    obtain ⟨f, r, s⟩ := k
    obtain ⟨f', r', s'⟩ := k'
    cases f; cases f'
    simp only [Facts.mk.injEq] at hf hr
    obtain ⟨rfl, rfl, rfl, rfl, rfl, rfl, rfl, _, rfl, rfl, rfl⟩ := hf
    subst hr
    cases tk <;> first | (cases ht; done) | exact absurd rfl ha | exact .rfl

/-! ### The same verdicts -/

/-- No more of the body comes after a call for phase `q`. -/
theorem sent_settled {q p : Int} {ops pre post : List Op} {op : Op} (he : ops = pre ++ op :: post) (hp : phaseOf op = some p) (hq : q ≤ p)
    (hs : ∀ pre p io post, ops = pre ++ .appendRequestBody p io :: post → ∀ o ∈ pre, ∀ q', phaseOf o = some q' → q' < q) :
    ((pre ++ [op]).foldl learn ({} : Known)).req = sent false ops := by
  rw [learned_req, he]
  simp only [sent, List.flatMap_append, List.flatMap_cons, List.flatMap_nil, List.append_nil]
  have hpost : ∀ o ∈ post, (chunkOf false o).getD [] = [] := by
    intro o ho
    cases o <;> try rfl
    rename_i c io
    obtain ⟨a, b, rfl⟩ := List.append_of_mem ho
    have := hs (pre ++ op :: a) c io b (by rw [he]; simp) op (by simp) p hp
    omega
  rw [List.flatMap_eq_nil_iff.2 hpost]
  simp

/-- The conditions of a chain are the same for both encodings. -/
theorem holds_alike {lib : Lib} (hq : lib.parseQuery = parseQuery) {req resp : Bool} {q p : Int} {bnd : Bytes}
    {ps : List (Option Bytes × Bytes)} {qs : List Piece} {ops ops' pre pre' post post' : List Op} {op op' : Op} (he : ops = pre ++ op :: post)
    (he' : ops' = pre' ++ op' :: post') (hp : phaseOf op = some p) (hp' : phaseOf op' = some p)
    (hk : KnownAlike ((pre ++ [op]).foldl learn {}) ((pre' ++ [op']).foldl learn {})) (hf : argsOf qs = fieldsOf ps) {c : List PRule}
    (hv : ∀ r ∈ c, ∀ v ∈ r.vars, pastEncoding v.tk = true)
    (hform : (∃ r ∈ c, ∃ v ∈ r.vars, readsArgs v.tk = true) → q ≤ p ∧ UrlSent lib q qs ops ∧ FormSent q bnd ps ops') {r : PRule} (hr : r ∈ c) :
    HoldsAll lib req resp ((pre ++ [op]).foldl learn {}) r ↔ HoldsForm lib req resp (fieldsOf ps) ((pre' ++ [op']).foldl learn {}) r := by
  have key : ∀ v ∈ r.vars, ∀ P vals, ListsAll lib req resp ((pre ++ [op]).foldl learn {}) P vals v.tk ↔
      ListsForm lib req resp (fieldsOf ps) ((pre' ++ [op']).foldl learn {}) P vals v.tk := by
    intro v hvr P vals
    refine lists_alike hk (hv r hr v hvr) (fun ha => ?_) vals
    obtain ⟨hqp, hu, hs⟩ := hform ⟨r, hr, v, hvr, ha⟩
    have e1 := sent_settled he hp hqp hu.settled.settled
    have e2 := sent_settled he' hp' hqp hs.settled
    have hty := hu.type (pre ++ [op]) ⟨post, by rw [he]; simp⟩ ⟨op, by simp, p, hp, hqp⟩
    have hpq := parseQuery_query hu.query
    have hmeth : ((pre ++ [op]).foldl learn ({} : Known)).facts.method = ((pre' ++ [op']).foldl learn ({} : Known)).facts.method := by
      have := hk.facts
      simp only [Facts.mk.injEq] at this
      exact this.2.2.2.2.2.1
    have hne : ((pre' ++ [op']).foldl learn ({} : Known)).req ≠ [] := by
      obtain ⟨w, rest, ⟨parts, _, e⟩, _⟩ := hs.form
      rw [e2, e]; simp
    by_cases h1 : Posted req ((pre ++ [op]).foldl learn {})
    · have h2 : Posted req ((pre' ++ [op']).foldl learn {}) := ⟨h1.1, hmeth ▸ h1.2.1, hne⟩
      refine ⟨_, _, .inl ⟨h1, hty, rfl⟩, .inl ⟨h2, rfl⟩, .inl ⟨?_, rfl⟩⟩
      rw [hq, e1, hpq, hf]
    · by_cases h2 : Posted req ((pre' ++ [op']).foldl learn {})
      · have hn : sent false ops = [] := by
          refine Classical.byContradiction fun hc => h1 ⟨h2.1, hmeth ▸ h2.2.1, ?_⟩
          rw [e1]; exact hc
        have hz : fieldsOf ps = [] := by
          have e3 : addPairs [] (argsOf qs) = [] := by
            have : parseQuery [] = ([], none) := by simp [parseQuery, parseQueryLoop]
            rw [hn, this] at hpq
            exact (congrArg Prod.fst hpq).symm
          rw [← hf]
          refine List.eq_nil_iff_forall_not_mem.2 fun x hx => ?_
          have := (addPairs_keys [] (argsOf qs) x.1).2 (.inr (List.mem_map_of_mem hx))
          rw [e3] at this
          cases this
        exact ⟨_, _, .inr ⟨fun hh => h1 hh.1, rfl⟩, .inl ⟨h2, rfl⟩, .inr ⟨rfl, by rw [hz]; rfl⟩⟩
      · exact ⟨_, _, .inr ⟨fun hh => h1 hh.1, rfl⟩, .inr ⟨h2, rfl⟩, .inr ⟨rfl, rfl⟩⟩
  refine exists_congr fun v => and_congr_right fun hvr => exists_congr fun y => and_congr_left fun _ => ?_
  exact exists_congr fun vals => and_congr_left fun _ => key v hvr _ vals

theorem call_knowing {S S' : Sight Known} (hS : S.learn = learn) (hS' : S'.learn = learn) (hF : S.facts = Known.facts) (hF' : S'.facts = Known.facts)
    {chains : List (List PRule)} {m : Mach Known} {k' : Known} {op op' : Op} (hp : phaseOf op = phaseOf op') (hn : phaseOf op = none → op = op')
    (hk : KnownAlike (learn m.known op) (learn k' op'))
    (hh : ∀ p, phaseOf op = some p → m.phase < p → ∀ c ∈ chains, chainPhase c = p → ∀ r ∈ c, S.holds (learn m.known op) r ↔ S'.holds (learn k' op') r) :
    (call S chains m op).1.known = learn m.known op ∧ (call S' chains (m.knowing k') op').1 = (call S chains m op).1.knowing (learn k' op') ∧
      (call S' chains (m.knowing k') op').2 = (call S chains m op).2 := by
  have hsrc : (S.facts (learn m.known op)).srcIp = (S'.facts (learn k' op')).srcIp ∧ (S.facts (learn m.known op)).srcPort = (S'.facts (learn k' op')).srcPort := by
    rw [hF, hF']; exact hk.source
  cases hph : phaseOf op with
  | some q =>
    have hph' : phaseOf op' = some q := hp ▸ hph
    simp only [call, hph, hph', hS, hS']
    have e : ({ m.knowing k' with known := learn (m.knowing k').known op' } : Mach Known) = Mach.knowing { m with known := learn m.known op } (learn k' op') := rfl
    rw [e]
    by_cases h1 : q ≤ m.phase
    · rw [if_pos h1, if_pos (show q ≤ (m.knowing k').phase from h1)]
      exact ⟨rfl, rfl, rfl⟩
    · rw [if_neg h1, if_neg (show ¬ q ≤ (m.knowing k').phase from h1)]
      by_cases h2 : m.aborted = true
      · rw [if_pos h2, if_pos (show (m.knowing k').aborted = true from h2)]
        exact ⟨rfl, rfl, rfl⟩
      · rw [if_neg h2, if_neg (show ¬ (m.knowing k').aborted = true from h2)]
        refine ⟨walk_known, ?_, rfl⟩
        refine walk_knowing (m := goto q { m with known := learn m.known op }) hsrc fun c hc => ?_
        obtain ⟨hc1, hc2⟩ := List.mem_filter.1 hc
        exact hh q hph (by omega) c hc1 (of_decide_eq_true hc2)
  | none =>
    have := hn hph
    subst this
    simp only [call, hph, hS, hS']
    cases op
    case result =>
      by_cases h2 : m.aborted = true
      · simp only [Mach.knowing, h2, if_true, and_self]
      · simp only [Mach.knowing, h2, if_false, and_self, Bool.false_eq_true]
    case abortWithError c e =>
      refine ⟨rfl, ?_, rfl⟩
      simp only [say, Mach.knowing, hsrc.1, hsrc.2]
    case logf msg =>
      refine ⟨rfl, ?_, rfl⟩
      simp only [say, Mach.knowing, hsrc.1, hsrc.2]
    all_goals first | exact ⟨rfl, rfl, rfl⟩ | cases hph

/-- The verdicts shown along the calls. -/
theorem run_alike {S S' : Sight Known} (hS : S.learn = learn) (hS' : S'.learn = learn) (hF : S.facts = Known.facts) (hF' : S'.facts = Known.facts)
    {chains : List (List PRule)} {ops ops' : List Op}
    (hh : ∀ {pre pre' post post' op op' p}, ops = pre ++ op :: post → ops' = pre' ++ op' :: post' → phaseOf op = some p → phaseOf op' = some p → 1 ≤ p →
      KnownAlike ((pre ++ [op]).foldl learn {}) ((pre' ++ [op']).foldl learn {}) →
      ∀ c ∈ chains, chainPhase c = p → ∀ r ∈ c, S.holds ((pre ++ [op]).foldl learn {}) r ↔ S'.holds ((pre' ++ [op']).foldl learn {}) r) :
    ∀ {a b : List Op}, SameCalls a b → ∀ {pre pre' : List Op}, ops = pre ++ a → ops' = pre' ++ b → ∀ {m : Mach Known}, 0 ≤ m.phase →
      m.known = pre.foldl learn {} → KnownAlike (pre.foldl learn {}) (pre'.foldl learn {}) →
      (Spec.run S chains m a).2 = (Spec.run S' chains (m.knowing (pre'.foldl learn {})) b).2 := by
  have snoc : ∀ (pre : List Op) op, (pre ++ [op]).foldl learn ({} : Known) = learn (pre.foldl learn {}) op := by
    intro pre op; rw [List.foldl_append]; rfl
  intro a b h
  induction h with
  | nil => intros; rfl
  | @same op a b h1 h2 _ ih =>
    intro pre pre' e e' m hl hm hk
    have hk' := hk.learn h1 h2
    obtain ⟨g1, g2, g3⟩ := call_knowing hS hS' hF hF' (chains := chains) (m := m) (k' := pre'.foldl learn {}) (op := op) (op' := op) rfl (fun _ => rfl)
      (by rw [hm]; exact hk') (fun p hp hlt c hc hcp r hr => by
        rw [hm, ← snoc, ← snoc]
        exact hh e e' hp hp (by omega) (by rw [snoc, snoc]; exact hk') c hc hcp r hr)
    simp only [Spec.run]
    rw [g3, g2, ← snoc]
    rw [ih (pre := pre ++ [op]) (pre' := pre' ++ [op]) (by rw [e]; simp) (by rw [e']; simp) (call_low hl _) (by rw [g1, hm, snoc]) (by rw [snoc, snoc]; exact hk')]
  | @header x y a b _ ih =>
    intro pre pre' e e' m hl hm hk
    have hk' := hk.header x y
    obtain ⟨g1, g2, g3⟩ := call_knowing hS hS' hF hF' (chains := chains) (m := m) (k' := pre'.foldl learn {}) (op := .processRequestHeader x)
      (op' := .processRequestHeader y) rfl (fun h => by cases h)
      (by rw [hm]; exact hk') (fun p hp hlt c hc hcp r hr => by
        rw [hm, ← snoc, ← snoc]
        exact hh e e' hp hp (by omega) (by rw [snoc, snoc]; exact hk') c hc hcp r hr)
    simp only [Spec.run]
    rw [g3, g2, ← snoc]
    rw [ih (pre := pre ++ [.processRequestHeader x]) (pre' := pre' ++ [.processRequestHeader y]) (by rw [e]; simp) (by rw [e']; simp) (call_low hl _)
      (by rw [g1, hm, snoc]) (by rw [snoc, snoc]; exact hk')]
  | @left p io a b _ ih =>
    intro pre pre' e e' m hl hm hk
    have e1 : call S chains m (.appendRequestBody p io) = ({ m with known := S.learn m.known (.appendRequestBody p io) }, []) := rfl
    simp only [Spec.run, e1, List.nil_append]
    exact ih (pre := pre ++ [.appendRequestBody p io]) (pre' := pre') (by rw [e]; simp) e' (m := { m with known := S.learn m.known (.appendRequestBody p io) }) hl
      (by rw [snoc, ← hm, hS]) (by rw [snoc]; exact ⟨hk.facts, hk.resp⟩)
  | @right p io a b _ ih =>
    intro pre pre' e e' m hl hm hk
    have e1 : ∀ m : Mach Known, call S' chains m (.appendRequestBody p io) = ({ m with known := S'.learn m.known (.appendRequestBody p io) }, []) := fun _ => rfl
    have := ih (pre := pre) (pre' := pre' ++ [.appendRequestBody p io]) e (by rw [e']; simp) (m := m) hl hm (by rw [snoc]; exact ⟨hk.facts, hk.resp⟩)
    rw [this]
    simp only [Spec.run, e1, List.nil_append, hS']
    rw [snoc]
    rfl

/-- C134.  Load any text of well-formed directives (with no `allow:request` in a response phase) none of whose rules looks at
request headers, cookies or the bytes of the request body, and make two histories of calls that are the same but for the
request headers and the chunks of the request body.  If rules read arguments from the request body, they do so from some phase
`q` on, by which the body is a form: urlencoded in the first history, multipart in the second, with the same fields in the same
order.  Then the host is shown the same verdicts, log lines included. -/
theorem C134_encoding {lib : Lib} (hmt : lib.ReadsMedia) (hl : lib.ReadsForms) (hq : lib.parseQuery = parseQuery) {vo : VarOrd} {ord : IterOrd} {text : Bytes}
    {dirs : List PDir} (ht : Program text dirs) (hok : ∀ d ∈ dirs, DirOk lib d) (hret : NoReturn (chainsOf (rulesIn dirs)))
    (hv : ∀ r ∈ rulesIn dirs, ∀ v ∈ r.vars, pastEncoding v.tk = true) :
    ∃ set, DireSet.addSecLangString lib vo [] text = .ok (set, none) ∧
      ∀ {ops ops' : List Op} {q : Int} {qs : List Piece} {bnd : Bytes} {ps : List (Option Bytes × Bytes)}, SameCalls ops ops' →
      (sent false ops).length ≤ 131072 → (sent false ops').length ≤ 131072 → argsOf qs = fieldsOf ps →
      (∀ c ∈ chainsOf (rulesIn dirs), 1 ≤ chainPhase c → (∃ p ∈ c, ∃ v ∈ p.vars, readsArgs v.tk = true) →
        q ≤ chainPhase c ∧ UrlSent lib q qs ops ∧ FormSent q bnd ps ops') →
      ∀ n, (chainsOf (rulesIn dirs)).length + 2 ≤ n → ∃ t t' os os' tr tr',
        (set.execute newEngine).newTransaction.steps ((set.execute newEngine).env lib ord) (set.execute newEngine).ruleSet n ops = .ok (t, os, tr) ∧
        (set.execute newEngine).newTransaction.steps ((set.execute newEngine).env lib ord) (set.execute newEngine).ruleSet n ops' = .ok (t', os', tr') ∧
        shown os = shown os' := by
  obtain ⟨set, h1, h2⟩ := C88_machine (vo := vo) (ord := ord) ht hok hret
  obtain ⟨set', h1', h2'⟩ := C133_machine hmt hl (vo := vo) (ord := ord) ht hok hret
  rw [h1] at h1'
  cases h1'
  refine ⟨set, h1, fun {ops ops' q qs bnd ps} hsame hs hs' hf hform n hn => ?_⟩
  obtain ⟨t, os, tr, g1, g2⟩ := h2 (ops := ops) (q := q) hs (fun c hc hp hr => ⟨(hform c hc hp hr).1, (hform c hc hp hr).2.1.settled⟩) n hn
  obtain ⟨t', os', tr', g1', g2'⟩ := h2' (ops := ops') (q := q) (bnd := bnd) (ps := ps) hs' (fun c hc hp hr => ⟨(hform c hc hp hr).1, (hform c hc hp hr).2.2⟩) n hn
  refine ⟨t, t', os, os', tr, tr', g1, g1', g2.trans (.trans ?_ g2'.symm)⟩
  refine run_alike (S := bodySight lib (reqAccess dirs) (respAccess dirs)) (S' := formSight lib (reqAccess dirs) (respAccess dirs) (fieldsOf ps)) rfl rfl rfl rfl
    (fun {pre pre' post post' op op' p} e e' hp hp' hpos hk c hc hcp r hr => ?_) hsame (pre := []) (pre' := []) rfl rfl (m := { known := {} }) (Int.le_refl 0) rfl ⟨rfl, rfl⟩
  exact holds_alike hq e e' hp hp' hk hf (fun r hr v hvr => hv r (mem_chainsOf hc hr) v hvr) (fun hra => hcp ▸ hform c hc (by omega) hra) hr

/-! ### Example -/

theorem urlType_reads : parseMediaType id b!"application/x-www-form-urlencoded" = (b!"application/x-www-form-urlencoded", []) := by decide +kernel

theorem formOps_alike {lib : Lib} (hmt : lib.ReadsMedia) (hhi : lib.lowerHi = id) (hq : lib.parseQuery = parseQuery) {x y : Bytes} {qs : List Piece}
    (hxy : Query (x ++ y) qs) (hb : .broken ∉ qs) : UrlSent lib 3 qs (formOps x y) := by
  have hsent : sent false (formOps x y) = x ++ y := by simp [formOps, sent, chunkOf]
  have htype : lib.mediaType b!"application/x-www-form-urlencoded" = (b!"application/x-www-form-urlencoded", []) := by
    rw [hmt, hhi]; exact urlType_reads
  have hoctet : lib.mediaType b!"application/octet-stream" = (b!"application/octet-stream", []) := by
    have : parseMediaType id b!"application/octet-stream" = (b!"application/octet-stream", []) := by decide +kernel
    rw [hmt, hhi]; exact this
  have hkeep : ∀ ops : List Op, (∀ o ∈ ops, (∃ b, o = .appendRequestBody b {}) ∨ o = .processRequestBody) → ∀ k : Known,
      (ops.foldl learn k).facts.headers = k.facts.headers := by
    intro ops hops
    induction ops with
    | nil => intro k; rfl
    | cons o ops ih =>
      intro k
      rw [List.foldl_cons, ih fun o ho => hops o (.tail _ ho)]
      rcases hops o (.head _) with ⟨b, rfl⟩ | rfl <;> rfl
  have hdecl : ∀ pre, pre <+: formOps x y → pre.length < 3 ∧ declared lib (pre.foldl learn {}) = b!"application/octet-stream" ∧
        (∀ o ∈ pre, ∀ p, phaseOf o = some p → p < 3) ∨
      declared lib (pre.foldl learn {}) = b!"application/x-www-form-urlencoded" := by
    rintro pre ⟨post, e⟩
    rcases pre with _ | ⟨o1, _ | ⟨o2, _ | ⟨o3, pre⟩⟩⟩ <;>
      simp only [formOps, List.nil_append, List.cons_append, List.cons.injEq] at e
    · exact .inl ⟨by decide, congrArg Prod.fst hoctet, fun o ho => by cases ho⟩
    · obtain ⟨rfl, _⟩ := e
      exact .inl ⟨by decide, congrArg Prod.fst hoctet, fun o ho p hp => by rw [List.mem_singleton.1 ho] at hp; cases hp; decide⟩
    · obtain ⟨rfl, rfl, _⟩ := e
      refine .inl ⟨by decide, congrArg Prod.fst hoctet, fun o ho p hp => ?_⟩
      simp only [List.mem_cons, List.not_mem_nil, or_false] at ho
      rcases ho with rfl | rfl <;> cases hp <;> decide
    · obtain ⟨rfl, rfl, rfl, e⟩ := e
      have hpre : ∀ o ∈ pre, (∃ b, o = .appendRequestBody b {}) ∨ o = .processRequestBody := by
        intro o ho
        have : o ∈ pre ++ post := List.mem_append_left _ ho
        rw [e] at this
        simp only [List.mem_cons, List.not_mem_nil, or_false] at this
        rcases this with rfl | rfl | rfl
        · exact .inl ⟨_, rfl⟩
        · exact .inl ⟨_, rfl⟩
        · exact .inr rfl
      refine .inr ?_
      simp only [declared, List.foldl_cons]
      rw [hkeep pre hpre]
      exact congrArg Prod.fst htype
  exact {
    settled := {
      low := by omega
      high := by omega
      settled := (formOps_settled x y).settled
      wellFormed := by
        rw [learned_req, hsent, hq]
        show (parseQuery ([] ++ (x ++ y))).2 = none
        rw [List.nil_append, parseQuery_query hxy, if_neg hb]
      plain := by
        intro pre hpre
        rcases hdecl pre hpre with ⟨_, h, _⟩ | h <;> rw [h] <;> decide }
    type := by
      rintro pre hpre ⟨o, ho, p, hp, hle⟩
      rcases hdecl pre hpre with ⟨_, _, h⟩ | h
      · have := h o ho p hp
        omega
      · rw [h]; exact List.prefix_refl _
    query := by rw [hsent]; exact hxy
    whole := hb }

theorem Spec.UrlSent.result {lib : Lib} {q : Int} {qs : List Piece} {ops : List Op} (h : UrlSent lib q qs ops) : UrlSent lib q qs (ops ++ [.result]) where
  settled := h.settled.result
  type := by
    rintro pre ⟨post, e⟩ hp
    rcases List.eq_nil_or_concat post with rfl | ⟨b, x, rfl⟩
    · rw [List.append_nil] at e
      subst e
      rw [List.foldl_append]
      refine h.type ops (List.prefix_refl _) ?_
      obtain ⟨o, ho, p, h1, h2⟩ := hp
      rcases List.mem_append.1 ho with ho | ho
      · exact ⟨o, ho, p, h1, h2⟩
      · rw [List.mem_singleton.1 ho] at h1; cases h1
    · rw [List.concat_eq_append, ← List.append_assoc] at e
      obtain ⟨e1, _⟩ := List.append_inj' e rfl
      exact h.type pre ⟨b, e1⟩ hp
  query := by
    have : sent false (ops ++ [.result]) = sent false ops := by simp [sent, chunkOf]
    rw [this]; exact h.query
  whole := h.whole

theorem sentOps_same (x y x' y' : Bytes) : SameCalls (formOps x y ++ [.result]) (sentOps x' y' ++ [.result]) :=
  .same (by simp) (by simp) (.same (by simp) (by simp) (.header (.left (.left (.right (.right (.same (by simp) (by simp) (.same (by simp) (by simp) .nil))))))))

/-- A form with the field `a`, sent in pieces in either encoding, gets the same verdict under the text of the example of C133. -/
example (x y x' y' : Bytes) (h : x ++ y = b!"a=evil") (h' : x' ++ y' = sentBody b!"evil") :
    ∃ set, DireSet.addSecLangString formLib varOrd [] sentText = .ok (set, none) ∧ ∀ n ≥ 3, ∃ t t' os os' tr tr',
      (set.execute newEngine).newTransaction.steps ((set.execute newEngine).env formLib Sample.ord) (set.execute newEngine).ruleSet n (formOps x y ++ [.result]) = .ok (t, os, tr) ∧
      (set.execute newEngine).newTransaction.steps ((set.execute newEngine).env formLib Sample.ord) (set.execute newEngine).ruleSet n (sentOps x' y' ++ [.result]) = .ok (t', os', tr') ∧
      shown os = shown os' := by
  have hret : NoReturn (chainsOf (rulesIn sentDirs)) := by
    intro c hc _ p hp a ha
    have hc : c = [sentRule] := by simpa using (show c ∈ [[sentRule]] from hc)
    subst hc
    rw [List.mem_singleton.1 hp] at ha
    rw [List.mem_singleton.1 ha]
    intro h; cases h
  have hv : ∀ r ∈ rulesIn sentDirs, ∀ v ∈ r.vars, pastEncoding v.tk = true := by
    intro r hr v hvr
    have hr : r = sentRule := by simpa using (show r ∈ [sentRule] from hr)
    subst hr
    rw [List.mem_singleton.1 hvr]; rfl
  obtain ⟨set, h1, h2⟩ := C134_encoding (lib := formLib) formEnv_media formLib_reads rfl (vo := varOrd) (ord := Sample.ord) sentText_program sentText_ok hret hv
  refine ⟨set, h1, h2 (q := 3) (qs := [.arg b!"a" b!"evil"]) (bnd := b!"foo") (ps := [(some b!"a", b!"evil"), (none, b!"evil")]) (sentOps_same x y x' y') ?_ ?_ rfl ?_⟩
  · have : sent false (formOps x y ++ [.result]) = b!"a=evil" := by rw [← h]; simp [formOps, sent, chunkOf]
    rw [this]; decide
  · have : sent false (sentOps x' y' ++ [.result]) = sentBody b!"evil" := by rw [← h']; simp [sentOps, sent, chunkOf]
    rw [this]; decide +kernel
  · intro c hc _ _
    have hc : c = [sentRule] := by simpa using (show c ∈ [[sentRule]] from hc)
    subst hc
    refine ⟨by decide, (formOps_alike formEnv_media rfl rfl ?_ (by decide)).result, (sentOps_sent h' (by decide) (by decide) (by decide +kernel)).result⟩
    rw [h]
    exact .one (by decide) ((key_arg (p := b!"a=evil") (by decide) _ _).1 ⟨by decide +kernel, by decide +kernel⟩)

end Verif
