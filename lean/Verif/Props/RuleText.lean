import Verif.Props.EndToEnd
/-!
Properties C64 to C67: what of a rule text, as its author types it, reaches the
engine.
-/
namespace Verif
open Sample Spec

/-- Text that can be typed between double quotes on one line. -/
def Spec.Typed (s : Bytes) : Prop := ∀ c ∈ s, c ≠ 34 ∧ ¬ Nl c

/-- A rule as it is typed: `SecRule "variables" "operator" "actions"`. -/
def Spec.ruleLine (vs os as : Bytes) : Bytes :=
  b!"SecRule \"" ++ vs ++ b!"\" \"" ++ os ++ b!"\" \"" ++ as ++ b!"\"\n"

/-! ### Typed strings -/

theorem quoted_typed {s : Bytes} (h : Typed s) (hb : 92 ∉ s) : quoted 34 s = 34 :: s ++ [34] := by
  have : s.flatMap (escByte 34) = s := by
    induction s with
    | nil => rfl
    | cons c s ih =>
      simp only [Typed, List.mem_cons, forall_eq_or_imp, not_or] at h hb
      rw [List.flatMap_cons, ih h.2 hb.2]
      have h1 := h.1.1
      have h2 : c ≠ 10 := fun e => h.1.2 (.inl e)
      have h3 : c ≠ 13 := fun e => h.1.2 (.inr e)
      have h4 : c ≠ 92 := fun e => hb.1 e.symm
      simp [escByte, h1, h2, h3, h4]
  rw [quoted, this]

/-- A rule line whose three strings are typed without backslashes means what its
strings mean. -/
theorem ruleLine_directive {vs os as : Bytes} (hv : Typed vs) (hv' : 92 ∉ vs) (ho : Typed os) (ho' : 92 ∉ os) (ha : Typed as) (ha' : 92 ∉ as)
    {vars : List PVar} {op : POp} {acts : PActs} (h1 : Vars vs vars) (h2 : Oper os op) (h3 : Acts as acts) :
    Directive (ruleLine vs os as) (.rule { vars, op, acts }) [10] := by
  have e : ruleLine vs os as = b!"SecRule" ++ (32 :: (quoted 34 vs ++ (32 :: (quoted 34 os ++ (32 :: (quoted 34 as ++ [10])))))) := by
    rw [quoted_typed hv hv', quoted_typed ho ho', quoted_typed ha ha']
    simp [ruleLine]
  rw [e]
  have hq : Quote 34 := .inl rfl
  exact .rule ((caseVariant_iff _ _).2 rfl) (by intro c hc; cases hc; simp [Letter]) (token_space (token_quoted hq vs _)) h1
    (token_space (token_quoted hq os _)) h2 (token_space (token_quoted hq as _)) h3

theorem parse_ruleLine (hi : Rune → Rune) {vs os as : Bytes} (hv : Typed vs) (hv' : 92 ∉ vs) (ho : Typed os) (ho' : 92 ∉ os) (ha : Typed as)
    (ha' : 92 ∉ as) {vars : List PVar} {op : POp} {acts : PActs} (h1 : Vars vs vars) (h2 : Oper os op) (h3 : Acts as acts) :
    parse hi (ruleLine vs os as) = .ok (.ok [.rule { vars, op, acts }]) := by
  rw [C53_exact]
  exact .dir (f := []) (by simp [Filler]) (ruleLine_directive hv hv' ho ho' ha ha' h1 h2 h3) (.done (by simp [Filler, Nl]))

theorem token_det {t v v' r r' : Bytes} (h : Token t v r) (h' : Token t v' r') : v = v' ∧ r = r' := by
  obtain ⟨l, e⟩ := readString_token h true 1
  obtain ⟨l', e'⟩ := readString_token h' true 1
  rw [e] at e'
  simp only [Res.ok.injEq, Prod.mk.injEq, Scan.mk.injEq, Except.ok.injEq] at e'
  exact ⟨e'.2, e'.1.2.1⟩

theorem gap_quote {g t x : Bytes} {c : UInt8} (hg : Gap g) (hc : ¬ Sp c) (h : g ++ c :: t = 32 :: 34 :: x) :
    c = 34 ∧ t = x := by
  cases hg with
  | nil => simp only [List.nil_append, List.cons.injEq] at h; exact absurd (.inl h.1) hc
  | @blank d g hd hg =>
    simp only [List.cons_append, List.cons.injEq] at h
    obtain ⟨rfl, h⟩ := h
    cases hg with
    | nil => simpa using h
    | @blank d g hd hg =>
      simp only [List.cons_append, List.cons.injEq] at h
      obtain ⟨rfl, _⟩ := h
      rcases hd with h | h | h | h <;> cases h
    | cont => simp at h
    | cont2 => simp at h
  | cont => simp at h
  | cont2 => simp at h

/-- A token that begins with a double quote. -/
theorem token_quote_inv {x v rest : Bytes} (h : Token (32 :: 34 :: x) v rest) : Lex (· = 34) False x v rest := by
  generalize ht : 32 :: 34 :: x = t at h
  cases h with
  | @quoted g t' v rest q hg hq hl =>
    obtain ⟨rfl, rfl⟩ := gap_quote hg (by rcases hq with rfl | rfl <;> simp [Sp]) ht.symm
    exact hl
  | @bare g t' v rest q hg hs hn hq hb hl =>
    obtain ⟨rfl, _⟩ := gap_quote hg hs ht.symm
    exact absurd (.inl rfl) hq

theorem lex_plain_prefix {stop : UInt8 → Prop} {eos : Prop} {a x v rest : Bytes} (ha : ∀ c ∈ a, ¬ stop c ∧ ¬ Nl c ∧ c ≠ 92)
    (h : Lex stop eos (a ++ x) v rest) : ∃ v', v = a ++ v' ∧ Lex stop eos x v' rest := by
  induction a generalizing v with
  | nil => exact ⟨v, rfl, h⟩
  | cons c a ih =>
    simp only [List.mem_cons, forall_eq_or_imp] at ha
    rw [List.cons_append] at h
    generalize hr : a ++ x = r at h
    cases h with
    | stop hs => exact absurd hs ha.1.1
    | plain _ _ _ h =>
      subst hr
      obtain ⟨v', rfl, h'⟩ := ih ha.2 h
      exact ⟨v', rfl, h'⟩
    | _ => exact absurd rfl ha.1.2.2

/-- Reading shortens: without a quote in what is typed and in what is read, what
is read is no longer than what is typed. -/
theorem lex_len {tail : Bytes} : ∀ {t v rest : Bytes}, Lex (· = 34) False t v rest → ∀ p, t = p ++ 34 :: tail → 34 ∉ p → 34 ∉ v →
    v.length ≤ p.length := by
  intro t v rest h
  have e34 : ((34 : UInt8), (34 : UInt8)) ∈ escapes := by decide
  have x34 : ∀ x, ((34 : UInt8), x) ∈ escapes → x = 34 := by intro x; simp [escapes]
  induction h with
  | eos h => exact h.elim
  | stop => intros; simp
  | @plain c r v rest h1 h2 h3 _ ih =>
    intro p e hp hv
    cases p with
    | nil => cases e; exact absurd rfl h1
    | cons d p =>
      cases e
      simp only [List.mem_cons, not_or] at hp hv
      exact Nat.succ_le_succ (ih p rfl hp.2 hv.2)
  | @esc b x r v rest h1 _ ih =>
    intro p e hp hv
    simp only [List.mem_cons, not_or] at hv
    match p, e, hp with
    | [], e, _ => cases e
    | [_], e, _ => cases e; exact absurd (x34 x h1).symm hv.1
    | _ :: _ :: p, e, hp =>
      cases e
      simp only [List.mem_cons, not_or] at hp
      have := ih p rfl hp.2.2 hv.2
      simp only [List.length_cons]; omega
  | @line2 a b r v rest h1 h2 h3 _ ih =>
    intro p e hp hv
    simp only [List.mem_cons, not_or] at hv
    match p, e, hp with
    | [], e, _ => cases e
    | [_], e, _ => cases e; simp [Nl] at h1
    | [_, _], e, _ => cases e; simp [Nl] at h2
    | _ :: _ :: _ :: p, e, hp =>
      cases e
      simp only [List.mem_cons, not_or] at hp
      have := ih p rfl hp.2.2.2 hv.2
      simp only [List.length_cons]; omega
  | @line1 a r v rest h1 h2 _ ih =>
    intro p e hp hv
    simp only [List.mem_cons, not_or] at hv
    match p, e, hp with
    | [], e, _ => cases e
    | [_], e, _ => cases e; simp [Nl] at h1
    | _ :: _ :: p, e, hp =>
      cases e
      simp only [List.mem_cons, not_or] at hp
      have := ih p rfl hp.2.2 hv.2
      simp only [List.length_cons]; omega
  | @other a r v rest h1 h2 _ ih =>
    intro p e hp hv
    simp only [List.mem_cons, not_or] at hv
    match p, e, hp with
    | [], e, _ => cases e
    | [_], e, _ => cases e; exact absurd e34 (h2 _)
    | _ :: _ :: p, e, hp =>
      cases e
      simp only [List.mem_cons, not_or] at hp
      have := ih p rfl hp.2.2 hv.2
      simp only [List.length_cons]; omega

/-- What is typed between quotes is read as typed exactly if it has no backslash. -/
theorem lex_verbatim {tail : Bytes} {p v rest : Bytes} (hp : Typed p) (h : Lex (· = 34) False (p ++ 34 :: tail) v rest) :
    v = p ↔ 92 ∉ p := by
  constructor
  · rintro rfl
    induction v with
    | nil => simp
    | cons c p ih =>
      simp only [Typed, List.mem_cons, forall_eq_or_imp] at hp
      rw [List.cons_append] at h
      have x92 : ∀ e, (e, (92 : UInt8)) ∈ escapes → e = 92 := by intro x; simp [escapes]
      have h34 : 34 ∉ p := fun hm => (hp.2 34 hm).1 rfl
      generalize hr : p ++ 34 :: tail = r at h
      cases h with
      | plain h1 h2 h3 h =>
        subst hr
        simp only [List.mem_cons, not_or]
        exact ⟨Ne.symm h3, ih hp.2 h⟩
      | @esc e _ r' _ _ h1 h =>
        have := x92 _ h1
        subst this
        cases p with
        | nil => cases hr
        | cons d p =>
          cases hr
          have := lex_len h p rfl (by simp only [List.mem_cons, not_or] at h34; exact h34.2) h34
          simp at this; omega
      | other h1 h2 h => exact absurd (by decide : ((92 : UInt8), (92 : UInt8)) ∈ escapes) (h2 _)
  · intro hb
    obtain ⟨v', rfl, h'⟩ := lex_plain_prefix (fun c hc => ⟨(hp c hc).1, (hp c hc).2, fun e => hb (e ▸ hc)⟩) h
    cases h' with
    | stop => simp
    | plain h1 => exact absurd rfl h1

/-- A rule line read as a rule: its operator string is read from what is typed. -/
theorem ruleLine_operator {hi : Rune → Rune} {vs os as : Bytes} (hv : Typed vs) (hv' : 92 ∉ vs) {r : PRule} {ds : List PDir}
    (h : parse hi (ruleLine vs os as) = .ok (.ok (.rule r :: ds))) :
    ∃ os' rest, Lex (· = 34) False (os ++ 34 :: (b!" \"" ++ as ++ b!"\"\n")) os' rest ∧ Oper os' r.op := by
  rw [C53_exact] at h
  generalize ht : ruleLine vs os as = text at h
  cases h with
  | @dir f t rest _ _ hf hd _ =>
    have hf0 : f = [] := by
      cases f with
      | nil => rfl
      | cons c f =>
        have : c = 83 := by simp only [ruleLine, List.cons_append, List.cons.injEq] at ht; exact ht.1.symm
        subst this
        have := hf 83 List.mem_cons_self
        simp [Sp, Nl] at this
    subst hf0
    generalize hd' : PDir.rule r = d at hd
    cases hd with
    | @rule w t t2 t3 rest vs1 os1 as1 vars op acts hw _ h1 _ h2 h3 _ _ =>
      cases hd'
      have hl : w.length = 7 := (variant_length hw).trans rfl
      have e : w ++ t = b!"SecRule" ++ (32 :: (quoted 34 vs ++ (32 :: 34 :: (os ++ 34 :: (b!" \"" ++ as ++ b!"\"\n"))))) := by
        rw [quoted_typed hv hv']
        simpa [ruleLine] using ht.symm
      obtain ⟨rfl, rfl⟩ := List.append_inj e (by rw [hl]; rfl)
      obtain ⟨_, rfl⟩ := token_det h1 (token_space (token_quoted (.inl rfl) vs _))
      exact ⟨os1, t3, token_quote_inv h2, h3⟩
    | engine => cases hd'
    | reqBody => cases hd'
    | resBody => cases hd'

theorem oper_rx {v : Bytes} {o : POp} (h : Oper (b!"@rx " ++ v) o) : o = ⟨.rx, false, v⟩ := by
  have h' : Oper (b!"@rx " ++ v) ⟨.rx, false, v⟩ := ⟨_, .inr ⟨rfl, rfl, by simp⟩, .inr (.inr rfl)⟩
  have e := (parseOperator_iff _ _).2 h
  rw [(parseOperator_iff _ _).2 h'] at e
  simpa using e.symm

/-! ### C56 for a rule as it is typed -/

theorem variant_at {w n : Bytes} (h : CaseVariant w n) : ∀ (i : Nat) (c : UInt8), n[i]? = some c → ∃ a, w[i]? = some a ∧ CaseEq a c := by
  induction h with
  | nil => intro i c hc; simp at hc
  | cons h1 _ ih =>
    intro i c hc
    cases i with
    | zero => simp only [List.getElem?_cons_zero, Option.some.injEq] at hc ⊢; subst hc; exact ⟨_, rfl, h1⟩
    | succ i => simp only [List.getElem?_cons_succ] at hc ⊢; exact ih i c hc

/-- A rule line does not begin with a longer directive. -/
theorem ruleLine_not_longer {vs os as w n t : Bytes} {c : UInt8} (h : CaseVariant w n) (hc : n[7]? = some c) (hne : ¬ CaseEq 32 c) :
    [] ++ (w ++ t) ≠ ruleLine vs os as := by
  intro e
  obtain ⟨a, ha, hc⟩ := variant_at h 7 c hc
  have h7 : (ruleLine vs os as)[7]? = some 32 := by simp [ruleLine]
  rw [← e, List.nil_append, List.getElem?_append_left (List.getElem?_eq_some_iff.1 ha).1, ha] at h7
  cases h7
  exact hne hc

/-- A rule line that is read is read as one rule, and its three strings are. -/
theorem ruleLine_parts {vs os as : Bytes} (hv : Typed vs) (hv' : 92 ∉ vs) (ho : Typed os) (ho' : 92 ∉ os) (ha : Typed as) (ha' : 92 ∉ as)
    {ds : List PDir} (h : Program (ruleLine vs os as) ds) :
    ∃ vars op acts, ds = [.rule { vars, op, acts }] ∧ Vars vs vars ∧ Oper os op ∧ Acts as acts := by
  generalize ht : ruleLine vs os as = text at h
  cases h with
  | done hf =>
    subst ht
    have := hf 83 (by simp [ruleLine])
    simp [Sp, Nl] at this
  | @dir f t rest _ _ hf hd hrest =>
    have hf0 : f = [] := by
      cases f with
      | nil => rfl
      | cons c f =>
        have : c = 83 := by simp only [ruleLine, List.cons_append, List.cons.injEq] at ht; exact ht.1.symm
        subst this
        have := hf 83 List.mem_cons_self
        simp [Sp, Nl] at this
    subst hf0
    have e : ruleLine vs os as = b!"SecRule" ++ (32 :: (quoted 34 vs ++ (32 :: (quoted 34 os ++ (32 :: (quoted 34 as ++ [10])))))) := by
      rw [quoted_typed hv hv', quoted_typed ho ho', quoted_typed ha ha']
      simp [ruleLine]
    have hq : Quote 34 := .inl rfl
    cases hd with
    | @rule w t t2 t3 rest vs1 os1 as1 vars op acts hw hl h1 h2 h3 h4 h5 h6 =>
      have hl : w.length = 7 := (variant_length hw).trans rfl
      rw [List.nil_append] at ht
      rw [e] at ht
      obtain ⟨rfl, rfl⟩ := List.append_inj ht.symm (by rw [hl]; rfl)
      obtain ⟨rfl, rfl⟩ := token_det h1 (token_space (token_quoted hq vs _))
      obtain ⟨rfl, rfl⟩ := token_det h3 (token_space (token_quoted hq os _))
      obtain ⟨rfl, rfl⟩ := token_det h5 (token_space (token_quoted hq as _))
      have : Program [10] [] := .done (by simp [Filler, Nl])
      exact ⟨_, _, _, by rw [C53_determined hrest this], h2, h4, h6⟩
    | engine hw _ =>
      exact absurd ht.symm (ruleLine_not_longer (c := 69) hw rfl (by simp [CaseEq]))
    | reqBody hw _ =>
      exact absurd ht.symm (ruleLine_not_longer (c := 101) hw rfl (by simp [CaseEq]))
    | resBody hw _ =>
      exact absurd ht.symm (ruleLine_not_longer (c := 111) hw rfl (by simp [CaseEq]))

/-- C56, a rule as it is typed loads exactly if its strings are lists of known variables, an
operator and a list of known actions, all of them implemented and with valid arguments. -/
theorem C56_line {lib : Lib} {vo : VarOrd} {set : DireSet} {vs os as : Bytes} (hv : Typed vs) (hv' : 92 ∉ vs) (ho : Typed os) (ho' : 92 ∉ os)
    (ha : Typed as) (ha' : 92 ∉ as) :
    (∃ set', set.addSecLangString lib vo (ruleLine vs os as) = .ok (set', none)) ↔
      ∃ vars op acts, Vars vs vars ∧ Oper os op ∧ Acts as acts ∧ RuleOk lib { vars, op, acts } := by
  rw [C59_loads_iff]
  constructor
  · rintro ⟨dirs, hp, hok⟩
    obtain ⟨vars, op, acts, rfl, h1, h2, h3⟩ := ruleLine_parts hv hv' ho ho' ha ha' hp
    exact ⟨vars, op, acts, h1, h2, h3, hok _ (List.mem_singleton.2 rfl)⟩
  · rintro ⟨vars, op, acts, h1, h2, h3, hok⟩
    refine ⟨_, (C53_exact lib.lowerHi _ _).1 (parse_ruleLine lib.lowerHi hv hv' ho ho' ha ha' h1 h2 h3), ?_⟩
    intro d hd
    cases List.mem_singleton.1 hd
    exact hok

/-- An item between commas. -/
def Spec.Listed (item s : Bytes) : Prop :=
  44 ∉ item ∧ ∃ pre post, s = pre ++ item ++ post ∧ (pre = [] ∨ ∃ p, pre = p ++ [44]) ∧ (post = [] ∨ ∃ p, post = 44 :: p)

/-- The names of the actions that can be loaded. -/
def Spec.loadable : List Bytes :=
  [b!"allow", b!"msg", b!"id", b!"tag", b!"rev", b!"log", b!"deny", b!"block", b!"status", b!"t", b!"skip", b!"chain", b!"phase", b!"ver"]

/-- An action as it is typed, of a name that can be loaded, with or without argument. -/
def Spec.Loadable (item : Bytes) : Prop :=
  ∃ l name r tail, item = l ++ name ++ r ++ tail ∧ Blank l ∧ Blank r ∧ name ∈ loadable ∧ (tail = [] ∨ ∃ arg, tail = 58 :: arg)

theorem Spec.Loadable.left {l s : Bytes} (hl : Blank l) (h : Loadable s) : Loadable (l ++ s) := by
  obtain ⟨l', n, r, tail, rfl, h1, h2, h3, h4⟩ := h
  exact ⟨l ++ l', n, r, tail, by simp, Blank.append hl h1, h2, h3, h4⟩

theorem Spec.Loadable.right {r s : Bytes} (hr : Blank r) (h : Loadable s) : Loadable (s ++ r) := by
  obtain ⟨l', n, r', tail, rfl, h1, h2, h3, rfl | ⟨arg, rfl⟩⟩ := h
  · exact ⟨l', n, r' ++ r, [], by simp, h1, Blank.append h2 hr, h3, .inl rfl⟩
  · exact ⟨l', n, r', 58 :: (arg ++ r), by simp, h1, h2, h3, .inr ⟨_, rfl⟩⟩

theorem first_comma {a b x y : Bytes} (ha : 44 ∉ a) (hx : 44 ∉ x) (h : a ++ 44 :: b = x ++ 44 :: y) : a = x ∧ b = y := by
  induction a generalizing x with
  | nil =>
    cases x with
    | nil => simpa using h
    | cons c x => simp only [List.nil_append, List.cons_append, List.cons.injEq] at h; simp [← h.1] at hx
  | cons c a ih =>
    cases x with
    | nil => simp only [List.nil_append, List.cons_append, List.cons.injEq] at h; simp [h.1] at ha
    | cons d x =>
      simp only [List.cons_append, List.cons.injEq] at h
      obtain ⟨rfl, rfl⟩ := ih (fun h => ha (List.mem_cons_of_mem _ h)) (fun h => hx (List.mem_cons_of_mem _ h)) h.2
      exact ⟨by rw [h.1], rfl⟩

theorem mem_first_split {p : Bytes} (h : 44 ∈ p) : ∃ u v, p = u ++ 44 :: v ∧ 44 ∉ u := by
  induction p with
  | nil => simp at h
  | cons c p ih =>
    by_cases hc : c = 44
    · exact ⟨[], p, by simp [hc], by simp⟩
    · obtain ⟨u, v, rfl, hu⟩ := ih (by rcases List.mem_cons.1 h with h | h; exact absurd h.symm hc; exact h)
      exact ⟨c :: u, v, rfl, by simp [hu, Ne.symm hc]⟩

theorem sepBy_right {α : Type} {item : Bytes → α → Prop} {s r : Bytes} {is : List α} (h : SepBy [44] item s is) (hr : 44 ∉ r)
    (hi : ∀ {s a}, item s a → item (s ++ r) a) : SepBy [44] item (s ++ r) is := by
  induction h with
  | one h1 h2 =>
    refine .one (fun c hc => ?_) (hi h2)
    rcases List.mem_append.1 hc with hc | hc
    · exact h1 c hc
    · intro h; cases List.mem_singleton.1 h; exact hr hc
  | more h1 h2 h3 _ ih => rw [List.append_assoc, List.cons_append]; exact .more h1 h2 h3 ih

theorem sepBy_left {α : Type} {item : Bytes → α → Prop} {s l : Bytes} {is : List α} (h : SepBy [44] item s is) (hl : 44 ∉ l)
    (hi : ∀ {s a}, item s a → item (l ++ s) a) : SepBy [44] item (l ++ s) is := by
  have key : ∀ s : Bytes, (∀ c ∈ s, c ∉ [(44 : UInt8)]) → ∀ c ∈ l ++ s, c ∉ [(44 : UInt8)] := by
    intro s h1 c hc
    rcases List.mem_append.1 hc with hc | hc
    · intro h; cases List.mem_singleton.1 h; exact hl hc
    · exact h1 c hc
  cases h with
  | one h1 h2 => exact .one (key _ h1) (hi h2)
  | more h1 h2 h3 h4 => rw [← List.append_assoc]; exact .more (key _ h1) (hi h2) h3 h4

theorem sepBy_listed {α : Type} {item : Bytes → α → Prop} {s x : Bytes} {is : List α} (h : SepBy [44] item s is) (hx : Listed x s) :
    ∃ a, item x a := by
  obtain ⟨hx, pre, post, e, hpre, hpost⟩ := hx
  induction h generalizing pre with
  | @one s a h1 h2 =>
    have h1 : 44 ∉ s := fun h => h1 44 h (by simp)
    rcases hpre with rfl | ⟨p, rfl⟩
    · rcases hpost with rfl | ⟨p, rfl⟩
      · exact ⟨a, by simpa [e] using h2⟩
      · exact absurd (by simp [e]) h1
    · exact absurd (by simp [e]) h1
  | @more s r a l c h1 h2 h3 _ ih =>
    have h1 : 44 ∉ s := fun h => h1 44 h (by simp)
    cases List.mem_singleton.1 h3
    rcases hpre with rfl | ⟨p, rfl⟩
    · rcases hpost with rfl | ⟨p, rfl⟩
      · refine absurd ?_ hx
        have e : s ++ 44 :: r = x := by simpa using e
        rw [← e]; simp
      · obtain ⟨rfl, _⟩ := first_comma (y := p) h1 hx (e.trans (by simp))
        exact ⟨a, h2⟩
    · by_cases hp : 44 ∈ p
      · obtain ⟨u, v, rfl, hu⟩ := mem_first_split hp
        obtain ⟨_, rfl⟩ := first_comma (y := v ++ 44 :: (x ++ post)) h1 hu (e.trans (by simp))
        exact ih (v ++ [44]) (by simp) (.inr ⟨v, rfl⟩)
      · obtain ⟨_, rfl⟩ := first_comma (y := x ++ post) h1 hp (e.trans (by simp))
        exact ih [] (by simp) (.inl rfl)

theorem blank_no_comma {s : Bytes} (h : Blank s) : 44 ∉ s := Blank.not_mem h (by decide) (by decide)

/-- C56, as it is typed: every action of a rule line that loads has one of the names that
can be loaded, so a line with another one, known or not, is refused. -/
theorem C56_line_actions {lib : Lib} {vo : VarOrd} {set set' : DireSet} {vs os as item : Bytes} (hv : Typed vs) (hv' : 92 ∉ vs)
    (ho : Typed os) (ho' : 92 ∉ os) (ha : Typed as) (ha' : 92 ∉ as)
    (h : set.addSecLangString lib vo (ruleLine vs os as) = .ok (set', none)) (hi : Listed item as) : Loadable item := by
  obtain ⟨vars, op, acts, _, _, hacts, hok⟩ := (C56_line hv hv' ho ho' ha ha').1 ⟨set', h⟩
  obtain ⟨l, core, r, is, rfl, hl, hr, ht, hne, hs, rfl⟩ := hacts
  have hs' : SepBy [44] (fun s (_ : Item) => Loadable s) core is := by
    have hall : ∀ i ∈ is, ∀ a, i = .act a → ActOk a := by
      rintro _ hi a rfl
      exact hok.acts a (List.mem_filterMap.2 ⟨_, hi, rfl⟩)
    clear hok h hi ha ha' ht hne
    have one : ∀ {s : Bytes} {i : Item}, ActItem s i → (∀ a, i = .act a → ActOk a) → Loadable s := by
      rintro s i ⟨l, tk, r, tail, arg, rfl, h1, h2, h3, h4⟩ hok
      refine ⟨l, actName tk, r, tail, rfl, h1, h2, ?_, h3.imp And.left fun h => ⟨arg, h⟩⟩
      cases h4 with
      | id | phase | trans | chain => simp [actName, loadable]
      | severity =>
        rcases hok _ rfl with ⟨x, hx⟩ | ⟨k, hk⟩
        · cases hx
        · cases hk
      | other =>
        rcases hok _ rfl with ⟨x, hx⟩ | ⟨k, hk⟩
        · cases hx <;> simp [actName, loadable]
        · cases tk <;> simp [metaName] at hk <;> simp [actName, loadable]
    induction hs with
    | one h1 h2 => exact .one h1 (one h2 (hall _ List.mem_cons_self))
    | more h1 h2 h3 _ ih =>
      exact .more h1 (one h2 (hall _ List.mem_cons_self)) h3 (ih fun i hi => hall i (List.mem_cons_of_mem _ hi))
  have h1 := sepBy_right (sepBy_left hs' (blank_no_comma hl) fun h => h.left hl) (blank_no_comma hr) fun h => h.right hr
  exact (sepBy_listed h1 hi).elim fun _ h => h

/-- `ctl:ruleEngine=Off` is refused: no name that can be loaded begins it. -/
example (lib : Lib) (vo : VarOrd) (set set' : DireSet) :
    set.addSecLangString lib vo (ruleLine b!"ARGS" b!"x" b!"id:1,phase:2,ctl:ruleEngine=Off,deny") ≠ .ok (set', none) := by
  intro h
  obtain ⟨l, name, r, tail, e, hl, _, hn, _⟩ := C56_line_actions (item := b!"ctl:ruleEngine=Off") (by simp [Typed, Nl]) (by decide)
    (by simp [Typed, Nl]) (by decide) (by simp [Typed, Nl]) (by decide) h
    ⟨by decide, b!"id:1,phase:2,", b!",deny", rfl, .inr ⟨b!"id:1,phase:2", rfl⟩, .inr ⟨b!"deny", rfl⟩⟩
  have hl : l = [] := by
    cases l with
    | nil => rfl
    | cons c l =>
      have hc : c = 99 := by simp only [List.cons_append, List.cons.injEq] at e; exact e.1.symm
      exact absurd (by simp [hc]) (Blank.not_mem hl (b := 99) (by decide) (by decide))
  subst hl
  simp only [loadable, List.mem_cons, List.not_mem_nil, or_false] at hn
  rcases hn with rfl | rfl | rfl | rfl | rfl | rfl | rfl | rfl | rfl | rfl | rfl | rfl | rfl | rfl <;> simp at e

/-- `deny` is loaded. -/
example : Loadable b!" deny" := ⟨b!" ", b!"deny", [], [], rfl, ⟨[' '], by decide, rfl⟩, Blank.nil, by decide, .inl rfl⟩


/-! ### C64: the pattern of a regex rule -/

/-- C64, the full claim: a pattern typed between double quotes is the pattern that
is compiled. -/
def C64_statement : Prop :=
  ∀ (hi : Rune → Rune) (vs pat as : Bytes) (vars : List PVar) (acts : PActs),
    Typed vs → 92 ∉ vs → Vars vs vars → Typed as → 92 ∉ as → Acts as acts → Typed pat →
    parse hi (ruleLine vs (b!"@rx " ++ pat) as) = .ok (.ok [.rule { vars, op := ⟨.rx, false, pat⟩, acts }])

theorem typed_rx {pat : Bytes} (h : Typed pat) : Typed (b!"@rx " ++ pat) := by
  intro c hc
  rcases List.mem_append.1 hc with hc | hc
  · simp only [List.mem_cons, List.not_mem_nil, or_false] at hc
    rcases hc with rfl | rfl | rfl | rfl <;> simp [Nl]
  · exact h c hc

/-- C64, what is true: the claim holds for patterns without a backslash. -/
theorem C64_pattern_partial (hi : Rune → Rune) {vs pat as : Bytes} {vars : List PVar} {acts : PActs}
    (hv : Typed vs) (hv' : 92 ∉ vs) (h1 : Vars vs vars) (ha : Typed as) (ha' : 92 ∉ as) (h3 : Acts as acts) (hp : Typed pat)
    (hp' : 92 ∉ pat) :
    parse hi (ruleLine vs (b!"@rx " ++ pat) as) = .ok (.ok [.rule { vars, op := ⟨.rx, false, pat⟩, acts }]) :=
  parse_ruleLine hi hv hv' (typed_rx hp) (by simpa using hp') ha ha' h1 ⟨_, .inr ⟨rfl, rfl, by simp⟩, .inr (.inr rfl)⟩ h3

/-- C64, exactly: whenever such a rule is accepted at all, its pattern is the one
typed if and only if that has no backslash. -/
theorem C64_exact {hi : Rune → Rune} {vs pat as : Bytes} (hv : Typed vs) (hv' : 92 ∉ vs) (hp : Typed pat) {r : PRule} {ds : List PDir}
    (h : parse hi (ruleLine vs (b!"@rx " ++ pat) as) = .ok (.ok (.rule r :: ds))) : r.op.arg = pat ↔ 92 ∉ pat := by
  obtain ⟨os', rest, hl, ho⟩ := ruleLine_operator hv hv' h
  rw [List.append_assoc] at hl
  obtain ⟨v, rfl, hl'⟩ := lex_plain_prefix (a := b!"@rx ") (by simp [Nl]) hl
  rw [oper_rx ho]
  exact lex_verbatim hp hl'

/-- C64, how to get a pattern through: any pattern at all is compiled as it is if
its backslashes, quotes and line breaks are escaped with backslashes. -/
theorem C64_escaped (hi : Rune → Rune) {vs as : Bytes} (pat : Bytes) {vars : List PVar} {acts : PActs}
    (hv : Typed vs) (hv' : 92 ∉ vs) (h1 : Vars vs vars) (ha : Typed as) (ha' : 92 ∉ as) (h3 : Acts as acts) :
    parse hi (ruleLine vs (b!"@rx " ++ pat.flatMap (escByte 34)) as) = .ok (.ok [.rule { vars, op := ⟨.rx, false, pat⟩, acts }]) := by
  rw [C53_exact]
  have e : ruleLine vs (b!"@rx " ++ pat.flatMap (escByte 34)) as =
      b!"SecRule" ++ (32 :: (quoted 34 vs ++ (32 :: (quoted 34 (b!"@rx " ++ pat) ++ (32 :: (quoted 34 as ++ [10])))))) := by
    have e1 : (b!"@rx " ++ pat).flatMap (escByte 34) = b!"@rx " ++ pat.flatMap (escByte 34) := by
      rw [List.flatMap_append]; rfl
    rw [quoted_typed hv hv', quoted_typed ha ha', quoted, e1]
    simp [ruleLine]
  rw [e]
  have hq : Quote 34 := .inl rfl
  refine .dir (f := []) (by simp [Filler]) (.rule ((caseVariant_iff _ _).2 rfl) (by intro c hc; cases hc; simp [Letter])
    (token_space (token_quoted hq vs _)) h1 (token_space (token_quoted hq _ _)) ⟨_, .inr ⟨rfl, rfl, by simp⟩, .inr (.inr rfl)⟩
    (token_space (token_quoted hq as _)) h3) (.done (by simp [Filler, Nl]))

/-- The strings of an ordinary rule. -/
def denyActs : PActs := { id := 1, phase := 2, action := [⟨.deny, []⟩] }

theorem argsVars : Vars b!"ARGS" [⟨.args, [], false, false⟩] := (vars_iff _ _).2 rfl
theorem denyActs_acts : Acts b!"id:1,phase:2,deny" denyActs := by rw [← parseActions_iff]; rfl

theorem C64_refuted : ¬ C64_statement := by
  intro h
  have h1 := h id b!"ARGS" b!"\\d" b!"id:1,phase:2,deny" _ _ (by simp [Typed, Nl]) (by decide) argsVars (by simp [Typed, Nl])
    (by decide) denyActs_acts (by simp [Typed, Nl])
  have := (C64_exact (by simp [Typed, Nl]) (by decide) (by simp [Typed, Nl]) h1).1 rfl
  exact this (by decide)

/-- `\d+` is compiled as `d+`, `\bselect\b` with backspace characters around. -/
example : (parse id (ruleLine b!"ARGS" b!"@rx ^\\d+$" b!"id:1,phase:2,deny") =
      .ok (.ok [.rule { vars := [⟨.args, [], false, false⟩], op := ⟨.rx, false, b!"^d+$"⟩, acts := denyActs }])) ∧
    (parse id (ruleLine b!"ARGS" b!"@rx \\bselect\\b" b!"id:1,phase:2,deny") =
      .ok (.ok [.rule { vars := [⟨.args, [], false, false⟩], op := ⟨.rx, false, [8] ++ b!"select" ++ [8]⟩, acts := denyActs }])) := by
  decide +kernel

/-! ### C65: quoted action arguments -/

/-- An action list with a message typed in single quotes. -/
def Spec.withMsg (m : Bytes) : Bytes := b!"id:1,phase:2,msg:'" ++ m ++ b!"',deny"

/-- Text that can be typed in single quotes within a rule. -/
def Spec.TypedInner (m : Bytes) : Prop := Typed m ∧ 39 ∉ m ∧ 92 ∉ m

/-- C65, the full claim: a message in single quotes is one action argument. -/
def C65_statement : Prop :=
  ∀ (hi : Rune → Rune) (vs os m : Bytes) (vars : List PVar) (op : POp),
    Typed vs → 92 ∉ vs → Vars vs vars → Typed os → 92 ∉ os → Oper os op → TypedInner m →
    parse hi (ruleLine vs os (withMsg m)) =
      .ok (.ok [.rule { vars, op, acts := { id := 1, phase := 2, action := [⟨.msg, 39 :: m ++ [39]⟩, ⟨.deny, []⟩] } }])

theorem sepBy_mem {α : Type} {seps : List UInt8} {item : Bytes → α → Prop} {s : Bytes} {l : List α} (h : SepBy seps item s l) :
    ∀ a ∈ l, ∃ p, (∀ c ∈ p, c ∉ seps) ∧ item p a := by
  induction h with
  | one h1 h2 => intro a ha; cases List.mem_singleton.1 ha; exact ⟨_, h1, h2⟩
  | more h1 h2 _ _ ih =>
    intro a ha
    rcases List.mem_cons.1 ha with rfl | ha
    · exact ⟨_, h1, h2⟩
    · exact ih a ha

/-- C65, the reason: commas separate actions wherever they stand, so no argument
of any accepted action has one. -/
theorem C65_no_comma {s : Bytes} {a : PActs} (h : Acts s a) : ∀ x ∈ a.action, 44 ∉ x.arg := by
  obtain ⟨l, core, r, is, _, _, _, _, _, hs, rfl⟩ := h
  intro x hx
  obtain ⟨i, hi, he⟩ := List.mem_filterMap.1 hx
  obtain ⟨p, hp, l', tk, r', tail, arg, rfl, _, _, ht, hm⟩ := sepBy_mem hs i hi
  have harg : 44 ∉ arg := by
    rcases ht with ⟨_, rfl⟩ | rfl
    · simp
    · intro hc
      exact hp 44 (by simp [hc]) (by simp)
  cases hm with
  | severity h1 h2 =>
    cases he
    rename_i n
    exact fun hc => number_no_comma n 44 (by rw [number_eq]; exact hc) rfl
  | other => cases he; exact harg
  | _ => cases he

theorem withMsg_acts {m : Bytes} (h : 44 ∉ m) :
    Acts (withMsg m) { id := 1, phase := 2, action := [⟨.msg, 39 :: m ++ [39]⟩, ⟨.deny, []⟩] } := by
  refine ⟨[], withMsg m, [], [.id 1, .phase 2, .act ⟨.msg, 39 :: m ++ [39]⟩, .act ⟨.deny, []⟩], by simp, Blank.nil, Blank.nil,
    ?_, by simp [withMsg], ?_, rfl⟩
  · exact trimmed_of_ascii_ends (a := 105) (b := 121) (r := b!"d:1,phase:2,msg:'" ++ m ++ b!"',deny")
      (u := b!"id:1,phase:2,msg:'" ++ m ++ b!"',den") (by decide) (by decide) rfl (by simp [withMsg])
  · have e : withMsg m = joinWith 44 [b!"id:1", b!"phase:2", b!"msg:'" ++ m ++ b!"'", b!"deny"] := by
      simp [withMsg, joinWith]
    rw [e]
    refine sepBy_join (by decide) (.cons ?_ (.cons ?_ (.cons ?_ (.cons ?_ .nil)))) (by simp) ?_
    · exact printAct_item (means_id (n := 1) ⟨by omega, by omega⟩)
    · exact printAct_item (means_phase (n := 2) (by decide) (by decide))
    · have := printAct_item (tk := .msg) (arg := 39 :: m ++ [39]) (.other (by decide) (by decide) (by decide) (by decide) (by decide))
      simpa [printAct, actName] using this
    · exact ⟨[], .deny, [], [], [], by simp [actName], Blank.nil, Blank.nil, .inl ⟨rfl, rfl⟩,
        .other (by decide) (by decide) (by decide) (by decide) (by decide)⟩
    · simp only [List.mem_cons, List.not_mem_nil, or_false]
      rintro p (rfl | rfl | rfl | rfl) c hc rfl
      · revert hc; decide
      · revert hc; decide
      · simp at hc; exact h hc
      · revert hc; decide

theorem withMsg_typed {m : Bytes} (h : TypedInner m) : Typed (withMsg m) ∧ 92 ∉ withMsg m := by
  constructor
  · intro c hc
    simp only [withMsg, List.mem_append] at hc
    rcases hc with (hc | hc) | hc
    · have : ∀ c ∈ b!"id:1,phase:2,msg:'", c ≠ 34 ∧ ¬ Nl c := by simp [Nl]
      exact this c hc
    · exact h.1 c hc
    · have : ∀ c ∈ b!"',deny", c ≠ 34 ∧ ¬ Nl c := by simp [Nl]
      exact this c hc
  · simp [withMsg, h.2.2]

/-- C65, what is true: the claim holds for messages without a comma. -/
theorem C65_argument_partial (hi : Rune → Rune) {vs os m : Bytes} {vars : List PVar} {op : POp}
    (hv : Typed vs) (hv' : 92 ∉ vs) (h1 : Vars vs vars) (ho : Typed os) (ho' : 92 ∉ os) (h2 : Oper os op) (hm : TypedInner m)
    (hc : 44 ∉ m) :
    parse hi (ruleLine vs os (withMsg m)) =
      .ok (.ok [.rule { vars, op, acts := { id := 1, phase := 2, action := [⟨.msg, 39 :: m ++ [39]⟩, ⟨.deny, []⟩] } }]) :=
  parse_ruleLine hi hv hv' ho ho' (withMsg_typed hm).1 (withMsg_typed hm).2 h1 h2 (withMsg_acts hc)

/-- C65, exactly: in no accepted text is there a rule with a comma in an action
argument. -/
theorem C65_exact {hi : Rune → Rune} {text : Bytes} {ds : List PDir} (h : parse hi text = .ok (.ok ds)) :
    ∀ r, .rule r ∈ ds → ∀ x ∈ r.acts.action, 44 ∉ x.arg := by
  rw [C53_exact] at h
  induction h with
  | done => simp
  | dir _ hd _ ih =>
    intro r hr
    rcases List.mem_cons.1 hr with e | hr
    · subst e
      generalize e : PDir.rule r = d at hd
      cases hd with
      | rule _ _ _ _ _ _ _ h => cases e; exact C65_no_comma h
      | _ => cases e
    · exact ih r hr

/-- C65, injection: a comma in a message ends it, and what follows is taken as
further actions - here one that allows the request. -/
theorem C65_injected (hi : Rune → Rune) {vs os : Bytes} {vars : List PVar} {op : POp}
    (hv : Typed vs) (hv' : 92 ∉ vs) (h1 : Vars vs vars) (ho : Typed os) (ho' : 92 ∉ os) (h2 : Oper os op) :
    TypedInner b!"a,allow,tag:b" ∧
    parse hi (ruleLine vs os (withMsg b!"a,allow,tag:b")) =
      .ok (.ok [.rule { vars, op, acts := { id := 1, phase := 2, action := [⟨.msg, b!"'a"⟩, ⟨.allow, []⟩, ⟨.tag, b!"b'"⟩, ⟨.deny, []⟩] } }]) := by
  have hm : TypedInner b!"a,allow,tag:b" := ⟨by simp [Typed, Nl], by decide, by decide⟩
  refine ⟨hm, parse_ruleLine hi hv hv' ho ho' (withMsg_typed hm).1 (withMsg_typed hm).2 h1 h2 ?_⟩
  rw [← parseActions_iff]; rfl

theorem rxOper : Oper b!"@rx a" ⟨.rx, false, b!"a"⟩ := (parseOperator_iff _ _).1 rfl

theorem C65_refuted : ¬ C65_statement := by
  intro h
  have h1 := h id b!"ARGS" b!"@rx a" b!"a,b" _ _ (by simp [Typed, Nl]) (by decide) argsVars (by simp [Typed, Nl])
    (by decide) rxOper ⟨by simp [Typed, Nl], by decide, by decide⟩
  exact C65_exact h1 _ (List.mem_singleton.2 rfl) _ List.mem_cons_self (by decide)

/-- The message `SQL injection, level 1` makes the rule a syntax error. -/
example : ∃ e, parse id (ruleLine b!"ARGS" b!"@rx a" (withMsg b!"SQL injection, level 1")) = .ok (.error e) :=
  ⟨_, rfl⟩

/-! ### C66: selector texts -/

/-- C66, the full claim: a selector typed behind a variable name is the selector of
that variable. -/
def C66_statement : Prop :=
  ∀ (hi : Rune → Rune) (tk : VarTok) (sel os as : Bytes) (op : POp) (acts : PActs),
    Typed sel → 92 ∉ sel → Typed os → 92 ∉ os → Oper os op → Typed as → 92 ∉ as → Acts as acts →
    parse hi (ruleLine (varName tk ++ 58 :: sel) os as) = .ok (.ok [.rule { vars := [⟨tk, sel, false, false⟩], op, acts }])

/-- C66, the reason: commas and bars separate variables wherever they stand. -/
theorem C66_no_separator {s : Bytes} {vs : List PVar} (h : Vars s vs) : ∀ v ∈ vs, 44 ∉ v.index ∧ 124 ∉ v.index := by
  intro v hv
  obtain ⟨p, hp, m, tail, rfl, _, ht⟩ := sepBy_mem h v hv
  have key : ∀ c ∈ v.index, c ∈ m ++ varName v.tk ++ tail := by
    intro c hc
    rcases ht with ⟨_, e⟩ | rfl | rfl
    · rw [e] at hc; cases hc
    · simp [hc]
    · simp [hc]
  exact ⟨fun hc => hp 44 (key _ hc) (by decide), fun hc => hp 124 (key _ hc) (by decide)⟩

theorem varName_typed (tk : VarTok) : Typed (varName tk) ∧ 92 ∉ varName tk := by
  constructor
  · intro c
    have : ∀ c ∈ varName tk, c ≠ 34 ∧ c ≠ 10 ∧ c ≠ 13 := by cases tk <;> decide
    intro hc
    exact ⟨(this c hc).1, fun h => h.elim (this c hc).2.1 (this c hc).2.2⟩
  · cases tk <;> decide

/-- C66, what is true: the claim holds for selectors without comma and bar. -/
theorem C66_selector_partial (hi : Rune → Rune) (tk : VarTok) {sel os as : Bytes} {op : POp} {acts : PActs}
    (hs : Typed sel) (hs' : 92 ∉ sel) (ho : Typed os) (ho' : 92 ∉ os) (h2 : Oper os op) (ha : Typed as) (ha' : 92 ∉ as)
    (h3 : Acts as acts) (hc : 44 ∉ sel) (hb : 124 ∉ sel) :
    parse hi (ruleLine (varName tk ++ 58 :: sel) os as) = .ok (.ok [.rule { vars := [⟨tk, sel, false, false⟩], op, acts }]) := by
  refine parse_ruleLine hi ?_ ?_ ho ho' ha ha' (.one ?_ ⟨[], 58 :: sel, by simp, .none, .inr (.inl rfl)⟩) h2 h3
  · intro c h
    simp only [List.mem_append, List.mem_cons] at h
    rcases h with h | rfl | h
    · exact (varName_typed tk).1 c h
    · simp [Nl]
    · exact hs c h
  · simp [(varName_typed tk).2, hs']
  · intro c h
    have : c ≠ 44 ∧ c ≠ 124 := by
      simp only [List.mem_append, List.mem_cons] at h
      rcases h with h | rfl | h
      · exact varName_no_sep tk c h
      · decide
      · exact ⟨fun e => hc (e ▸ h), fun e => hb (e ▸ h)⟩
    simp [this]

/-- C66, exactly: in no accepted text is there a selector with a comma or a bar. -/
theorem C66_exact {hi : Rune → Rune} {text : Bytes} {ds : List PDir} (h : parse hi text = .ok (.ok ds)) :
    ∀ r, .rule r ∈ ds → ∀ v ∈ r.vars, 44 ∉ v.index ∧ 124 ∉ v.index := by
  rw [C53_exact] at h
  induction h with
  | done => simp
  | dir _ hd _ ih =>
    intro r hr
    rcases List.mem_cons.1 hr with e | hr
    · subst e
      generalize e : PDir.rule r = d at hd
      cases hd with
      | rule _ _ _ h => cases e; exact C66_no_separator h
      | _ => cases e
    · exact ih r hr

/-- C66, silently: a bar in an excluding selector ends it and what follows is
another variable. -/
theorem C66_split (hi : Rune → Rune) {os as : Bytes} {op : POp} {acts : PActs}
    (ho : Typed os) (ho' : 92 ∉ os) (h2 : Oper os op) (ha : Typed as) (ha' : 92 ∉ as) (h3 : Acts as acts) :
    parse hi (ruleLine b!"ARGS:/x|REQUEST_URI./" os as) =
      .ok (.ok [.rule { vars := [⟨.args, b!"/x", false, false⟩, ⟨.requestUri, b!"/", false, false⟩], op, acts }]) :=
  parse_ruleLine hi (by simp [Typed, Nl]) (by decide) ho ho' ha ha' ((vars_iff _ _).2 rfl) h2 h3

theorem C66_refuted : ¬ C66_statement := by
  intro h
  have h1 := h id .args b!"/a|b/" b!"@rx a" b!"id:1,phase:2,deny" _ _ (by simp [Typed, Nl]) (by decide) (by simp [Typed, Nl])
    (by decide) rxOper (by simp [Typed, Nl]) (by decide) denyActs_acts
  exact (C66_exact h1 _ (List.mem_singleton.2 rfl) _ List.mem_cons_self).2 (by decide)

/-- `ARGS:/a|b/` makes the rule a syntax error; `ARGS:/a.b/` is fine. -/
example : (∃ e, parse id (ruleLine b!"ARGS:/a|b/" b!"@rx a" b!"id:1,phase:2,deny") = .ok (.error e)) ∧
    parse id (ruleLine b!"ARGS:/a.b/" b!"@rx a" b!"id:1,phase:2,deny") =
      .ok (.ok [.rule { vars := [⟨.args, b!"/a.b/", false, false⟩], op := ⟨.rx, false, b!"a"⟩, acts := denyActs }]) :=
  ⟨⟨_, rfl⟩, C66_selector_partial id .args (by simp [Typed, Nl]) (by decide) (by simp [Typed, Nl]) (by decide) rxOper
    (by simp [Typed, Nl]) (by decide) denyActs_acts (by decide) (by decide)⟩

/-! ### C67: every loaded rule is in force -/

/-- C67, the full claim: every rule of a text that loads is registered in some
phase of the engine. -/
def C67_statement : Prop :=
  ∀ (lib : Lib) (vo : VarOrd) (text : Bytes) (set : DireSet), DireSet.addSecLangString lib vo [] text = .ok (set, none) →
    ∀ r ∈ rulesOf set, ∃ p, 1 ≤ p ∧ p ≤ 6 ∧ r ∈ (set.execute newEngine).ruleSet.phases p

/-- C67, exactly: the rules in force are those with a phase action; a rule without
one (and with it its whole chain) is dropped without an error. -/
theorem C67_in_force_partial {lib : Lib} {vo : VarOrd} {text : Bytes} {set : DireSet}
    (h : DireSet.addSecLangString lib vo [] text = .ok (set, none)) {r : Rule} (hr : r ∈ rulesOf set) :
    (∃ p, r ∈ (set.execute newEngine).ruleSet.phases p) ↔ r.phase ≠ 0 := by
  obtain ⟨dirs, ds, hp, hpairs, rfl⟩ := loaded_set h
  obtain ⟨⟨q, hq, hm⟩, _⟩ := grouped_rule_origin hpairs hr
  have hph : r.phase = q.acts.phase := hm.phase
  have hlegal := C55_legal_phase ((C53_exact id _ _).2 hp) hq
  constructor
  · rintro ⟨p, hrp⟩ h0
    obtain ⟨h1, h2, _⟩ := engine_rule hpairs hrp
    omega
  · intro hne
    refine ⟨r.phase, ?_⟩
    rw [C58_rules, newEngine_phases, List.nil_append, if_pos (by omega)]
    exact List.mem_filter.2 ⟨hr, by simp⟩

/-- C67 in terms of the text: with a phase action in every rule line, every rule is
in force, in the phase it names. -/
theorem C67_phases_given {lib : Lib} {vo : VarOrd} {text : Bytes} {set : DireSet} {dirs : List PDir}
    (h : DireSet.addSecLangString lib vo [] text = .ok (set, none)) (hp : Program text dirs)
    (hall : ∀ q, .rule q ∈ dirs → q.acts.phase ≠ 0) {r : Rule} (hr : r ∈ rulesOf set) :
    1 ≤ r.phase ∧ r.phase ≤ 5 ∧ r ∈ (set.execute newEngine).ruleSet.phases r.phase := by
  obtain ⟨dirs', ds, hp', hpairs, rfl⟩ := loaded_set h
  cases C53_determined hp hp'
  obtain ⟨⟨q, hq, hm⟩, _⟩ := grouped_rule_origin hpairs hr
  have hph : r.phase = q.acts.phase := hm.phase
  have hlegal := C55_legal_phase ((C53_exact id _ _).2 hp) hq
  have := hall q hq
  refine ⟨by omega, by omega, ?_⟩
  rw [C58_rules, newEngine_phases, List.nil_append, if_pos (by omega)]
  exact List.mem_filter.2 ⟨hr, by simp⟩

/-- `SecRule ARGS "@rx a" "id:1,deny"`. -/
def noPhaseText : Bytes := ruleLine b!"ARGS" b!"@rx a" b!"id:1,deny"

/-- It loads without error, as one rule with a deny action. -/
theorem noPhaseText_loads : ∃ r : Rule, r.phase = 0 ∧
    DireSet.addSecLangString lib varOrd [] noPhaseText = .ok ([.rule r false], none) := by
  exact ⟨{ id := 1, vars := [.args {} {}], op := some (.rx ⟨b!"a", fun s => s == b!"a"⟩), actions := [.deny] }, rfl, rfl⟩

theorem C67_refuted : ¬ C67_statement := by
  intro h
  obtain ⟨r, h0, hl⟩ := noPhaseText_loads
  obtain ⟨p, _, _, hp⟩ := h lib varOrd _ _ hl r (by simp [rulesOf])
  exact (C67_in_force_partial hl (by simp [rulesOf])).1 ⟨p, hp⟩ h0

end Verif
