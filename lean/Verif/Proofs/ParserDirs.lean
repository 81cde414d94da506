import Verif.Proofs.ParserActs
import Verif.Proofs.Transforms
/-! Directives and whole texts: the parser accepts exactly the grammar. -/
namespace Verif
open Spec

/-! ### Letter case -/

theorem lowerByte_eq_iff (a b : UInt8) : lowerByte a = lowerByte b ↔ CaseEq a b := by
  rw [← UInt8.toNat_inj, lower_byte_toNat, lower_byte_toNat, CaseEq, ← UInt8.toNat_inj]
  grind

theorem caseVariant_iff (s t : Bytes) : CaseVariant s t ↔ s.map lowerByte = t.map lowerByte := by
  induction s generalizing t with
  | nil =>
    constructor
    · intro h; cases h; rfl
    · intro h
      cases t with
      | nil => exact .nil
      | cons => cases h
  | cons a s ih =>
    constructor
    · intro h
      cases h with
      | cons h1 h2 => rw [List.map_cons, List.map_cons, (lowerByte_eq_iff _ _).2 h1, (ih _).1 h2]
    · intro h
      cases t with
      | nil => cases h
      | cons b t =>
        simp only [List.map_cons, List.cons.injEq] at h
        exact .cons ((lowerByte_eq_iff _ _).1 h.1) ((ih _).2 h.2)

theorem eqFold_iff (s n : Bytes) : eqFold s n = true ↔ CaseVariant s n := by
  rw [caseVariant_iff]; simp [eqFold]

theorem parseBool_iff (v : Bytes) (b : Bool) : parseBool v = .ok b ↔
    ((CaseVariant v b!"On" ∧ b = true) ∨ (CaseVariant v b!"Off" ∧ b = false)) := by
  simp only [parseBool, caseVariant_iff, eqFold, decide_eq_true_eq]
  by_cases h1 : v.map lowerByte = (b!"On").map lowerByte
  · rw [if_pos h1]
    constructor
    · intro h; cases h; exact .inl ⟨h1, rfl⟩
    · rintro (⟨_, rfl⟩ | ⟨h, _⟩)
      · rfl
      · rw [h1] at h; exact absurd h (by decide)
  · rw [if_neg h1]
    by_cases h2 : v.map lowerByte = (b!"Off").map lowerByte
    · rw [if_pos h2]
      constructor
      · intro h; cases h; exact .inr ⟨h2, rfl⟩
      · rintro (⟨h, _⟩ | ⟨_, rfl⟩)
        · exact absurd h h1
        · rfl
    · rw [if_neg h2]
      constructor
      · intro h; cases h
      · rintro (⟨h, _⟩ | ⟨h, _⟩)
        · exact absurd h h1
        · exact absurd h h2

theorem parseTri_iff (v : Bytes) (n : Int) : parseTri v = .ok n ↔
    ((CaseVariant v b!"On" ∧ n = 1) ∨ (CaseVariant v b!"Off" ∧ n = 0) ∨ (CaseVariant v b!"DetectionOnly" ∧ n = 2)) := by
  simp only [parseTri, caseVariant_iff, eqFold, decide_eq_true_eq]
  by_cases h1 : v.map lowerByte = (b!"On").map lowerByte
  · rw [if_pos h1]
    constructor
    · intro h; cases h; exact .inl ⟨h1, rfl⟩
    · rintro (⟨_, rfl⟩ | ⟨h, _⟩ | ⟨h, _⟩)
      · rfl
      · rw [h1] at h; exact absurd h (by decide)
      · rw [h1] at h; exact absurd h (by decide)
  · rw [if_neg h1]
    by_cases h2 : v.map lowerByte = (b!"Off").map lowerByte
    · rw [if_pos h2]
      constructor
      · intro h; cases h; exact .inr (.inl ⟨h2, rfl⟩)
      · rintro (⟨h, _⟩ | ⟨_, rfl⟩ | ⟨h, _⟩)
        · exact absurd h h1
        · rfl
        · rw [h2] at h; exact absurd h (by decide)
    · rw [if_neg h2]
      by_cases h3 : v.map lowerByte = (b!"DetectionOnly").map lowerByte
      · rw [if_pos h3]
        constructor
        · intro h; cases h; exact .inr (.inr ⟨h3, rfl⟩)
        · rintro (⟨h, _⟩ | ⟨h, _⟩ | ⟨_, rfl⟩)
          · exact absurd h h1
          · exact absurd h h2
          · rfl
      · rw [if_neg h3]
        constructor
        · intro h; cases h
        · rintro (⟨h, _⟩ | ⟨h, _⟩ | ⟨h, _⟩)
          · exact absurd h h1
          · exact absurd h h2
          · exact absurd h h3

/-! ### One token, then a check -/

/-- Read a string and check it. -/
def Scan.tok {α : Type} (s : Scan) (f : Bytes → Except PErr α) : SR α :=
  SR.andThen s.readString fun str s => .ok (s, f str)

/-- The scanner in the middle of a text. -/
abbrev at' (t : Bytes) (l : Nat) : Scan := { bos := false, inp := t, buf := [], line := l }

theorem tok_ok {α : Type} {f : Bytes → Except PErr α} {t v rest : Bytes} {a : α} (h : Token t v rest) (hf : f v = .ok a)
    (l : Nat) : ∃ l', (at' t l).tok f = .ok (at' rest l', .ok a) := by
  obtain ⟨l', h⟩ := readString_token h false l
  exact ⟨l', by simp only [Scan.tok, SR.andThen, h, Res.bind_ok', hf]⟩

theorem tok_conv {α : Type} {f : Bytes → Except PErr α} {t : Bytes} {l : Nat} {s' : Scan} {a : α}
    (hf : f [] ≠ .ok a) (h : (at' t l).tok f = .ok (s', .ok a)) :
    ∃ v rest l', Token t v rest ∧ f v = .ok a ∧ s' = at' rest l' := by
  cases hr : (at' t l).readString with
  | panic => simp [Scan.tok, SR.andThen, hr] at h
  | fuel => simp [Scan.tok, SR.andThen, hr] at h
  | ok p =>
    obtain ⟨s1, v⟩ := p
    cases v with
    | error e => simp [Scan.tok, SR.andThen, hr] at h
    | ok v =>
      simp only [Scan.tok, SR.andThen, hr, Res.bind_ok', Res.ok.injEq, Prod.mk.injEq] at h
      obtain ⟨rfl, h⟩ := h
      have hv : v ≠ [] := by rintro rfl; exact hf h
      obtain ⟨h1, h2, h3⟩ := token_of_readString rfl hr hv
      obtain ⟨b, i, bu, l'⟩ := s1
      simp only at h1 h2 h3
      subst h2 h3
      exact ⟨v, i, l', h1, h, rfl⟩

theorem tok_fuel {α : Type} (f : Bytes → Except PErr α) (t : Bytes) (l : Nat) : (at' t l).tok f = .fuel ↔ Stuck t := by
  rw [Stuck, ← readString_fuel (at' t l)]
  cases hr : (at' t l).readString with
  | panic => simp [Scan.tok, SR.andThen, hr]
  | fuel => simp [Scan.tok, SR.andThen, hr]
  | ok p =>
    obtain ⟨s1, v⟩ := p
    cases v <;> simp [Scan.tok, SR.andThen, hr]

theorem tok_ne_panic {α : Type} (f : Bytes → Except PErr α) (s : Scan) : s.tok f ≠ .panic := by
  have := readString_ne_panic s
  cases hr : s.readString with
  | panic => exact absurd hr this
  | fuel => simp [Scan.tok, SR.andThen, hr]
  | ok p =>
    obtain ⟨s1, v⟩ := p
    cases v <;> simp [Scan.tok, SR.andThen, hr]

/-! ### Rules -/

/-- The check of a variable list. -/
def checkVars (arg : Bytes) : Except PErr (List PVar) :=
  if arg.length = 0 then .error .emptyVariable else parseVariables (splitAny [44, 124] arg)

theorem checkVars_iff (s : Bytes) (vs : List PVar) : checkVars s = .ok vs ↔ Vars s vs := by
  rw [vars_iff]
  cases s with
  | nil =>
    constructor
    · intro h; cases h
    · intro h
      rw [parseVariables_iff] at h
      cases h with
      | cons h1 h2 => exact absurd rfl (varItem_ne h1)
  | cons c r => rfl

theorem readVariables_eq (s : Scan) : s.readVariables = s.tok checkVars := by
  simp only [Scan.readVariables, Scan.tok]
  congr 1
  funext arg s
  by_cases h : arg.length = 0
  · rw [if_pos h, checkVars, if_pos h]
  · rw [if_neg h, splitMulti_ok, checkVars, if_neg h]; rfl

theorem readRule_eq (s : Scan) : s.readRule = SR.andThen (s.tok checkVars) fun vars s =>
    SR.andThen (s.tok parseOperator) fun op s =>
      SR.andThen (s.tok parseActions) fun acts s => .ok (s, .ok (.rule { vars, op, acts })) := by
  simp only [Scan.readRule, readVariables_eq]; rfl

theorem readRule_ok {t t2 t3 rest vs os as : Bytes} {vars : List PVar} {op : POp} {acts : PActs}
    (h1 : Token t vs t2) (h2 : Vars vs vars) (h3 : Token t2 os t3) (h4 : Oper os op) (h5 : Token t3 as rest)
    (h6 : Acts as acts) (l : Nat) : ∃ l', (at' t l).readRule = .ok (at' rest l', .ok (.rule { vars, op, acts })) := by
  obtain ⟨l1, e1⟩ := tok_ok h1 ((checkVars_iff _ _).2 h2) l
  obtain ⟨l2, e2⟩ := tok_ok h3 ((parseOperator_iff _ _).2 h4) l1
  obtain ⟨l3, e3⟩ := tok_ok h5 ((parseActions_iff _ _).2 h6) l2
  refine ⟨l3, ?_⟩
  rw [readRule_eq]
  simp only [SR.andThen, e1, e2, e3, Res.bind_ok']

theorem andThen_ok {α β : Type} {x : SR α} {f : α → Scan → SR β} {s' : Scan} {b : β}
    (h : SR.andThen x f = .ok (s', .ok b)) : ∃ s a, x = .ok (s, .ok a) ∧ f a s = .ok (s', .ok b) := by
  cases x with
  | panic => cases h
  | fuel => cases h
  | ok p =>
    obtain ⟨s, v⟩ := p
    cases v with
    | error e => simp [SR.andThen] at h
    | ok a => exact ⟨s, a, rfl, h⟩

theorem andThen_fuel {α β : Type} {x : SR α} {f : α → Scan → SR β} :
    SR.andThen x f = .fuel ↔ x = .fuel ∨ ∃ s a, x = .ok (s, .ok a) ∧ f a s = .fuel := by
  cases x with
  | panic => simp [SR.andThen]
  | fuel => simp [SR.andThen]
  | ok p =>
    obtain ⟨s, v⟩ := p
    cases v with
    | error e => simp [SR.andThen]
    | ok a =>
      constructor
      · intro h; exact .inr ⟨s, a, rfl, h⟩
      · rintro (h | ⟨s1, a1, h1, h2⟩)
        · cases h
        · cases h1; exact h2

theorem andThen_ne_panic {α β : Type} {x : SR α} {f : α → Scan → SR β} (hx : x ≠ .panic) (hf : ∀ a s, f a s ≠ .panic) :
    SR.andThen x f ≠ .panic := by
  cases x with
  | panic => exact absurd rfl hx
  | fuel => simp [SR.andThen]
  | ok p =>
    obtain ⟨s, v⟩ := p
    cases v with
    | error e => simp [SR.andThen]
    | ok a => exact hf a s

theorem checkVars_nil (a : List PVar) : checkVars [] ≠ .ok a := by simp [checkVars]
theorem parseOperator_nil (a : POp) : parseOperator [] ≠ .ok a := by simp [parseOperator]
theorem parseActions_nil (a : PActs) : parseActions [] ≠ .ok a := by
  have : trimSpace [] = [] := by decide
  simp [parseActions, this]

theorem readRule_conv {t : Bytes} {l : Nat} {s' : Scan} {d : PDir} (h : (at' t l).readRule = .ok (s', .ok d)) :
    ∃ t2 t3 rest vs os as vars op acts l', Token t vs t2 ∧ Vars vs vars ∧ Token t2 os t3 ∧ Oper os op ∧ Token t3 as rest ∧
      Acts as acts ∧ d = .rule { vars, op, acts } ∧ s' = at' rest l' := by
  rw [readRule_eq] at h
  obtain ⟨s1, vars, h1, h⟩ := andThen_ok h
  obtain ⟨vs, t2, l1, a1, a2, rfl⟩ := tok_conv (checkVars_nil _) h1
  obtain ⟨s2, op, h2, h⟩ := andThen_ok h
  obtain ⟨os, t3, l2, b1, b2, rfl⟩ := tok_conv (parseOperator_nil _) h2
  obtain ⟨s3, acts, h3, h⟩ := andThen_ok h
  obtain ⟨as, rest, l3, c1, c2, rfl⟩ := tok_conv (parseActions_nil _) h3
  simp only [Res.ok.injEq, Prod.mk.injEq, Except.ok.injEq] at h
  obtain ⟨rfl, rfl⟩ := h
  exact ⟨t2, t3, rest, vs, os, as, vars, op, acts, l3, a1, (checkVars_iff _ _).1 a2, b1, (parseOperator_iff _ _).1 b2, c1,
    (parseActions_iff _ _).1 c2, rfl, rfl⟩

theorem readRule_fuel (t : Bytes) (l : Nat) : (at' t l).readRule = .fuel ↔ (Stuck t ∨
    (∃ vs t2 vars, Token t vs t2 ∧ Vars vs vars ∧ Stuck t2) ∨
    ∃ vs t2 vars os t3 op, Token t vs t2 ∧ Vars vs vars ∧ Token t2 os t3 ∧ Oper os op ∧ Stuck t3) := by
  rw [readRule_eq]
  constructor
  · intro h
    rcases andThen_fuel.1 h with h | ⟨s1, vars, h1, h⟩
    · exact .inl ((tok_fuel _ _ _).1 h)
    obtain ⟨vs, t2, l1, a1, a2, rfl⟩ := tok_conv (checkVars_nil _) h1
    rcases andThen_fuel.1 h with h | ⟨s2, op, h2, h⟩
    · exact .inr (.inl ⟨vs, t2, vars, a1, (checkVars_iff _ _).1 a2, (tok_fuel _ _ _).1 h⟩)
    obtain ⟨os, t3, l2, b1, b2, rfl⟩ := tok_conv (parseOperator_nil _) h2
    rcases andThen_fuel.1 h with h | ⟨s3, acts, h3, h⟩
    · exact .inr (.inr ⟨vs, t2, vars, os, t3, op, a1, (checkVars_iff _ _).1 a2, b1, (parseOperator_iff _ _).1 b2,
        (tok_fuel _ _ _).1 h⟩)
    · cases h
  · rintro (h | ⟨vs, t2, vars, a1, a2, h⟩ | ⟨vs, t2, vars, os, t3, op, a1, a2, b1, b2, h⟩)
    · exact andThen_fuel.2 (.inl ((tok_fuel _ _ _).2 h))
    · obtain ⟨l1, e1⟩ := tok_ok a1 ((checkVars_iff _ _).2 a2) l
      exact andThen_fuel.2 (.inr ⟨_, _, e1, andThen_fuel.2 (.inl ((tok_fuel _ _ _).2 h))⟩)
    · obtain ⟨l1, e1⟩ := tok_ok a1 ((checkVars_iff _ _).2 a2) l
      obtain ⟨l2, e2⟩ := tok_ok b1 ((parseOperator_iff _ _).2 b2) l1
      exact andThen_fuel.2 (.inr ⟨_, _, e1, andThen_fuel.2 (.inr ⟨_, _, e2, andThen_fuel.2 (.inl ((tok_fuel _ _ _).2 h))⟩)⟩)

theorem readRule_ne_panic (s : Scan) : s.readRule ≠ .panic := by
  rw [readRule_eq]
  exact andThen_ne_panic (tok_ne_panic _ _) fun _ _ => andThen_ne_panic (tok_ne_panic _ _) fun _ _ =>
    andThen_ne_panic (tok_ne_panic _ _) fun _ _ => by simp

/-! ### Words -/

theorem readLetters_append {w t : Bytes} (hw : ∀ c ∈ w, Letter c) (ht : ∀ c, t.head? = some c → ¬ Letter c) :
    readLetters (w ++ t) = (w, t) := by
  induction w with
  | nil =>
    cases t with
    | nil => rfl
    | cons c t =>
      have : isAlphabet c = false := Bool.eq_false_iff.2 (mt (isAlphabet_iff c).1 (ht c rfl))
      simp [readLetters, this]
  | cons a w ih =>
    simp only [List.mem_cons, forall_eq_or_imp] at hw
    simp [readLetters, (isAlphabet_iff a).2 hw.1, ih hw.2]

theorem readLetters_spec (s : Bytes) : s = (readLetters s).1 ++ (readLetters s).2 ∧ (∀ c ∈ (readLetters s).1, Letter c) ∧
    ∀ c, (readLetters s).2.head? = some c → ¬ Letter c := by
  induction s with
  | nil => simp [readLetters]
  | cons a s ih =>
    by_cases h : isAlphabet a = true
    · simp only [readLetters, h, if_true]
      refine ⟨?_, ?_, ih.2.2⟩
      · rw [List.cons_append, ← ih.1]
      · simp only [List.mem_cons, forall_eq_or_imp]; exact ⟨(isAlphabet_iff a).1 h, ih.2.1⟩
    · simp only [readLetters, h]
      refine ⟨rfl, by simp, ?_⟩
      intro c hc; cases hc; exact mt (isAlphabet_iff a).2 h

theorem toLower_letters (hi : Rune → Rune) {w : Bytes} (h : ∀ c ∈ w, Letter c) : toLower hi w = w.map lowerByte :=
  lower_ascii hi fun c hc => by have := h c hc; simp only [Letter] at this; omega

theorem CaseEq.letter {a b : UInt8} (h : CaseEq a b) : Letter b → Letter a := by
  simp only [CaseEq, Letter] at *
  rcases h with rfl | h | h <;> omega

theorem letters_of_variant {w n : Bytes} (h : CaseVariant w n) (hn : ∀ c ∈ n, Letter c) : ∀ c ∈ w, Letter c := by
  induction h with
  | nil => simp
  | cons h1 _ ih =>
    simp only [List.mem_cons, forall_eq_or_imp] at *
    exact ⟨CaseEq.letter h1 hn.1, ih hn.2⟩

/-- The name of each directive. -/
def dirName : DirTok → Bytes
  | .rule => b!"SecRule" | .ruleEng => b!"SecRuleEngine" | .reqBody => b!"SecRequestBodyAccess"
  | .resBody => b!"SecResponseBodyAccess"

theorem dirName_letters (tk : DirTok) : ∀ c ∈ dirName tk, Letter c := by
  have : ∀ c ∈ dirName tk, isAlphabet c = true := by cases tk <;> decide
  exact fun c hc => (isAlphabet_iff c).1 (this c hc)

theorem dirIndex_iff (w : Bytes) (tk : DirTok) : dirIndex.lookup (w.map lowerByte) = some tk ↔ CaseVariant w (dirName tk) := by
  rw [caseVariant_iff]
  constructor
  · intro h
    have key : ∀ p ∈ dirIndex, p.1 = (dirName p.2).map lowerByte := by decide
    exact key _ (lookup_mem h)
  · intro h
    rw [h]
    cases tk <;> decide

/-- The body of a directive. -/
def Scan.readBody (s : Scan) : DirTok → SR PDir
  | .rule => s.readRule
  | .ruleEng => s.readTri .ruleEng
  | .reqBody => s.readBool .reqBody
  | .resBody => s.readBool .resBody

theorem readDirective'_eq (hi : Rune → Rune) {w t : Bytes} {tk : DirTok} (hw : CaseVariant w (dirName tk))
    (ht : ∀ c, t.head? = some c → ¬ Letter c) (l : Nat) :
    (at' (w ++ t) l).readDirective' hi = (at' t l).readBody tk := by
  have hl := letters_of_variant hw (dirName_letters tk)
  have e : (at' (w ++ t) l).readWord = (at' t l, w) := by
    simp only [Scan.readWord, Bool.false_eq_true, if_false, readLetters_append hl ht, List.nil_append]
  simp only [Scan.readDirective', e, toLower_letters hi hl, (dirIndex_iff w tk).2 hw]
  cases tk <;> rfl

theorem readDirective'_cases (hi : Rune → Rune) (s : Bytes) (l : Nat) :
    (∃ s', (at' s l).readDirective' hi = .ok (s', .error .notDirective)) ∨
    ∃ w t tk, s = w ++ t ∧ CaseVariant w (dirName tk) ∧ (∀ c, t.head? = some c → ¬ Letter c) ∧
      (at' s l).readDirective' hi = (at' t l).readBody tk := by
  obtain ⟨h1, h2, h3⟩ := readLetters_spec s
  have e : (at' s l).readWord = (at' (readLetters s).2 l, (readLetters s).1) := by
    simp only [Scan.readWord, Bool.false_eq_true, if_false, List.nil_append]
  cases hl : dirIndex.lookup (toLower hi (readLetters s).1) with
  | none => exact .inl ⟨at' (readLetters s).2 l, by simp only [Scan.readDirective', e, hl]⟩
  | some tk =>
    rw [toLower_letters hi h2] at hl
    have hv := (dirIndex_iff _ _).1 hl
    refine .inr ⟨_, _, tk, h1, hv, h3, ?_⟩
    conv => lhs; rw [h1]
    exact readDirective'_eq hi hv h3 l

theorem readBool_eq (s : Scan) (mk : Bool → PDir) : s.readBool mk = s.tok fun str => (parseBool str).map mk := rfl
theorem readTri_eq (s : Scan) (mk : Int → PDir) : s.readTri mk = s.tok fun str => (parseTri str).map mk := rfl

theorem except_map_ok {α β : Type} {x : Except PErr α} {f : α → β} {b : β} : x.map f = .ok b ↔ ∃ a, x = .ok a ∧ f a = b := by
  cases x <;> simp [Except.map]

/-- A directive of the grammar is read. -/
theorem readDirective'_ok (hi : Rune → Rune) {t rest : Bytes} {d : PDir} (h : Directive t d rest) (l : Nat) :
    ∃ l', (at' t l).readDirective' hi = .ok (at' rest l', .ok d) := by
  cases h with
  | rule hw ht h1 h2 h3 h4 h5 h6 =>
    rw [readDirective'_eq hi (tk := .rule) hw ht]
    exact readRule_ok h1 h2 h3 h4 h5 h6 l
  | engine hw ht h1 h2 =>
    rw [readDirective'_eq hi (tk := .ruleEng) hw ht]
    simp only [Scan.readBody, readTri_eq]
    exact tok_ok h1 (except_map_ok.2 ⟨_, (parseTri_iff _ _).2 h2, rfl⟩) l
  | reqBody hw ht h1 h2 =>
    rw [readDirective'_eq hi (tk := .reqBody) hw ht]
    simp only [Scan.readBody, readBool_eq]
    exact tok_ok h1 (except_map_ok.2 ⟨_, (parseBool_iff _ _).2 h2, rfl⟩) l
  | resBody hw ht h1 h2 =>
    rw [readDirective'_eq hi (tk := .resBody) hw ht]
    simp only [Scan.readBody, readBool_eq]
    exact tok_ok h1 (except_map_ok.2 ⟨_, (parseBool_iff _ _).2 h2, rfl⟩) l

/-- Only directives of the grammar are read. -/
theorem readDirective'_conv {hi : Rune → Rune} {t : Bytes} {l : Nat} {s' : Scan} {d : PDir}
    (h : (at' t l).readDirective' hi = .ok (s', .ok d)) : ∃ rest l', Directive t d rest ∧ s' = at' rest l' := by
  rcases readDirective'_cases hi t l with ⟨s1, e⟩ | ⟨w, t, tk, rfl, hw, ht, e⟩
  · rw [e] at h; simp at h
  · rw [e] at h
    cases tk with
    | rule =>
      obtain ⟨t2, t3, rest, vs, os, as, vars, op, acts, l', h1, h2, h3, h4, h5, h6, rfl, rfl⟩ := readRule_conv h
      exact ⟨rest, l', .rule hw ht h1 h2 h3 h4 h5 h6, rfl⟩
    | ruleEng =>
      simp only [Scan.readBody, readTri_eq] at h
      obtain ⟨v, rest, l', h1, h2, rfl⟩ := tok_conv (by simp [parseTri, eqFold, Except.map]) h
      obtain ⟨n, hn, rfl⟩ := except_map_ok.1 h2
      exact ⟨rest, l', .engine hw ht h1 ((parseTri_iff _ _).1 hn), rfl⟩
    | reqBody =>
      simp only [Scan.readBody, readBool_eq] at h
      obtain ⟨v, rest, l', h1, h2, rfl⟩ := tok_conv (by simp [parseBool, eqFold, Except.map]) h
      obtain ⟨n, hn, rfl⟩ := except_map_ok.1 h2
      exact ⟨rest, l', .reqBody hw ht h1 ((parseBool_iff _ _).1 hn), rfl⟩
    | resBody =>
      simp only [Scan.readBody, readBool_eq] at h
      obtain ⟨v, rest, l', h1, h2, rfl⟩ := tok_conv (by simp [parseBool, eqFold, Except.map]) h
      obtain ⟨n, hn, rfl⟩ := except_map_ok.1 h2
      exact ⟨rest, l', .resBody hw ht h1 ((parseBool_iff _ _).1 hn), rfl⟩

theorem Stuck.head {t : Bytes} (h : Stuck t) : ∀ c, t.head? = some c → ¬ Letter c := by
  obtain ⟨g, r, hg, rfl, _⟩ := h
  intro c hc
  cases hg with
  | nil => cases hc; simp [Letter]
  | blank h _ =>
    cases hc
    rcases h with rfl | rfl | rfl | rfl <;> simp [Letter]
  | cont => cases hc; simp [Letter]
  | cont2 => cases hc; simp [Letter]

theorem dirName_mem (n : Bytes) : n ∈ [b!"SecRule", b!"SecRuleEngine", b!"SecRequestBodyAccess", b!"SecResponseBodyAccess"] ↔
    ∃ tk, n = dirName tk := by
  constructor
  · intro h
    simp only [List.mem_cons, List.not_mem_nil, or_false] at h
    rcases h with rfl | rfl | rfl | rfl
    · exact ⟨.rule, rfl⟩
    · exact ⟨.ruleEng, rfl⟩
    · exact ⟨.reqBody, rfl⟩
    · exact ⟨.resBody, rfl⟩
  · rintro ⟨tk, rfl⟩
    cases tk <;> decide

/-- Reading a directive does not return exactly when it hangs in the sense of the grammar. -/
theorem readDirective'_fuel (hi : Rune → Rune) (t : Bytes) (l : Nat) : (at' t l).readDirective' hi = .fuel ↔ HangsIn t := by
  constructor
  · intro h
    rcases readDirective'_cases hi t l with ⟨s1, e⟩ | ⟨w, t, tk, rfl, hw, ht, e⟩
    · rw [e] at h; cases h
    · rw [e] at h
      cases tk with
      | rule =>
        rcases (readRule_fuel _ _).1 h with h | ⟨vs, t2, vars, a1, a2, h⟩ | ⟨vs, t2, vars, os, t3, op, a1, a2, b1, b2, h⟩
        · exact .first ((dirName_mem _).2 ⟨.rule, rfl⟩) hw h
        · exact .operator hw ht a1 a2 h
        · exact .actions hw ht a1 a2 b1 b2 h
      | ruleEng => exact .first ((dirName_mem _).2 ⟨.ruleEng, rfl⟩) hw ((tok_fuel _ _ _).1 h)
      | reqBody => exact .first ((dirName_mem _).2 ⟨.reqBody, rfl⟩) hw ((tok_fuel _ _ _).1 h)
      | resBody => exact .first ((dirName_mem _).2 ⟨.resBody, rfl⟩) hw ((tok_fuel _ _ _).1 h)
  · intro h
    cases h with
    | first hn hw hs =>
      obtain ⟨tk, rfl⟩ := (dirName_mem _).1 hn
      rw [readDirective'_eq hi hw (Stuck.head hs)]
      cases tk with
      | rule => exact (readRule_fuel _ _).2 (.inl hs)
      | ruleEng => exact (tok_fuel _ _ _).2 hs
      | reqBody => exact (tok_fuel _ _ _).2 hs
      | resBody => exact (tok_fuel _ _ _).2 hs
    | operator hw ht h1 h2 h3 =>
      rw [readDirective'_eq hi (tk := .rule) hw ht]
      exact (readRule_fuel _ _).2 (.inr (.inl ⟨_, _, _, h1, h2, h3⟩))
    | actions hw ht h1 h2 h3 h4 h5 =>
      rw [readDirective'_eq hi (tk := .rule) hw ht]
      exact (readRule_fuel _ _).2 (.inr (.inr ⟨_, _, _, _, _, _, h1, h2, h3, h4, h5⟩))

theorem readDirective'_ne_panic (hi : Rune → Rune) (s : Bytes) (l : Nat) : (at' s l).readDirective' hi ≠ .panic := by
  rcases readDirective'_cases hi s l with ⟨s1, e⟩ | ⟨w, t, tk, _, _, _, e⟩
  · rw [e]; simp
  · rw [e]
    cases tk with
    | rule => exact readRule_ne_panic _
    | ruleEng => exact tok_ne_panic _ _
    | reqBody => exact tok_ne_panic _ _
    | resBody => exact tok_ne_panic _ _

/-! ### Whole texts -/

/-- A byte that separates directives. -/
def IsFiller (c : UInt8) : Prop := Sp c ∨ Nl c ∨ c = 0

theorem skipLines_stop {t : Bytes} (h : ∀ c, t.head? = some c → ¬ IsFiller c) (l : Nat) : skipLines t l = (t, l) := by
  cases t with
  | nil => simp [skipLines]
  | cons c r =>
    have := h c rfl
    simp only [IsFiller, not_or] at this
    rw [skipLines.eq_def]
    have a1 : isNewLine c = false := Bool.eq_false_iff.2 (mt (isNewLine_iff c).1 this.2.1)
    have a2 : isBlank c = false := Bool.eq_false_iff.2 (mt (isBlank_iff c).1 this.1)
    simp [a1, a2, this.2.2]

theorem skipLines_filler (f : Bytes) : ∀ {t : Bytes}, Filler f → (∀ c, t.head? = some c → ¬ IsFiller c) →
    ∀ l, ∃ l', skipLines (f ++ t) l = (t, l') := by
  match f with
  | [] => intro t _ ht l; exact ⟨l, skipLines_stop ht l⟩
  | c :: f =>
    intro t hf ht l
    have hc := hf c List.mem_cons_self
    have hf' : Filler f := fun d hd => hf d (List.mem_cons_of_mem _ hd)
    rw [List.cons_append, skipLines.eq_def]
    simp only
    by_cases hn : isNewLine c = true
    · simp only [hn, if_true]
      match f with
      | [] =>
        cases t with
        | nil => exact ⟨l + 1, rfl⟩
        | cons a t =>
          have hna : isNewLine a = false := by
            refine Bool.eq_false_iff.2 fun h => ht a rfl (.inr (.inl ((isNewLine_iff a).1 h)))
          simp only [List.nil_append, hna, Bool.false_and, Bool.false_eq_true, if_false]
          exact ⟨l + 1, skipLines_stop ht _⟩
      | c' :: f' =>
        simp only [List.cons_append]
        split
        · exact skipLines_filler f' (fun d hd => hf' d (List.mem_cons_of_mem _ hd)) ht (l + 1)
        · exact skipLines_filler (c' :: f') hf' ht (l + 1)
    · have hb : (isBlank c || c == 0) = true := by
        rcases hc with h | h | h
        · simp [(isBlank_iff c).2 h]
        · exact absurd ((isNewLine_iff c).2 h) hn
        · simp [h]
      simp only [hn, hb, if_true, Bool.false_eq_true, if_false]
      exact skipLines_filler f hf' ht l
termination_by f.length

theorem skipLines_cases (t : Bytes) (l : Nat) : ∃ f, Filler f ∧ t = f ++ (skipLines t l).1 ∧
    ∀ c, (skipLines t l).1.head? = some c → ¬ IsFiller c := by
  match t with
  | [] => exact ⟨[], by simp [Filler], by simp [skipLines], by simp [skipLines]⟩
  | c :: r =>
    rw [skipLines.eq_def]
    simp only
    by_cases hn : isNewLine c = true
    · have hc : Sp c ∨ Nl c ∨ c = 0 := .inr (.inl ((isNewLine_iff c).1 hn))
      simp only [hn, if_true]
      cases r with
      | nil => exact ⟨[c], by simpa [Filler] using hc, by simp, by simp⟩
      | cons c' r' =>
        simp only
        split
        · rename_i h2
          simp only [Bool.and_eq_true] at h2
          obtain ⟨f, h1, h3, h4⟩ := skipLines_cases r' (l + 1)
          refine ⟨c :: c' :: f, ?_, by rw [List.cons_append, List.cons_append, ← h3], h4⟩
          intro d hd
          simp only [List.mem_cons] at hd
          rcases hd with rfl | rfl | hd
          · exact hc
          · exact .inr (.inl ((isNewLine_iff _).1 h2.1))
          · exact h1 d hd
        · obtain ⟨f, h1, h3, h4⟩ := skipLines_cases (c' :: r') (l + 1)
          refine ⟨c :: f, ?_, by rw [List.cons_append, ← h3], h4⟩
          intro d hd
          rcases List.mem_cons.1 hd with rfl | hd
          · exact hc
          · exact h1 d hd
    · by_cases hb : (isBlank c || c == 0) = true
      · simp only [hn, hb, if_true, Bool.false_eq_true, if_false]
        obtain ⟨f, h1, h3, h4⟩ := skipLines_cases r l
        refine ⟨c :: f, ?_, by rw [List.cons_append, ← h3], h4⟩
        intro d hd
        rcases List.mem_cons.1 hd with rfl | hd
        · simp only [Bool.or_eq_true, beq_iff_eq] at hb
          rcases hb with hb | hb
          · exact .inl ((isBlank_iff _).1 hb)
          · exact .inr (.inr hb)
        · exact h1 d hd
      · simp only [hn, hb, Bool.false_eq_true, if_false]
        refine ⟨[], by simp [Filler], rfl, ?_⟩
        intro d hd
        cases hd
        simp only [Bool.or_eq_true, beq_iff_eq, not_or] at hb
        rintro (h | h | h)
        · exact hb.1 ((isBlank_iff _).2 h)
        · exact hn ((isNewLine_iff _).2 h)
        · exact hb.2 h
termination_by t.length

theorem letter_not_filler {c : UInt8} (h : Letter c) : ¬ IsFiller c := by
  rintro (h' | h' | h')
  · rcases h' with rfl | rfl | rfl | rfl <;> simp [Letter] at h
  · rcases h' with rfl | rfl <;> simp [Letter] at h
  · subst h'; simp [Letter] at h

theorem variant_cons {w n t : Bytes} (h : CaseVariant w n) (hn : n ≠ []) (hl : ∀ c ∈ n, Letter c) :
    ∃ c r, w ++ t = c :: r ∧ Letter c := by
  cases h with
  | nil => exact absurd rfl hn
  | cons h1 h2 => exact ⟨_, _, rfl, CaseEq.letter h1 (hl _ List.mem_cons_self)⟩

theorem dirName_ne (tk : DirTok) : dirName tk ≠ [] := by cases tk <;> decide

theorem directive_head {t rest : Bytes} {d : PDir} (h : Directive t d rest) : ∃ c r, t = c :: r ∧ Letter c := by
  cases h with
  | rule hw => exact variant_cons hw (dirName_ne .rule) (dirName_letters .rule)
  | engine hw => exact variant_cons hw (dirName_ne .ruleEng) (dirName_letters .ruleEng)
  | reqBody hw => exact variant_cons hw (dirName_ne .reqBody) (dirName_letters .reqBody)
  | resBody hw => exact variant_cons hw (dirName_ne .resBody) (dirName_letters .resBody)

theorem hangsIn_head {t : Bytes} (h : HangsIn t) : ∃ c r, t = c :: r ∧ Letter c := by
  cases h with
  | first hn hw =>
    obtain ⟨tk, rfl⟩ := (dirName_mem _).1 hn
    exact variant_cons hw (dirName_ne tk) (dirName_letters tk)
  | operator hw => exact variant_cons hw (dirName_ne .rule) (dirName_letters .rule)
  | actions hw => exact variant_cons hw (dirName_ne .rule) (dirName_letters .rule)

theorem lex_suffix {stop : UInt8 → Prop} {eos : Prop} {t v rest : Bytes} (h : Lex stop eos t v rest) : rest <:+ t := by
  induction h with
  | eos => exact List.suffix_refl _
  | stop => exact List.suffix_cons _ _
  | plain _ _ _ _ ih => exact ih.trans (List.suffix_cons _ _)
  | esc _ _ ih => exact ih.trans ((List.suffix_cons _ _).trans (List.suffix_cons _ _))
  | line2 _ _ _ _ ih => exact ih.trans ((List.suffix_cons _ _).trans ((List.suffix_cons _ _).trans (List.suffix_cons _ _)))
  | line1 _ _ _ ih => exact ih.trans ((List.suffix_cons _ _).trans (List.suffix_cons _ _))
  | other _ _ _ ih => exact ih.trans ((List.suffix_cons _ _).trans (List.suffix_cons _ _))

theorem token_suffix {t v rest : Bytes} (h : Token t v rest) : rest <:+ t := by
  cases h with
  | quoted _ _ h => exact (lex_suffix h).trans ((List.suffix_cons _ _).trans (List.suffix_append _ _))
  | bare _ _ _ _ _ h => exact (lex_suffix h).trans (List.suffix_append _ _)

theorem variant_length {w n : Bytes} (h : CaseVariant w n) : w.length = n.length := by
  induction h with
  | nil => rfl
  | cons _ _ ih => simp [ih]

theorem directive_shorter {t rest : Bytes} {d : PDir} (h : Directive t d rest) : rest <:+ t ∧ rest.length < t.length := by
  have key : ∀ {w t n rest : Bytes}, CaseVariant w n → n ≠ [] → rest <:+ t → rest <:+ w ++ t ∧ rest.length < (w ++ t).length := by
    intro w t n rest h hn hr
    have := variant_length h
    have := List.length_pos_iff.2 hn
    refine ⟨hr.trans (List.suffix_append _ _), ?_⟩
    have := hr.length_le
    rw [List.length_append]; omega
  cases h with
  | rule hw ht h1 h2 h3 h4 h5 h6 =>
    exact key hw (dirName_ne .rule) ((token_suffix h5).trans ((token_suffix h3).trans (token_suffix h1)))
  | engine hw ht h1 => exact key hw (dirName_ne .ruleEng) (token_suffix h1)
  | reqBody hw ht h1 => exact key hw (dirName_ne .reqBody) (token_suffix h1)
  | resBody hw ht h1 => exact key hw (dirName_ne .resBody) (token_suffix h1)

/-- The scanner at the beginning or in the middle of a text. -/
abbrev atB (b : Bool) (t : Bytes) (l : Nat) : Scan := { bos := b, inp := t, buf := [], line := l }

theorem readDirective_end (hi : Rune → Rune) {t : Bytes} (h : Filler t) (b : Bool) (l : Nat) :
    ∃ s', (atB b t l).readDirective hi = .ok (s', .error .eos) := by
  obtain ⟨l', e⟩ := skipLines_filler t (t := []) h (by simp) l
  rw [List.append_nil] at e
  exact ⟨_, by simp only [Scan.readDirective, e]; rfl⟩

theorem readDirective_eq (hi : Rune → Rune) {f t : Bytes} (hf : Filler f) (ht : ∃ c r, t = c :: r ∧ Letter c) (b : Bool) (l : Nat) :
    ∃ l', (atB b (f ++ t) l).readDirective hi = ((at' t l').readDirective' hi).bind fun
      | (s, .error .eos) => .ok (s, .error .unexpectedEOS)
      | x => .ok x := by
  obtain ⟨c, r, rfl, hc⟩ := ht
  obtain ⟨l', e⟩ := skipLines_filler f (t := c :: r) hf (by intro d hd; cases hd; exact letter_not_filler hc) l
  exact ⟨l', by simp only [Scan.readDirective, e]; rfl⟩

theorem readDirective_ok (hi : Rune → Rune) {f t rest : Bytes} {d : PDir} (hf : Filler f) (h : Directive t d rest) (b : Bool) (l : Nat) :
    ∃ l', (atB b (f ++ t) l).readDirective hi = .ok (at' rest l', .ok d) := by
  obtain ⟨l1, e⟩ := readDirective_eq hi hf (directive_head h) b l
  obtain ⟨l2, e2⟩ := readDirective'_ok hi h l1
  exact ⟨l2, by rw [e, e2]; rfl⟩

/-- What `ReadDirective` can do. -/
theorem readDirective_cases (hi : Rune → Rune) (b : Bool) (t : Bytes) (l : Nat) :
    (Filler t ∧ ∃ s', (atB b t l).readDirective hi = .ok (s', .error .eos)) ∨
    (∃ s' e, e ≠ .eos ∧ (atB b t l).readDirective hi = .ok (s', .error e)) ∨
    (∃ f u rest d l', t = f ++ u ∧ Filler f ∧ Directive u d rest ∧ (atB b t l).readDirective hi = .ok (at' rest l', .ok d)) ∨
    (∃ f u, t = f ++ u ∧ Filler f ∧ HangsIn u ∧ (atB b t l).readDirective hi = .fuel) := by
  obtain ⟨f, h1, h2, h3⟩ := skipLines_cases t l
  cases hs : skipLines t l with
  | mk u l' =>
    rw [hs] at h2 h3
    simp only at h2 h3
    cases u with
    | nil =>
      rw [List.append_nil] at h2
      subst h2
      exact .inl ⟨h1, readDirective_end hi h1 b l⟩
    | cons c u =>
      refine .inr ?_
      have e : (atB b t l).readDirective hi = ((at' (c :: u) l').readDirective' hi).bind fun
          | (s, .error .eos) => .ok (s, .error .unexpectedEOS)
          | x => .ok x := by simp only [Scan.readDirective, hs]; rfl
      cases hd : (at' (c :: u) l').readDirective' hi with
      | panic => exact absurd hd (readDirective'_ne_panic hi _ _)
      | fuel =>
        exact .inr (.inr ⟨f, c :: u, h2, h1, (readDirective'_fuel hi _ _).1 hd, by rw [e, hd]; rfl⟩)
      | ok p =>
        obtain ⟨s1, v⟩ := p
        cases v with
        | error er =>
          refine .inl ?_
          by_cases he : er = .eos
          · subst he
            exact ⟨s1, .unexpectedEOS, by decide, by rw [e, hd]; rfl⟩
          · refine ⟨s1, er, he, ?_⟩
            rw [e, hd]
            cases er <;> first | rfl | exact absurd rfl he
        | ok d =>
          obtain ⟨rest, l2, h4, rfl⟩ := readDirective'_conv hd
          exact .inr (.inl ⟨f, c :: u, rest, d, l2, h2, h1, h4, by rw [e, hd]; rfl⟩)

/-- The whole loop, with enough fuel. -/
theorem allDirective_cases (hi : Rune → Rune) : ∀ (n : Nat) (b : Bool) (t : Bytes) (l : Nat), t.length < n →
    (∃ s' ds, allDirectiveFuel hi n (atB b t l) = .ok (s', .ok ds) ∧ Program t ds) ∨
    (∃ s' e, allDirectiveFuel hi n (atB b t l) = .ok (s', .error e)) ∨
    (allDirectiveFuel hi n (atB b t l) = .fuel ∧ Hangs t) := by
  intro n
  induction n with
  | zero => intro b t l h; omega
  | succ n ih =>
    intro b t l hn
    rcases readDirective_cases hi b t l with ⟨hf, s', e⟩ | ⟨s', er, he, e⟩ | ⟨f, u, rest, d, l', rfl, hf, hd, e⟩ | ⟨f, u, rfl, hf, hh, e⟩
    · exact .inl ⟨s', [], by simp only [allDirectiveFuel, e, Res.bind_ok'], .done hf⟩
    · refine .inr (.inl ⟨s', er, ?_⟩)
      simp only [allDirectiveFuel, e, Res.bind_ok']
    · have hlen := (directive_shorter hd).2
      rw [List.length_append] at hn
      rcases ih false rest l' (by omega) with ⟨s1, ds, e1, h1⟩ | ⟨s1, er, e1⟩ | ⟨e1, h1⟩
      · exact .inl ⟨s1, d :: ds, by simp only [allDirectiveFuel, e, Res.bind_ok', SR.andThen, e1], .dir hf hd h1⟩
      · exact .inr (.inl ⟨s1, er, by simp only [allDirectiveFuel, e, Res.bind_ok', SR.andThen, e1]⟩)
      · exact .inr (.inr ⟨by simp only [allDirectiveFuel, e, Res.bind_ok', SR.andThen, e1, Res.bind_fuel'], .later hf hd h1⟩)
    · exact .inr (.inr ⟨by simp only [allDirectiveFuel, e, Res.bind_fuel'], .here hf hh⟩)

theorem allDirective_ok (hi : Rune → Rune) {t : Bytes} {ds : List PDir} (h : Program t ds) :
    ∀ (n : Nat) (b : Bool) (l : Nat), t.length < n → ∃ s', allDirectiveFuel hi n (atB b t l) = .ok (s', .ok ds) := by
  induction h with
  | done hf =>
    intro n b l hn
    obtain ⟨n, rfl⟩ : ∃ k, n = k + 1 := ⟨n - 1, by omega⟩
    obtain ⟨s', e⟩ := readDirective_end hi hf b l
    exact ⟨s', by simp only [allDirectiveFuel, e, Res.bind_ok']⟩
  | dir hf hd _ ih =>
    intro n b l hn
    obtain ⟨n, rfl⟩ : ∃ k, n = k + 1 := ⟨n - 1, by omega⟩
    obtain ⟨l', e⟩ := readDirective_ok hi hf hd b l
    have hlen := (directive_shorter hd).2
    rw [List.length_append] at hn
    obtain ⟨s1, e1⟩ := ih n false l' (by omega)
    exact ⟨s1, by simp only [allDirectiveFuel, e, Res.bind_ok', SR.andThen, e1]⟩

theorem allDirective_hangs (hi : Rune → Rune) {t : Bytes} (h : Hangs t) :
    ∀ (n : Nat) (b : Bool) (l : Nat), allDirectiveFuel hi n (atB b t l) = .fuel := by
  induction h with
  | here hf hh =>
    intro n b l
    cases n with
    | zero => rfl
    | succ n =>
      obtain ⟨l1, e⟩ := readDirective_eq hi hf (hangsIn_head hh) b l
      rw [(readDirective'_fuel hi _ _).2 hh] at e
      simp only [allDirectiveFuel, e, Res.bind_fuel']
  | later hf hd _ ih =>
    intro n b l
    cases n with
    | zero => rfl
    | succ n =>
      obtain ⟨l', e⟩ := readDirective_ok hi hf hd b l
      simp only [allDirectiveFuel, e, Res.bind_ok', SR.andThen, ih n false l', Res.bind_fuel']

end Verif
