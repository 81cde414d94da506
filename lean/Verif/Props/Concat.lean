import Verif.Props.More
/-! C117: two texts loaded one after the other are like one text. -/
namespace Verif
open Sample Spec

/-! ### The claim -/

/-- C117: loading two texts into a set, one after the other, is like loading one text in which
the second follows the first on a new line. -/
def C117_statement : Prop :=
  ∀ (lib : Lib) (vo : VarOrd) (set set1 set2 : DireSet) (a b : Bytes), DireSet.addSecLangString lib vo set a = .ok (set1, none) →
    DireSet.addSecLangString lib vo set1 b = .ok (set2, none) → DireSet.addSecLangString lib vo set (a ++ 10 :: b) = .ok (set2, none)

/-! ### The grammar -/

theorem Spec.Lex.suffix {stop : UInt8 → Prop} {eos : Prop} {t v rest : Bytes} (h : Lex stop eos t v rest) : rest <:+ t := by
  induction h with
  | eos _ => exact List.suffix_rfl
  | stop _ => exact List.suffix_cons _ _
  | plain _ _ _ _ ih => exact ih.trans (List.suffix_cons _ _)
  | esc _ _ ih => exact (ih.trans (List.suffix_cons _ _)).trans (List.suffix_cons _ _)
  | line2 _ _ _ _ ih => exact ((ih.trans (List.suffix_cons _ _)).trans (List.suffix_cons _ _)).trans (List.suffix_cons _ _)
  | line1 _ _ _ ih => exact (ih.trans (List.suffix_cons _ _)).trans (List.suffix_cons _ _)
  | other _ _ _ ih => exact (ih.trans (List.suffix_cons _ _)).trans (List.suffix_cons _ _)

theorem Spec.Token.suffix {t v rest : Bytes} (h : Token t v rest) : rest <:+ t := by
  cases h with
  | quoted _ _ h => exact (h.suffix.trans (List.suffix_cons _ _)).trans (List.suffix_append _ _)
  | bare _ _ _ _ _ h => exact h.suffix.trans (List.suffix_append _ _)

theorem Spec.Directive.suffix {t rest : Bytes} {d : PDir} (h : Directive t d rest) : rest <:+ t := by
  cases h with
  | rule _ _ h1 _ h2 _ h3 _ => exact ((h3.suffix.trans h2.suffix).trans h1.suffix).trans (List.suffix_append _ _)
  | engine _ _ h => exact h.suffix.trans (List.suffix_append _ _)
  | reqBody _ _ h => exact h.suffix.trans (List.suffix_append _ _)
  | resBody _ _ h => exact h.suffix.trans (List.suffix_append _ _)

/-- A quoted string ends at its quotation mark, whatever follows. -/
theorem Spec.Lex.more {stop : UInt8 → Prop} {t v rest : Bytes} (h : Lex stop False t v rest) (x : Bytes) : Lex stop False (t ++ x) v (rest ++ x) := by
  induction h with
  | eos h => exact h.elim
  | stop h => exact .stop h
  | plain h1 h2 h3 _ ih => exact .plain h1 h2 h3 ih
  | esc h _ ih => exact .esc h ih
  | line2 h1 h2 h3 _ ih => exact .line2 h1 h2 h3 ih
  | @line1 a r v rest h1 h2 h ih =>
    refine .line1 h1 ?_ ih
    cases r with
    | nil => cases h; contradiction
    | cons c r => exact h2
  | other h1 h2 _ ih => exact .other h1 h2 ih

/-- How the text behind a token or directive goes on: by the new line too, unless that ended it. -/
def Spec.GoesOn (rest b rest' : Bytes) : Prop := rest' = rest ++ 10 :: b ∨ rest = [] ∧ rest' = b

/-- A bare word ends at a new line. -/
theorem Spec.Lex.line {t v rest : Bytes} (h : Lex (fun c => Sp c ∨ Nl c) True t v rest) (b : Bytes) (hn : ¬ [92, 13] <:+ t) :
    ∃ rest', GoesOn rest b rest' ∧ Lex (fun c => Sp c ∨ Nl c) True (t ++ 10 :: b) v rest' := by
  have tl : ∀ {c : UInt8} {r : Bytes}, ¬ [92, 13] <:+ c :: r → ¬ [92, 13] <:+ r := fun h h' => h (h'.trans (List.suffix_cons _ _))
  induction h with
  | eos _ => exact ⟨b, .inr ⟨rfl, rfl⟩, .stop (.inr (.inl rfl))⟩
  | stop h => exact ⟨_, .inl rfl, .stop h⟩
  | plain h1 h2 h3 _ ih => obtain ⟨r, g, h⟩ := ih (tl hn); exact ⟨r, g, .plain h1 h2 h3 h⟩
  | esc h1 _ ih => obtain ⟨r, g, h⟩ := ih (tl (tl hn)); exact ⟨r, g, .esc h1 h⟩
  | line2 h1 h2 h3 _ ih => obtain ⟨r, g, h⟩ := ih (tl (tl (tl hn))); exact ⟨r, g, .line2 h1 h2 h3 h⟩
  | @line1 a r v rest h1 h2 _ ih =>
    obtain ⟨r', g, h⟩ := ih (tl (tl hn))
    refine ⟨r', g, .line1 h1 ?_ h⟩
    cases r with
    | nil =>
      intro c hc _
      have hc : 10 = c := Option.some.inj hc
      rcases h1 with rfl | rfl
      · exact hc.symm
      · exact absurd List.suffix_rfl hn
    | cons c r => exact h2
  | other h1 h2 _ ih => obtain ⟨r, g, h⟩ := ih (tl (tl hn)); exact ⟨r, g, .other h1 h2 h⟩

theorem Spec.Token.line {t v rest : Bytes} (h : Token t v rest) (b : Bytes) (hn : ¬ [92, 13] <:+ t) :
    ∃ rest', GoesOn rest b rest' ∧ Token (t ++ 10 :: b) v rest' := by
  cases h with
  | quoted hg hq h =>
    rw [List.append_assoc]
    exact ⟨_, .inl rfl, .quoted hg hq (h.more _)⟩
  | bare hg h1 h2 h3 h4 h =>
    obtain ⟨r, g, h'⟩ := h.line b (fun h => hn (h.trans (List.suffix_append _ _)))
    rw [List.append_assoc]
    exact ⟨r, g, .bare hg h1 h2 h3 h4 h'⟩

theorem Spec.Token.ne_nil {t v rest : Bytes} (h : Token t v rest) : t ≠ [] := by
  cases h <;> simp

theorem Spec.Token.line' {t v t2 v2 rest : Bytes} (h : Token t v t2) (h2 : Token t2 v2 rest) (b : Bytes) (hn : ¬ [92, 13] <:+ t) :
    Token (t ++ 10 :: b) v (t2 ++ 10 :: b) := by
  obtain ⟨r, g | ⟨g, _⟩, h'⟩ := h.line b hn
  · exact g ▸ h'
  · exact absurd g h2.ne_nil

theorem head_line {P : UInt8 → Prop} {t b : Bytes} (h : ∀ c, t.head? = some c → P c) (hne : t ≠ []) : ∀ c, (t ++ b).head? = some c → P c := by
  cases t with
  | nil => exact absurd rfl hne
  | cons x t => exact h

theorem Spec.Directive.line {t rest : Bytes} {d : PDir} (h : Directive t d rest) (b : Bytes) (hn : ¬ [92, 13] <:+ t) :
    ∃ rest', GoesOn rest b rest' ∧ Directive (t ++ 10 :: b) d rest' := by
  have tl : ∀ {x y : Bytes}, ¬ [92, 13] <:+ x → y <:+ x → ¬ [92, 13] <:+ y := fun h h1 h' => h (h'.trans h1)
  cases h with
  | rule hw hh h1 hv h2 ho h3 ha =>
    have n1 := tl hn (List.suffix_append _ _)
    have n2 := tl n1 h1.suffix
    obtain ⟨r, g, h3'⟩ := h3.line b (tl n2 h2.suffix)
    rw [List.append_assoc]
    exact ⟨r, g, .rule hw (head_line hh h1.ne_nil) (h1.line' h2 b n1) hv (h2.line' h3 b n2) ho h3' ha⟩
  | engine hw hh h1 hv =>
    obtain ⟨r, g, h'⟩ := h1.line b (tl hn (List.suffix_append _ _))
    rw [List.append_assoc]
    exact ⟨r, g, .engine hw (head_line hh h1.ne_nil) h' hv⟩
  | reqBody hw hh h1 hv =>
    obtain ⟨r, g, h'⟩ := h1.line b (tl hn (List.suffix_append _ _))
    rw [List.append_assoc]
    exact ⟨r, g, .reqBody hw (head_line hh h1.ne_nil) h' hv⟩
  | resBody hw hh h1 hv =>
    obtain ⟨r, g, h'⟩ := h1.line b (tl hn (List.suffix_append _ _))
    rw [List.append_assoc]
    exact ⟨r, g, .resBody hw (head_line hh h1.ne_nil) h' hv⟩

theorem Spec.Directive.ne_nil {t rest : Bytes} {d : PDir} (h : Directive t d rest) : t ≠ [] := by
  cases h with
  | rule _ _ h1 => simp [h1.ne_nil]
  | engine _ _ h1 => simp [h1.ne_nil]
  | reqBody _ _ h1 => simp [h1.ne_nil]
  | resBody _ _ h1 => simp [h1.ne_nil]

theorem Spec.Program.pad {f b : Bytes} {ds : List PDir} (hf : Filler f) (h : Program b ds) : Program (f ++ b) ds := by
  have both : ∀ {g : Bytes}, Filler g → Filler (f ++ g) := fun hg c hc => (List.mem_append.1 hc).elim (hf c) (hg c)
  cases h with
  | done h => exact .done (both h)
  | dir h1 h2 h3 => rw [← List.append_assoc]; exact .dir (both h1) h2 h3

/-- A program, a new line and another program. -/
theorem Spec.Program.line {a b : Bytes} {da db : List PDir} (ha : Program a da) (hb : Program b db) (hn : ¬ [92, 13] <:+ a) :
    Program (a ++ 10 :: b) (da ++ db) := by
  induction ha with
  | @done s h =>
    rw [show s ++ 10 :: b = (s ++ [10]) ++ b by simp]
    exact hb.pad fun c hc => (List.mem_append.1 hc).elim (h c) fun h => by rw [List.mem_singleton.1 h]; exact .inr (.inl (.inl rfl))
  | @dir f t rest d ds hf hd hp ih =>
    have nt : ¬ [92, 13] <:+ t := fun h => hn (h.trans (List.suffix_append _ _))
    obtain ⟨r, g, h⟩ := hd.line b nt
    rw [List.append_assoc, List.cons_append]
    refine .dir hf h ?_
    rcases g with rfl | ⟨rfl, rfl⟩
    · exact ih fun h => nt (h.trans hd.suffix)
    · cases ds with
      | nil => exact hb
      | cons d' ds =>
        exfalso
        generalize hz : ([] : Bytes) = z at hp
        cases hp with
        | dir _ h1 _ => exact h1.ne_nil (List.append_eq_nil_iff.1 hz.symm).2

/-! ### The loop -/

/-- No chain is open behind these directives. -/
def Spec.Closed (da : List PDir) : Prop := ∀ p, (rulesIn da).getLast? = some p → p.acts.chain = false

theorem loadRule_chain {lib : Lib} {vo : VarOrd} {p : PRule} {x : Dire} (hl : loadRule lib vo p = .ok x) : ∃ r, x = .rule r p.acts.chain := by
  simp only [loadRule] at hl
  split at hl
  · cases hl
  · split at hl
    · cases hl
    · split at hl
      · cases hl
      · cases hl; exact ⟨_, rfl⟩

theorem addDirs_append {lib : Lib} {vo : VarOrd} {db : List PDir} : ∀ {da : List PDir} {set set1 : DireSet} {parent : Option Nat},
    addDirs lib vo da set parent = (set1, none) → Closed da → (rulesIn da = [] → parent = none) →
    addDirs lib vo (da ++ db) set parent = addDirs lib vo db set1 none
  | [], set, set1, parent, h, _, hp => by
    rw [hp rfl]
    cases h
    rfl
  | d :: da, set, set1, parent, h, hc, hp => by
    rw [List.cons_append, addDirs]
    rw [addDirs] at h
    cases d with
    | rule p =>
      have hc' : Closed da := by
        intro q hq
        refine hc q ?_
        show (p :: rulesIn da).getLast? = some q
        rw [List.getLast?_cons, hq]; rfl
      have hlast : rulesIn da = [] → p.acts.chain = false := fun e => hc p (by show (p :: rulesIn da).getLast? = some p; rw [e]; rfl)
      rcases hl : loadRule lib vo p with e | x
      · simp only [direFactory, hl] at h; cases h
      · obtain ⟨r, rfl⟩ := loadRule_chain hl
        simp only [direFactory, hl] at h ⊢
        cases parent with
        | none => exact addDirs_append h hc' fun e => by rw [hlast e]; rfl
        | some i => exact addDirs_append h hc' fun e => by rw [hlast e]; rfl
    | ruleEng v => exact addDirs_append h hc hp
    | reqBody v => exact addDirs_append h hc hp
    | resBody v => exact addDirs_append h hc hp

/-- How many directives are added to the set. -/
def dirCount : Bool → List PDir → Nat
  | _, [] => 0
  | o, .rule p :: ds => (if o then 0 else 1) + dirCount p.acts.chain ds
  | o, _ :: ds => 1 + dirCount o ds

theorem addDirs_count {lib : Lib} {vo : VarOrd} : ∀ {ds : List PDir} {set set1 : DireSet} {parent : Option Nat},
    addDirs lib vo ds set parent = (set1, none) → set1.length = set.length + dirCount parent.isSome ds
  | [], set, set1, parent, h => by cases h; rfl
  | d :: ds, set, set1, parent, h => by
    rw [addDirs] at h
    cases d with
    | rule p =>
      rcases hl : loadRule lib vo p with e | x
      · simp only [direFactory, hl] at h; cases h
      · obtain ⟨r, rfl⟩ := loadRule_chain hl
        simp only [direFactory, hl] at h
        cases parent with
        | none =>
          have := addDirs_count h
          simp only [List.length_append, List.length_singleton] at this
          rw [this]
          cases hp : p.acts.chain <;> simp [dirCount, hp] <;> omega
        | some i =>
          have := addDirs_count h
          simp only [List.length_modify] at this
          rw [this]
          cases hp : p.acts.chain <;> simp [dirCount, hp]
    | ruleEng v =>
      have := addDirs_count h
      simp only [List.length_append, List.length_singleton] at this
      rw [this, dirCount]; omega
      all_goals nofun
    | reqBody v =>
      have := addDirs_count h
      simp only [List.length_append, List.length_singleton] at this
      rw [this, dirCount]; omega
      all_goals nofun
    | resBody v =>
      have := addDirs_count h
      simp only [List.length_append, List.length_singleton] at this
      rw [this, dirCount]; omega
      all_goals nofun

/-- The first rule makes the difference. -/
theorem dirCount_open : ∀ ds : List PDir, dirCount false ds = dirCount true ds + if rulesIn ds = [] then 0 else 1
  | [] => rfl
  | .rule p :: ds => by
    rw [if_neg (by show ¬ p :: rulesIn ds = []; simp)]
    simp only [dirCount, ↓reduceIte, Bool.false_eq_true]; omega
  | .ruleEng v :: ds => by
    have := dirCount_open ds
    show 1 + dirCount false ds = 1 + dirCount true ds + if rulesIn ds = [] then 0 else 1
    omega
  | .reqBody v :: ds => by
    have := dirCount_open ds
    show 1 + dirCount false ds = 1 + dirCount true ds + if rulesIn ds = [] then 0 else 1
    omega
  | .resBody v :: ds => by
    have := dirCount_open ds
    show 1 + dirCount false ds = 1 + dirCount true ds + if rulesIn ds = [] then 0 else 1
    omega

/-- An open chain leaves its first rule to be added to. -/
theorem addDirs_open {lib : Lib} {vo : VarOrd} {db : List PDir} : ∀ {da : List PDir} {set set1 : DireSet} {parent : Option Nat},
    addDirs lib vo da set parent = (set1, none) → ¬ Closed da →
    ∃ i, addDirs lib vo (da ++ db) set parent = addDirs lib vo db set1 (some i)
  | [], set, set1, parent, h, hc => absurd (by intro p hp; cases hp) hc
  | d :: da, set, set1, parent, h, hc => by
    rw [List.cons_append, addDirs]
    rw [addDirs] at h
    cases d with
    | rule p =>
      rcases hl : loadRule lib vo p with e | x
      · simp only [direFactory, hl] at h; cases h
      · obtain ⟨r, rfl⟩ := loadRule_chain hl
        simp only [direFactory, hl] at h ⊢
        by_cases hc' : Closed da
        · have hr : rulesIn da = [] ∧ p.acts.chain = true := by
            rcases hr : rulesIn da with _ | ⟨q, l⟩
            · refine ⟨rfl, ?_⟩
              cases hp : p.acts.chain with
              | true => rfl
              | false =>
                refine absurd (fun q hq => ?_) hc
                have hq : (p :: rulesIn da).getLast? = some q := hq
                rw [hr] at hq
                cases hq
                exact hp
            · refine absurd (fun q' hq => hc' q' ?_) hc
              have hq : (p :: rulesIn da).getLast? = some q' := hq
              rw [List.getLast?_cons, hr] at hq
              rw [hr]
              rw [List.getLast?_cons] at hq ⊢
              exact hq
          have key : ∀ {da : List PDir} {set set1 : DireSet} {i : Nat}, rulesIn da = [] → addDirs lib vo da set (some i) = (set1, none) →
              addDirs lib vo (da ++ db) set (some i) = addDirs lib vo db set1 (some i) := by
            intro da
            induction da with
            | nil => intro set set1 i _ h; cases h; rfl
            | cons d da ih =>
              intro set set1 i e h
              cases d with
              | rule p => cases e
              | ruleEng v => exact ih (set := set ++ [Dire.ruleEng v]) e (by rw [addDirs] at h; exact h)
              | reqBody v => exact ih (set := set ++ [Dire.reqBody v]) e (by rw [addDirs] at h; exact h)
              | resBody v => exact ih (set := set ++ [Dire.resBody v]) e (by rw [addDirs] at h; exact h)
          cases parent <;> simp only [hr.2, ↓reduceIte] at h ⊢ <;> exact ⟨_, key hr.1 h⟩
        · cases parent with
          | none => exact addDirs_open h hc'
          | some i => exact addDirs_open h hc'
    | ruleEng v => exact addDirs_open h hc
    | reqBody v => exact addDirs_open h hc
    | resBody v => exact addDirs_open h hc

/-- Without rules, an open chain makes no difference. -/
theorem addDirs_ruleless {lib : Lib} {vo : VarOrd} (p p' : Option Nat) : ∀ {ds : List PDir} {set : DireSet}, rulesIn ds = [] →
    addDirs lib vo ds set p = addDirs lib vo ds set p'
  | [], _, _ => rfl
  | .rule _ :: _, _, e => by cases e
  | .ruleEng v :: ds, set, e => addDirs_ruleless p p' (ds := ds) (set := set ++ [.ruleEng v]) e
  | .reqBody v :: ds, set, e => addDirs_ruleless p p' (ds := ds) (set := set ++ [.reqBody v]) e
  | .resBody v :: ds, set, e => addDirs_ruleless p p' (ds := ds) (set := set ++ [.resBody v]) e

/-! ### C117 -/

/-- C117 for a first text that does not end in an open chain or in a backslash and a carriage
return; whether or not the second text's directives can be loaded.  Missing: these two endings,
for which the claim is false. -/
theorem C117_one_text_partial {lib : Lib} {vo : VarOrd} {set set1 : DireSet} {a b : Bytes} {da db : List PDir} (ha : Program a da) (hb : Program b db)
    (hc : Closed da) (hn : ¬ b!"\\\r" <:+ a) (h1 : DireSet.addSecLangString lib vo set a = .ok (set1, none)) :
    DireSet.addSecLangString lib vo set (a ++ 10 :: b) = DireSet.addSecLangString lib vo set1 b := by
  simp only [DireSet.addSecLangString, (C53_exact lib.lowerHi _ _).2 (ha.line hb hn), (C53_exact lib.lowerHi _ _).2 hb, (C53_exact lib.lowerHi _ _).2 ha,
    Res.bind] at h1 ⊢
  rw [addDirs_append (by simpa using h1) hc fun _ => rfl]

/-- Which texts can be put together: those whose first part ends in no open chain, or whose
second part has no rules to add to it. -/
theorem C117_exact {lib : Lib} {vo : VarOrd} {set set1 set2 : DireSet} {a b : Bytes} {da db : List PDir} (ha : Program a da) (hb : Program b db)
    (hn : ¬ b!"\\\r" <:+ a) (h1 : DireSet.addSecLangString lib vo set a = .ok (set1, none)) (h2 : DireSet.addSecLangString lib vo set1 b = .ok (set2, none)) :
    DireSet.addSecLangString lib vo set (a ++ 10 :: b) = .ok (set2, none) ↔ Closed da ∨ rulesIn db = [] := by
  by_cases hc : Closed da
  · rw [C117_one_text_partial ha hb hc hn h1, h2]
    simp [hc]
  · simp only [DireSet.addSecLangString, (C53_exact lib.lowerHi _ _).2 (ha.line hb hn), (C53_exact lib.lowerHi _ _).2 hb, (C53_exact lib.lowerHi _ _).2 ha,
      Res.bind, Res.ok.injEq] at h1 h2 ⊢
    obtain ⟨i, hi⟩ := addDirs_open (db := db) h1 hc
    rw [hi]
    simp only [hc, false_or]
    constructor
    · intro h
      have e1 := addDirs_count h2
      have e2 := addDirs_count h
      have := dirCount_open db
      simp only [Option.isSome_none, Option.isSome_some] at e1 e2
      by_cases he : rulesIn db = []
      · exact he
      · rw [if_neg he] at this; omega
    · intro he
      rw [addDirs_ruleless (some i) none he, h2]

/-- A chain that is left open takes in the rules of the next text. -/
theorem C117_refuted : ¬ C117_statement := by
  intro h
  have p1 : Program b!"SecRule REQUEST_METHOD \"@rx POST\" \"id:1,phase:2,deny,chain\"" [.rule { methodIs 1 false b!"POST" [⟨.deny, []⟩] with
    acts := { id := 1, phase := 2, chain := true, action := [⟨.deny, []⟩] } }] := (C53_exact id _ _).1 (by decide +kernel)
  have p2 : Program b!"SecRule REQUEST_METHOD \"@rx GET\" \"id:3,phase:2,deny\"" [.rule (methodIs 3 false b!"GET" [⟨.deny, []⟩])] :=
    (C53_exact id _ _).1 (by decide +kernel)
  obtain ⟨set1, e1⟩ : ∃ set1, DireSet.addSecLangString lib varOrd [] b!"SecRule REQUEST_METHOD \"@rx POST\" \"id:1,phase:2,deny,chain\"" = .ok (set1, none) :=
    ⟨_, rfl⟩
  obtain ⟨set2, e2⟩ : ∃ set2, DireSet.addSecLangString lib varOrd set1 b!"SecRule REQUEST_METHOD \"@rx GET\" \"id:3,phase:2,deny\"" = .ok (set2, none) :=
    ⟨_, by simp only [DireSet.addSecLangString, (C53_exact lib.lowerHi _ _).2 p2, Res.bind]; rfl⟩
  have := (C117_exact p1 p2 (by decide) e1 e2).1 (h lib varOrd [] set1 set2 _ _ e1 e2)
  rcases this with h | h
  · exact absurd (h _ rfl) (by decide)
  · cases h

/-- A backslash and a carriage return at the end of the first text continue its last line. -/
theorem C117_return : (∃ set, DireSet.addSecLangString lib varOrd [] b!"SecRule REQUEST_METHOD POST id:1,phase:2,deny\\\r" = .ok (set, none)) ∧
    ∃ e, DireSet.addSecLangString lib varOrd [] (b!"SecRule REQUEST_METHOD POST id:1,phase:2,deny\\\r" ++ 10 :: b!"SecRuleEngine On") = .ok ([], some e) := by
  have get1 : ∀ {r : Res (DireSet × Option LoadErr)}, (match r with | .ok (_, none) => true | _ => false) = true → ∃ set, r = .ok (set, none) := by
    intro r h
    split at h
    · exact ⟨_, rfl⟩
    · cases h
  have get2 : ∀ {r : Res (DireSet × Option LoadErr)}, (match r with | .ok ([], some _) => true | _ => false) = true → ∃ e, r = .ok ([], some e) := by
    intro r h
    split at h
    · exact ⟨_, rfl⟩
    · cases h
  exact ⟨get1 (by decide +kernel), get2 (by decide +kernel)⟩

/-- A chain that is closed in the same text, and another rule. -/
def Sample.closedText : Bytes :=
  b!"SecRule REQUEST_METHOD \"@rx POST\" \"id:1,phase:2,deny,chain\"\nSecRule REQUEST_METHOD \"@rx POST\" \"id:2,phase:2,deny\""

def Sample.thirdText : Bytes := b!"SecRule REQUEST_METHOD \"@rx GET\" \"id:3,phase:2,deny\""

example (set set1 : DireSet) (h : DireSet.addSecLangString lib varOrd set closedText = .ok (set1, none)) :
    DireSet.addSecLangString lib varOrd set (closedText ++ 10 :: thirdText) = DireSet.addSecLangString lib varOrd set1 thirdText :=
  C117_one_text_partial (db := [.rule (methodIs 3 false b!"GET" [⟨.deny, []⟩])])
    (da := [.rule { methodIs 1 false b!"POST" [⟨.deny, []⟩] with acts := { id := 1, phase := 2, chain := true, action := [⟨.deny, []⟩] } },
      .rule (methodIs 2 false b!"POST" [⟨.deny, []⟩])])
    ((C53_exact id _ _).1 (by decide +kernel)) ((C53_exact id _ _).1 (by decide +kernel)) (by intro p hp; cases hp; rfl) (by decide +kernel) h

end Verif
