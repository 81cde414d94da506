import Verif.Spec.Registry
import Verif.Props.Syntax
import Verif.Props.Source
import Verif.Props.Sample
/-! Directives of the host. -/
namespace Verif
open Spec

/-! ### The tables of the package -/

/-- The tables after the `init` functions. -/
def stdTables : Tables where
  dirs := [(131, .bool 131), (130, .bool 130), (129, .tri 129), (128, .rule)]
  index := [(b!"secresponsebodyaccess", 131), (b!"secrequestbodyaccess", 130), (b!"secruleengine", 129), (b!"secrule", 128)]
  types := [(128, .rule), (129, .ruleEng), (131, .resBody), (130, .reqBody)]

theorem init_tables (hi : Rune → Rune) : initTables hi = .ok stdTables := rfl

/-- A directive of the package. -/
def GDir.of : PDir → GDir
  | .rule r => .rule r
  | .ruleEng v => .tri tkDirRuleEng v
  | .reqBody b => .bool tkDirReqBody b
  | .resBody b => .bool tkDirResBody b

def Factory.of : DirTok → Factory
  | .rule => .rule
  | .ruleEng => .tri tkDirRuleEng
  | .reqBody => .bool tkDirReqBody
  | .resBody => .bool tkDirResBody

theorem std_find (w : Bytes) : stdTables.find w = (dirIndex.lookup w).map Factory.of := by
  by_cases h1 : w = b!"secrule"
  · subst h1; rfl
  by_cases h2 : w = b!"secruleengine"
  · subst h2; rfl
  by_cases h3 : w = b!"secrequestbodyaccess"
  · subst h3; rfl
  by_cases h4 : w = b!"secresponsebodyaccess"
  · subst h4; rfl
  have e : ∀ x : Bytes, ¬ w = x → (w == x) = false := fun x h => by simpa using h
  simp only [Tables.find, stdTables, dirIndex, List.lookup, e _ h1, e _ h2, e _ h3, e _ h4, Option.map_none]

/-- The same result with directives of the other type. -/
def mapped {α β : Type} (f : α → β) (x : SR α) : SR β := x.bind fun p => .ok (p.1, p.2.map f)

theorem mapped_andThen {α β γ : Type} (f : β → γ) (x : SR α) (k : α → Scan → SR β) :
    mapped f (SR.andThen x k) = SR.andThen x fun a s => mapped f (k a s) := by
  cases x with
  | panic => rfl
  | fuel => rfl
  | ok p =>
    obtain ⟨s, a⟩ := p
    cases a <;> rfl

theorem except_map_map {ε α β γ : Type} (f : β → γ) (g : α → β) (x : Except ε α) : (x.map g).map f = x.map fun a => f (g a) := by
  cases x <;> rfl

theorem std_readDirective' (hi : Rune → Rune) (s : Scan) :
    stdTables.readDirective' hi s = mapped GDir.of (s.readDirective' hi) := by
  simp only [Tables.readDirective', Scan.readDirective', std_find]
  cases dirIndex.lookup (toLower hi s.readWord.2) with
  | none => rfl
  | some tk =>
    simp only [Option.map_some]
    cases tk with
    | rule =>
      simp only [Factory.of, Factory.read, Scan.readRule, mapped_andThen]; rfl
    | ruleEng =>
      simp only [Factory.of, Factory.read, Scan.readTri, mapped_andThen]
      simp only [mapped, Res.bind_ok', except_map_map]; rfl
    | reqBody =>
      simp only [Factory.of, Factory.read, Scan.readBool, mapped_andThen]
      simp only [mapped, Res.bind_ok', except_map_map]; rfl
    | resBody =>
      simp only [Factory.of, Factory.read, Scan.readBool, mapped_andThen]
      simp only [mapped, Res.bind_ok', except_map_map]; rfl

theorem std_readDirective (hi : Rune → Rune) (s : Scan) :
    stdTables.readDirective hi s = mapped GDir.of (s.readDirective hi) := by
  simp only [Tables.readDirective, Scan.readDirective]
  generalize skipLines s.inp s.line = q
  obtain ⟨r, l⟩ := q
  cases r with
  | nil => rfl
  | cons c r =>
    simp only [std_readDirective']
    cases ({ bos := false, inp := c :: r, buf := s.buf, line := l } : Scan).readDirective' hi with
    | panic => rfl
    | fuel => rfl
    | ok p =>
      obtain ⟨s, a⟩ := p
      cases a with
      | ok a => rfl
      | error e => cases e <;> rfl

theorem std_allDirective (hi : Rune → Rune) (n : Nat) : ∀ s : Scan,
    stdTables.allDirective hi n s = mapped (List.map GDir.of) (allDirectiveFuel hi n s) := by
  induction n with
  | zero => intro s; rfl
  | succ n ih =>
    intro s
    rw [Tables.allDirective, allDirectiveFuel, std_readDirective]
    cases s.readDirective hi with
    | panic => rfl
    | fuel => rfl
    | ok p =>
      obtain ⟨s, a⟩ := p
      cases a with
      | error e => cases e <;> rfl
      | ok a =>
        simp only [mapped, Res.bind_ok', Except.map, ih]
        cases allDirectiveFuel hi n s with
        | panic => rfl
        | fuel => rfl
        | ok q =>
          obtain ⟨s, b⟩ := q
          cases b <;> rfl

theorem std_direFactory (lib : Lib) (vo : VarOrd) (d : PDir) :
    stdTables.direFactory lib vo (.of d) = (direFactory lib vo d).map .std := by
  cases d with
  | rule r => rfl
  | ruleEng v => rfl
  | reqBody b => rfl
  | resBody b => rfl

theorem addSub_std (r : Rule) (d : Dire) : GDire.addSub r (.std d) = .std (d.addSub r) := rfl

theorem map_modify_std (r : Rule) (set : DireSet) : ∀ i, (set.map GDire.std).modify i (GDire.addSub r) = (set.modify i (Dire.addSub r)).map GDire.std := by
  induction set with
  | nil => intro i; cases i <;> rfl
  | cons d set ih =>
    intro i
    cases i with
    | zero => rfl
    | succ i =>
      simp only [List.map_cons, List.modify_succ_cons, ih]

theorem std_addDirs (lib : Lib) (vo : VarOrd) (dirs : List PDir) : ∀ (set : DireSet) (parent : Option Nat),
    stdTables.addDirs lib vo (dirs.map .of) (set.map .std) parent = ((addDirs lib vo dirs set parent).1.map .std, (addDirs lib vo dirs set parent).2) := by
  induction dirs with
  | nil => intro set parent; rfl
  | cons d dirs ih =>
    intro set parent
    simp only [List.map_cons, Tables.addDirs, addDirs, std_direFactory]
    cases direFactory lib vo d with
    | error e => rfl
    | ok x =>
      simp only [Except.map]
      have app : ∀ y : Dire, set.map GDire.std ++ [GDire.std y] = (set ++ [y]).map GDire.std := fun y => by simp
      cases x with
      | rule r chain =>
        cases parent with
        | none => simp only [app, ih, List.length_map]
        | some i => simp only [map_modify_std, ih]
      | reqBody b => simp only [app, ih]
      | resBody b => simp only [app, ih]
      | ruleEng v => simp only [app, ih]

/-- As long as nothing is registered, loading is what Model/Seclang says it is. -/
theorem C102_package (lib : Lib) (vo : VarOrd) (set : DireSet) (text : Bytes) :
    ((initTables lib.lowerHi).bind fun t => t.addSecLangString lib vo (text.length + 1) (set.map .std) text) =
    (set.addSecLangString lib vo text).bind fun p => .ok (p.1.map .std, p.2) := by
  rw [init_tables, Res.bind_ok', Tables.addSecLangString, std_allDirective, DireSet.addSecLangString, parse, Scan.allDirective]
  rw [show (newScanner text).inp.length + 1 = text.length + 1 from rfl]
  cases allDirectiveFuel lib.lowerHi (text.length + 1) (newScanner text) with
  | panic => rfl
  | fuel => rfl
  | ok p =>
    obtain ⟨s, a⟩ := p
    cases a with
    | error e => rfl
    | ok ds => simp only [mapped, Res.bind_ok', Except.map, std_addDirs]

/-! ### C102 -/

/-- The tables after more calls of `RegisterDir`. -/
def Tables.after (hi : Rune → Rune) (t : Tables) (regs : List Reg) : Tables :=
  regs.foldl (fun t r => t.registerDir hi r.token r.name r.factory) t

theorem after_dirs (hi : Rune → Rune) (regs : List Reg) : ∀ t : Tables,
    (t.after hi regs).dirs = (regs.map fun r => (r.token, r.factory)).reverse ++ t.dirs ∧
    (t.after hi regs).index = (regs.map fun r => (toLower hi r.name, r.token)).reverse ++ t.index := by
  induction regs with
  | nil => intro t; exact ⟨rfl, rfl⟩
  | cons r regs ih =>
    intro t
    obtain ⟨h1, h2⟩ := ih (t.registerDir hi r.token r.name r.factory)
    simp only [Tables.after, List.foldl_cons] at h1 h2 ⊢
    rw [h1, h2]
    simp [Tables.registerDir]

theorem lookup_append {α β : Type} [BEq α] (k : α) (x y : List (α × β)) : (x ++ y).lookup k = (x.lookup k).or (y.lookup k) := by
  induction x with
  | nil => rfl
  | cons p x ih =>
    obtain ⟨a, b⟩ := p
    simp only [List.cons_append, List.lookup]
    cases k == a with
    | true => rfl
    | false => exact ih

/-- The entry found in a table that is filled from the front is the last one put in. -/
theorem lookup_last {α β γ : Type} [BEq α] [LawfulBEq α] (f : γ → α) (g : γ → β) (l : List γ) (k : α) (b : β) :
    ((l.map fun r => (f r, g r)).reverse).lookup k = some b ↔ ∃ r, LastWith (fun r => f r = k) l r ∧ g r = b := by
  induction l with
  | nil => simp [LastWith]
  | cons c l ih =>
    simp only [List.map_cons, List.reverse_cons, lookup_append]
    cases e : ((l.map fun r => (f r, g r)).reverse).lookup k with
    | some b' =>
      rw [e] at ih
      simp only [Option.some_or]
      rw [ih]
      constructor
      · rintro ⟨r, ⟨x, y, h1, h2, h3⟩, h4⟩
        exact ⟨r, ⟨c :: x, y, by rw [h1]; rfl, h2, h3⟩, h4⟩
      · rintro ⟨r, ⟨x, y, h1, h2, h3⟩, h4⟩
        cases x with
        | nil =>
          simp only [List.nil_append, List.cons.injEq] at h1
          obtain ⟨h1, h5⟩ := h1
          subst h5
          have : ∀ l : List γ, (∀ b ∈ l, ¬ f b = k) → ((l.map fun r => (f r, g r)).reverse).lookup k = none := by
            intro l hl
            rw [List.lookup_eq_none_iff]
            intro p hp
            simp only [List.mem_reverse, List.mem_map] at hp
            obtain ⟨r, hr, rfl⟩ := hp
            simpa using fun h => hl r hr h.symm
          rw [this _ h3] at e
          cases e
        | cons d x =>
          simp only [List.cons_append, List.cons.injEq] at h1
          exact ⟨r, ⟨x, y, h1.2, h2, h3⟩, h4⟩
    | none =>
      rw [e] at ih
      have hn : ∀ r ∈ l, ¬ f r = k := by
        rw [List.lookup_eq_none_iff] at e
        intro r hr h
        have := e (f r, g r) (by simp only [List.mem_reverse, List.mem_map]; exact ⟨r, hr, rfl⟩)
        simp [h] at this
      simp only [Option.none_or, List.lookup]
      constructor
      · intro h
        split at h
        · rename_i hk
          cases h
          exact ⟨c, ⟨[], l, rfl, (by simpa using hk : k = f c).symm, hn⟩, rfl⟩
        · cases h
      · rintro ⟨r, ⟨x, y, h1, h2, h3⟩, h4⟩
        cases x with
        | nil =>
          simp only [List.nil_append, List.cons.injEq] at h1
          obtain ⟨rfl, _⟩ := h1
          have : (k == f c) = true := by simp [h2]
          rw [this]
          simp only [h4]
        | cons d x =>
          simp only [List.cons_append, List.cons.injEq] at h1
          exact absurd h2 (hn r (by rw [h1.2]; simp))

/-- What reads a directive, after any registrations. -/
theorem C102_reaches (hi : Rune → Rune) (regs : List Reg) (word : Bytes) (f : Factory) {t : Tables} (ht : initTables hi = .ok t) :
    (t.after hi regs).find (toLower hi word) = some f ↔ Reaches (toLower hi) (packageRegs ++ regs) word f := by
  rw [init_tables] at ht
  cases ht
  have e : stdTables.after hi regs = Tables.after hi { types := stdTables.types } (packageRegs ++ regs) := by
    simp only [Tables.after, List.foldl_append]
    rfl
  rw [e]
  obtain ⟨h1, h2⟩ := after_dirs hi (packageRegs ++ regs) { types := stdTables.types }
  simp only [Tables.find, h1, h2, List.append_nil]
  constructor
  · intro h
    cases k : ((packageRegs ++ regs).map fun r => (toLower hi r.name, r.token)).reverse.lookup (toLower hi word) with
    | none => rw [k] at h; cases h
    | some tk =>
      rw [k] at h
      obtain ⟨r, k1, k2⟩ := (lookup_last (fun r : Reg => toLower hi r.name) (fun r => r.token) _ _ _).1 k
      obtain ⟨r', k3, k4⟩ := (lookup_last (fun r : Reg => r.token) (fun r => r.factory) _ _ _).1 h
      exact ⟨r, r', k1, k2 ▸ k3, k4⟩
  · rintro ⟨r, r', k1, k2, k3⟩
    rw [(lookup_last (fun r : Reg => toLower hi r.name) (fun r => r.token) _ _ _).2 ⟨r, k1, rfl⟩]
    exact (lookup_last (fun r : Reg => r.token) (fun r => r.factory) _ _ _).2 ⟨r', k2, k3⟩

/-- `C102_reaches`: after `RegisterDir(TkDirRuleEng, "SecMode", …)` the word `secruleengine`
reaches the new factory, too. -/
example : (stdTables.after id [⟨129, b!"SecMode", .str 129⟩]).find (toLower id b!"secRULEengine") = some (.str 129) := rfl

/-- Whatever is found is found. -/
structure Extends (t t' : Tables) : Prop where
  find : ∀ w f, t.find w = some f → t'.find w = some f
  types : ∀ k d, t.types.lookup k = some d → t'.types.lookup k = some d

theorem Extends.readDirective' {t t' : Tables} (h : Extends t t') {hi : Rune → Rune} {s s' : Scan} {d : GDir}
    (e : t.readDirective' hi s = .ok (s', .ok d)) : t'.readDirective' hi s = .ok (s', .ok d) := by
  simp only [Tables.readDirective'] at e ⊢
  cases k : t.find (toLower hi s.readWord.2) with
  | none => rw [k] at e; cases e
  | some f => rw [k] at e; rw [h.find _ _ k]; exact e

theorem Extends.readDirective {t t' : Tables} (h : Extends t t') {hi : Rune → Rune} {s s' : Scan} {d : GDir}
    (e : t.readDirective hi s = .ok (s', .ok d)) : t'.readDirective hi s = .ok (s', .ok d) := by
  simp only [Tables.readDirective] at e ⊢
  generalize skipLines s.inp s.line = q at e
  obtain ⟨r, l⟩ := q
  cases r with
  | nil => cases e
  | cons c r =>
    simp only at e ⊢
    cases k : t.readDirective' hi { bos := false, inp := c :: r, buf := s.buf, line := l } with
    | panic => rw [k] at e; cases e
    | fuel => rw [k] at e; cases e
    | ok p =>
      obtain ⟨s1, a⟩ := p
      rw [k] at e
      cases a with
      | error x => cases x <;> cases e
      | ok a => cases e; rw [h.readDirective' k]; rfl

theorem tables_readDirective_eos {t t' : Tables} {hi : Rune → Rune} {s s' : Scan}
    (e : t.readDirective hi s = .ok (s', .error .eos)) : t'.readDirective hi s = .ok (s', .error .eos) := by
  simp only [Tables.readDirective] at e ⊢
  generalize skipLines s.inp s.line = q at e
  obtain ⟨r, l⟩ := q
  cases r with
  | nil => exact e
  | cons c r =>
    simp only at e
    cases k : t.readDirective' hi { bos := false, inp := c :: r, buf := s.buf, line := l } with
    | panic => rw [k] at e; cases e
    | fuel => rw [k] at e; cases e
    | ok p =>
      obtain ⟨s1, a⟩ := p
      rw [k] at e
      cases a with
      | error x => cases x <;> cases e
      | ok a => cases e

theorem Extends.allDirective {t t' : Tables} (h : Extends t t') {hi : Rune → Rune} (n : Nat) : ∀ {s s' : Scan} {ds : List GDir},
    t.allDirective hi n s = .ok (s', .ok ds) → t'.allDirective hi n s = .ok (s', .ok ds) := by
  induction n with
  | zero => intro s s' ds e; cases e
  | succ n ih =>
    intro s s' ds e
    simp only [Tables.allDirective] at e ⊢
    cases k : t.readDirective hi s with
    | panic => rw [k] at e; cases e
    | fuel => rw [k] at e; cases e
    | ok p =>
      obtain ⟨s1, a⟩ := p
      rw [k] at e
      cases a with
      | error x => cases x with
        | eos => cases e; rw [tables_readDirective_eos k]; rfl
        | _ => cases e
      | ok a =>
        rw [h.readDirective k]
        simp only [Res.bind_ok'] at e ⊢
        cases k2 : t.allDirective hi n s1 with
        | panic => rw [k2] at e; cases e
        | fuel => rw [k2] at e; cases e
        | ok q =>
          obtain ⟨s2, b⟩ := q
          rw [k2] at e
          cases b with
          | error x => cases e
          | ok b => rw [ih k2]; exact e

theorem Extends.addDirs {t t' : Tables} (h : Extends t t') {lib : Lib} {vo : VarOrd} (dirs : List GDir) : ∀ {set set' : List GDire} {parent : Option Nat},
    t.addDirs lib vo dirs set parent = (set', none) → t'.addDirs lib vo dirs set parent = (set', none) := by
  induction dirs with
  | nil => intro set set' parent e; exact e
  | cons d dirs ih =>
    intro set set' parent e
    simp only [Tables.addDirs] at e ⊢
    have same : ∀ x, t.direFactory lib vo d = .ok x → t'.direFactory lib vo d = .ok x := by
      intro x hx
      simp only [Tables.direFactory] at hx ⊢
      cases k : t.types.lookup d.token with
      | none => rw [k] at hx; cases hx
      | some y => rw [k] at hx; rw [h.types _ _ k]; exact hx
    cases k : t.direFactory lib vo d with
    | error x => rw [k] at e; simp at e
    | ok x =>
      rw [k] at e
      rw [same x k]
      split at e
      · rename_i hx; cases hx
      · rename_i r chain hx
        cases hx
        cases parent with
        | none => exact ih e
        | some i => exact ih e
      · rename_i y hy hx
        cases hx
        exact ih e

/-- A text that is loaded is loaded to the same after a directive has been registered. -/
def Kept (t t' : Tables) : Prop := ∀ (lib : Lib) (vo : VarOrd) (n : Nat) (set set' : List GDire) (text : Bytes),
  t.addSecLangString lib vo n set text = .ok (set', none) → t'.addSecLangString lib vo n set text = .ok (set', none)

theorem Extends.kept {t t' : Tables} (h : Extends t t') : Kept t t' := by
  intro lib vo n set set' text e
  simp only [Tables.addSecLangString] at e ⊢
  cases k : t.allDirective lib.lowerHi n (newScanner text) with
  | panic => rw [k] at e; cases e
  | fuel => rw [k] at e; cases e
  | ok p =>
    obtain ⟨s, a⟩ := p
    rw [k] at e
    cases a with
    | error x => simp only [Res.bind_ok', Res.ok.injEq, Prod.mk.injEq, reduceCtorEq, and_false] at e
    | ok ds =>
      rw [h.allDirective n k]
      simp only [Res.bind_ok', Res.ok.injEq] at e ⊢
      exact h.addDirs ds e

/-- Registering a directive under a name that is not in use leaves the meaning of the texts
that can be loaded alone. -/
def C102_statement : Prop := ∀ (hi : Rune → Rune) (regs : List Reg) (r : Reg) (t : Tables), initTables hi = .ok t →
  (t.after hi regs).find (toLower hi r.name) = none → Kept (t.after hi regs) (t.after hi (regs ++ [r]))

/-- So it is if the token is not in use, either.  (`C102_statement` would have it for any
token.) -/
theorem C102_new_token_partial (hi : Rune → Rune) (t : Tables) (r : Reg) (hn : t.index.lookup (toLower hi r.name) = none)
    (ht : t.dirs.lookup r.token = none) : Kept t (t.registerDir hi r.token r.name r.factory) := by
  refine Extends.kept ⟨fun w f h => ?_, fun k d h => h⟩
  simp only [Tables.find, Tables.registerDir, List.lookup] at h ⊢
  cases k : t.index.lookup w with
  | none => rw [k] at h; cases h
  | some tk =>
    rw [k] at h
    simp only at h
    have h1 : (w == toLower hi r.name) = false := by
      rw [beq_eq_false_iff_ne]; intro e; rw [e, hn] at k; cases k
    have h2 : (tk == r.token) = false := by
      rw [beq_eq_false_iff_ne]; intro e; rw [e, ht] at h; cases h
    simp only [h1, h2, h]

/-- `C102_new_token_partial`: `SecServerName` with token 1000. -/
example : Kept stdTables (stdTables.registerDir id 1000 b!"SecServerName" (.str 1000)) :=
  C102_new_token_partial id stdTables ⟨1000, b!"SecServerName", .str 1000⟩ (by decide +kernel) rfl

/-- `RegisterDire` never changes how a text is loaded: it panics if the token is in use. -/
theorem C102_register_dire (t : Tables) (d : DireType) : (t.registerDire d = .panic ∧ ∃ x, t.types.lookup d.token = some x) ∨
    ∃ t', t.registerDire d = .ok t' ∧ Kept t t' := by
  simp only [Tables.registerDire]
  cases k : t.types.lookup d.token with
  | some x => exact .inl ⟨rfl, x, rfl⟩
  | none =>
    refine .inr ⟨_, rfl, Extends.kept ⟨fun w f h => h, fun k' d' h => ?_⟩⟩
    simp only [List.lookup]
    have : (k' == d.token) = false := by
      rw [beq_eq_false_iff_ne]; intro e; rw [e, k] at h; cases h
    rw [this]; exact h

/-- `C102_register_dire`: both happen. -/
example : (stdTables.registerDire (.custom 129 fun _ => none) = .panic) ∧
    stdTables.registerDire (.custom 1000 fun _ => none) = .ok { stdTables with types := (1000, .custom 1000 fun _ => none) :: stdTables.types } := ⟨rfl, rfl⟩

/-- A new name for the token of `SecRuleEngine`: what was loaded before is refused. -/
theorem C102_refuted : ¬ C102_statement := by
  intro h
  let lib : Lib := Sample.lib
  have h := h id [] ⟨129, b!"SecEngineMode", .str 129⟩ stdTables (init_tables id) rfl lib ⟨id, fun m => List.Perm.refl m⟩ 20 []
    [.std (.ruleEng 1)] b!"SecRuleEngine On\n" rfl
  have : (stdTables.after id [⟨129, b!"SecEngineMode", .str 129⟩]).addSecLangString lib ⟨id, fun m => List.Perm.refl m⟩ 20 [] b!"SecRuleEngine On\n" =
    .ok ([], some .badArgument) := rfl
  rw [List.nil_append, this] at h
  cases h

/-- A host can call `FromSecLang` of the package's directives itself, with any directive.  The
two switches take exactly a Boolean argument under their own token, and what they give, executed,
turns that switch and nothing else; `SecRuleEngine` takes exactly a three-valued argument under
its own token; `SecRule` takes a rule and nothing else. -/
theorem C102_from_seclang (lib : Lib) (vo : VarOrd) (d : GDir) :
    (∀ x, DireType.reqBody.fromSecLang lib vo d = .ok x ↔ ∃ v, d = .bool 130 v ∧ x = .std (.reqBody v)) ∧
    (∀ x, DireType.resBody.fromSecLang lib vo d = .ok x ↔ ∃ v, d = .bool 131 v ∧ x = .std (.resBody v)) ∧
    (∀ x, DireType.ruleEng.fromSecLang lib vo d = .ok x ↔ ∃ v, d = .tri 129 v ∧ x = .std (.ruleEng v)) ∧
    (∀ x, DireType.rule.fromSecLang lib vo d = .ok x ↔ ∃ r y, d = .rule r ∧ loadRule lib vo r = .ok y ∧ x = .std y) ∧
    (∀ e v, (GDire.std (.reqBody v)).execute e = ({ e with limits := { e.limits with requestBodyAccess := v } }, true)) ∧
    (∀ e v, (GDire.std (.resBody v)).execute e = ({ e with limits := { e.limits with responseBodyAccess := v } }, true)) := by
  refine ⟨fun x => ?_, fun x => ?_, fun x => ?_, fun x => ?_, fun _ _ => rfl, fun _ _ => rfl⟩
  · simp only [DireType.fromSecLang]
    constructor
    · intro h; split at h
      · cases h
      · rename_i k; simp only [ne_eq, Decidable.not_not, tkDirReqBody] at k
        cases d <;> simp only [GDir.token] at h k <;> cases h
        subst k; exact ⟨_, rfl, rfl⟩
    · rintro ⟨v, rfl, rfl⟩; rfl
  · simp only [DireType.fromSecLang]
    constructor
    · intro h; split at h
      · cases h
      · rename_i k; simp only [ne_eq, Decidable.not_not, tkDirResBody] at k
        cases d <;> simp only [GDir.token] at h k <;> cases h
        subst k; exact ⟨_, rfl, rfl⟩
    · rintro ⟨v, rfl, rfl⟩; rfl
  · simp only [DireType.fromSecLang]
    constructor
    · intro h; split at h
      · cases h
      · rename_i k; simp only [ne_eq, Decidable.not_not, tkDirRuleEng] at k
        cases d <;> simp only [GDir.token] at h k <;> cases h
        subst k; exact ⟨_, rfl, rfl⟩
    · rintro ⟨v, rfl, rfl⟩; rfl
  · simp only [DireType.fromSecLang]
    constructor
    · intro h; split at h
      · cases h
      · rename_i k'
        clear k'
        cases d <;> try cases h
        rename_i r
        simp only at h
        cases k : loadRule lib vo r with
        | error e => rw [k] at h; cases h
        | ok y => rw [k] at h; cases h; exact ⟨r, y, rfl, k, rfl⟩
    · rintro ⟨r, y, rfl, k, rfl⟩
      simp [GDir.token, k, Except.map]

/-- `C102_from_seclang`: the switch for request bodies refuses the argument of the one for
response bodies. -/
example (vo : VarOrd) : DireType.reqBody.fromSecLang Sample.lib vo (.bool 130 true) = .ok (.std (.reqBody true)) ∧
    ∀ x, DireType.reqBody.fromSecLang Sample.lib vo (.bool 131 true) ≠ .ok x :=
  ⟨((C102_from_seclang Sample.lib vo _).1 _).2 ⟨true, rfl, rfl⟩, fun x h => by
    obtain ⟨v, e, -⟩ := ((C102_from_seclang Sample.lib vo _).1 _).1 h
    cases e⟩

theorem registered_find (hi : Rune → Rune) (t : Tables) (tk : Int) (name : Bytes) (f : Factory) :
    (t.registerDir hi tk name f).find (toLower hi name) = some f := by
  simp [Tables.find, Tables.registerDir]

theorem regRead_word {hi : Rune → Rune} (t : Tables) {w r : Bytes} (hw : ∀ c ∈ w, Letter c) (hr : ∀ c, r.head? = some c → ¬ Letter c) (l : Nat) :
    t.readDirective' hi { bos := false, inp := w ++ r, buf := [], line := l } = match t.find (toLower hi w) with
      | none => .ok ({ bos := false, inp := r, buf := [], line := l }, .error .notDirective)
      | some f => f.read { bos := false, inp := r, buf := [], line := l } := by
  have e : ({ bos := false, inp := w ++ r, buf := [], line := l } : Scan).readWord = ({ bos := false, inp := r, buf := [], line := l }, w) := by
    simp [Scan.readWord, readLetters_append hw hr]
  rw [Tables.readDirective', e]
  simp only
  cases t.find (toLower hi w) <;> rfl

theorem letter_no_filler {c : UInt8} (h : Letter c) : ¬ IsFiller c := by
  intro k
  simp only [IsFiller, Sp, Nl] at k
  rcases k with (rfl | rfl | rfl | rfl) | (rfl | rfl) | rfl <;> simp [Letter] at h

theorem regRead_line {hi : Rune → Rune} (t : Tables) {w r : Bytes} {c : UInt8} (hw : ∀ c ∈ w, Letter c) (hr : ∀ c, r.head? = some c → ¬ Letter c)
    (hc : (w ++ r).head? = some c) (hf : ¬ IsFiller c) (bos : Bool) (l : Nat) :
    t.readDirective hi { bos, inp := w ++ r, buf := [], line := l } = (match t.find (toLower hi w) with
      | none => .ok ({ bos := false, inp := r, buf := [], line := l }, .error .notDirective)
      | some f => f.read { bos := false, inp := r, buf := [], line := l } : SR GDir).bind cutShort := by
  have e := skipLines_stop (t := w ++ r) (fun c' h => by rw [hc] at h; cases h; exact hf) l
  rw [← regRead_word t hw hr l, Tables.readDirective]
  simp only [e]
  cases k : w ++ r with
  | nil => rw [k] at hc; cases hc
  | cons a x => rfl

/-- The factories do not look at the line number (those of the package do not). -/
def Tables.Blind (t : Tables) : Prop := ∀ p ∈ t.dirs, ∀ s s' : Scan, s.Same s' → Sim (p.2.read s) (p.2.read s')

theorem factory_blind {f : Factory} (hf : ∀ g, f ≠ .custom g) {s s' : Scan} (h : s.Same s') : Sim (f.read s) (f.read s') := by
  cases f with
  | rule =>
    have e : ∀ s : Scan, Factory.read s .rule = mapped GDir.of (s.readBody .rule) := by
      intro s
      simp only [Factory.read, Scan.readBody, Scan.readRule, mapped_andThen]; rfl
    rw [e, e]
    exact (readBody_line h .rule).bind fun s s' v h => .ok h
  | tri tk => exact (readString_line h).andThen fun _ _ _ h => .ok h
  | bool tk => exact (readString_line h).andThen fun _ _ _ h => .ok h
  | str tk => exact (readString_line h).andThen fun _ _ _ h => .ok h
  | custom g => exact absurd rfl (hf g)

theorem blind_register {t : Tables} (h : t.Blind) (hi : Rune → Rune) (tk : Int) (name : Bytes) {f : Factory} (hf : ∀ g, f ≠ .custom g) :
    (t.registerDir hi tk name f).Blind := by
  intro p hp
  rcases List.mem_cons.1 hp with rfl | hp
  · intro s s' h; exact factory_blind hf h
  · exact h p hp

theorem std_blind : stdTables.Blind := by
  intro p hp s s' h
  refine factory_blind (fun g e => ?_) h
  simp only [stdTables, List.mem_cons, List.not_mem_nil, or_false] at hp
  rcases hp with rfl | rfl | rfl | rfl <;> cases e

theorem find_mem {t : Tables} {w : Bytes} {f : Factory} (h : t.find w = some f) : ∃ tk, (tk, f) ∈ t.dirs := by
  rw [Tables.find] at h
  cases k : t.index.lookup w with
  | none => rw [k] at h; cases h
  | some tk =>
    rw [k] at h
    obtain ⟨l1, l2, e, _⟩ := List.lookup_eq_some_iff.1 h
    exact ⟨tk, by rw [e]; simp⟩

theorem regRead_blind {t : Tables} (ht : t.Blind) (hi : Rune → Rune) {s s' : Scan} (h : (skipLines s.inp s.line).1 = (skipLines s'.inp s'.line).1)
    (hb : s.buf = s'.buf) : Sim (t.readDirective hi s) (t.readDirective hi s') := by
  rw [Tables.readDirective, Tables.readDirective, ← h, ← hb]
  cases (skipLines s.inp s.line).1 with
  | nil => exact .ok ⟨_, rfl⟩
  | cons c r =>
    simp only
    have hw : ∀ a b : Scan, a.Same b → Sim (t.readDirective' hi a) (t.readDirective' hi b) := by
      rintro a b ⟨l, rfl⟩
      rw [Tables.readDirective', Tables.readDirective']
      have e1 : ({ a with line := l } : Scan).readWord.2 = a.readWord.2 := by simp [Scan.readWord]; split <;> rfl
      have e2 : a.readWord.1.Same ({ a with line := l } : Scan).readWord.1 := by
        refine ⟨l, ?_⟩; simp [Scan.readWord]; split <;> rfl
      rw [e1]
      cases k : t.find (toLower hi a.readWord.2) with
      | none => exact .ok e2
      | some f =>
        obtain ⟨tk, hm⟩ := find_mem k
        exact ht _ hm _ _ e2
    refine (hw _ _ ⟨(skipLines s'.inp s'.line).2, rfl⟩).bind fun s s' v h => ?_
    cases v with
    | ok a => exact .ok h
    | error e => cases e <;> exact .ok h

theorem regAll_blind {t : Tables} (ht : t.Blind) (hi : Rune → Rune) : ∀ (n : Nat) {s s' : Scan}, (skipLines s.inp s.line).1 = (skipLines s'.inp s'.line).1 →
    s.buf = s'.buf → Sim (t.allDirective hi n s) (t.allDirective hi n s') := by
  intro n
  induction n with
  | zero => intros; exact .fuel
  | succ n ih =>
    intro s s' h hb
    refine (regRead_blind ht hi h hb).bind fun s s' v h => ?_
    have hs : Sim (t.allDirective hi n s) (t.allDirective hi n s') := by
      obtain ⟨l, rfl⟩ := h
      exact ih (skipLines_line _ _ _) rfl
    cases v with
    | ok a => exact hs.andThen fun _ _ _ h => .ok h
    | error e => cases e <;> exact .ok h

theorem filler_split (t : Bytes) : ∃ f r, t = f ++ r ∧ Filler f ∧ ∀ c, r.head? = some c → ¬ IsFiller c := by
  induction t with
  | nil => exact ⟨[], [], rfl, fun c hc => (by cases hc), fun c hc => by cases hc⟩
  | cons c t ih =>
    by_cases hc : IsFiller c
    · obtain ⟨f, r, rfl, hf, hr⟩ := ih
      exact ⟨c :: f, r, rfl, fun d hd => (List.mem_cons.1 hd).elim (fun e => e ▸ hc) (hf d), hr⟩
    · exact ⟨[], c :: t, rfl, fun c hc => (by cases hc), fun d hd => by cases hd; exact hc⟩

theorem skipLines_newline (t : Bytes) (l l' : Nat) : (skipLines (10 :: t) l').1 = (skipLines t l).1 := by
  obtain ⟨f, r, rfl, hf, hr⟩ := filler_split t
  obtain ⟨l1, e1⟩ := skipLines_filler f hf hr l
  obtain ⟨l2, e2⟩ := skipLines_filler (10 :: f) (by intro d hd; rcases List.mem_cons.1 hd with rfl | hd; exact .inr (.inl (.inl rfl)); exact hf d hd) hr l'
  rw [e1, ← List.cons_append, e2]

/-- A directive of the host with a string for its argument: the argument arrives as it is,
whatever bytes it is made of, and what follows in the text is loaded behind it. -/
theorem C102_string_directive (lib : Lib) (vo : VarOrd) (t : Tables) (hb : t.Blind) (tk : Int) {name : Bytes} (hn : name ≠ []) (hl : ∀ c ∈ name, Letter c)
    {g : GDir → Option GDire} (ht : t.types.lookup tk = some (.custom tk g)) (v : Bytes) {run : Engine → Engine × Bool}
    (hg : g (.str tk v) = some (.custom run)) (rest : Bytes) (set set' : List GDire) (n : Nat)
    (hr : (t.registerDir lib.lowerHi tk name (.str tk)).addSecLangString lib vo n (set ++ [.custom run]) rest = .ok (set', none)) :
    (t.registerDir lib.lowerHi tk name (.str tk)).addSecLangString lib vo (n + 1) set (name ++ 32 :: quoted 34 v ++ 10 :: rest) =
      .ok (set', none) := by
  obtain ⟨a, name', rfl⟩ : ∃ a x, name = a :: x := by
    cases name with
    | nil => exact absurd rfl hn
    | cons a x => exact ⟨a, x, rfl⟩
  have ha : Letter a := hl a (by simp)
  have htok : Token (32 :: (quoted 34 v ++ 10 :: rest)) v (10 :: rest) := token_space (token_quoted (.inl rfl) v (10 :: rest))
  obtain ⟨l', e1⟩ := readString_token htok false 1
  generalize hT : t.registerDir lib.lowerHi tk (a :: name') (.str tk) = T at hr ⊢
  have hB : T.Blind := hT ▸ blind_register hb _ _ _ (fun _ e => by cases e)
  have e2 : T.readDirective lib.lowerHi (newScanner ((a :: name') ++ 32 :: quoted 34 v ++ 10 :: rest)) =
      .ok ({ bos := false, inp := 10 :: rest, buf := [], line := l' }, .ok (.str tk v)) := by
    have := regRead_line (hi := lib.lowerHi) T (w := a :: name') (r := 32 :: (quoted 34 v ++ 10 :: rest)) (c := a) hl
      (by intro c hc; cases hc; simp [Letter]) rfl (letter_no_filler ha) true 1
    rw [← hT, registered_find, hT] at this
    simp only [Factory.read, e1, SR.andThen, Res.bind_ok', cutShort] at this
    rw [← this]
    simp [newScanner]
  have e3 := regAll_blind hB lib.lowerHi n (s := newScanner rest) (s' := { bos := false, inp := 10 :: rest, buf := [], line := l' })
    (skipLines_newline rest 1 l').symm rfl
  rw [Tables.addSecLangString] at hr ⊢
  rw [Tables.allDirective, e2]
  simp only [Res.bind_ok']
  generalize T.allDirective lib.lowerHi n (newScanner rest) = x at hr e3
  generalize T.allDirective lib.lowerHi n { bos := false, inp := 10 :: rest, buf := [], line := l' } = y at e3
  cases e3 with
  | panic => cases hr
  | fuel => cases hr
  | @ok s s' w h =>
    cases w with
    | error e => cases hr
    | ok ds =>
      simp only [Res.bind_ok', SR.andThen, Res.ok.injEq] at hr ⊢
      rw [← hr, Tables.addDirs]
      have : T.direFactory lib vo (.str tk v) = .ok (.custom run) := by
        rw [← hT]
        simp only [Tables.direFactory, GDir.token, Tables.registerDir, ht, DireType.fromSecLang, hg]
      rw [this]

/-- The same without anything behind it. -/
theorem C102_string_alone (lib : Lib) (vo : VarOrd) (t : Tables) (hb : t.Blind) (tk : Int) {name : Bytes} (hn : name ≠ []) (hl : ∀ c ∈ name, Letter c)
    {g : GDir → Option GDire} (ht : t.types.lookup tk = some (.custom tk g)) (v : Bytes) {run : Engine → Engine × Bool}
    (hg : g (.str tk v) = some (.custom run)) (set : List GDire) (n : Nat) :
    (t.registerDir lib.lowerHi tk name (.str tk)).addSecLangString lib vo (n + 2) set (name ++ 32 :: quoted 34 v ++ [10]) =
      .ok (set ++ [.custom run], none) :=
  C102_string_directive lib vo t hb tk hn hl ht v hg [] set _ (n + 1) rfl

/-- `C102_string_directive`: `SecServerName`, with token 1000, for which a host has registered
a `Dire` that does nothing and fails for an empty name; after it the engine is turned on. -/
def serverName (d : GDir) : Option GDire := match d with
  | .str _ v => some (.custom fun e => (e, v != []))
  | _ => none

def nameTables : Tables := { stdTables with types := (1000, .custom 1000 serverName) :: stdTables.types }

example (vo : VarOrd) : (nameTables.registerDir Sample.lib.lowerHi 1000
      b!"SecServerName" (.str 1000)).addSecLangString Sample.lib vo 3 [] (b!"SecServerName" ++ 32 :: quoted 34 b!"a\"b" ++ 10 :: b!"secruleengine On\n") =
    .ok ([.custom fun e => (e, b!"a\"b" != []), .std (.ruleEng 1)], none) :=
  C102_string_directive Sample.lib vo nameTables std_blind 1000 (by simp) (by simp [Letter]) (g := serverName) rfl b!"a\"b"
    (run := fun e => (e, b!"a\"b" != [])) rfl b!"secruleengine On\n" [] _ 2 rfl

/-! ### C103 -/

/-- A set of directives is executed as a whole or not at all. -/
def C103_statement : Prop := ∀ (ds : List GDire) (e : Engine), (executeAll ds e).2 = false → (executeAll ds e).1 = e

/-- The engine after all of them, errors or not. -/
def effects (ds : List GDire) (e : Engine) : Engine := ds.foldl (fun e d => (d.execute e).1) e

/-- None of them fails. -/
def AllWell : List GDire → Engine → Prop
  | [], _ => True
  | d :: ds, e => (d.execute e).2 = true ∧ AllWell ds (d.execute e).1

/-- `Execute` has an error when there is a directive that fails; then those before it and this
one have been executed, and none of those behind it. -/
theorem C103_stops_at_error (ds : List GDire) : ∀ e e' : Engine,
    (executeAll ds e = (e', true) ↔ AllWell ds e ∧ e' = effects ds e) ∧
    (executeAll ds e = (e', false) ↔ ∃ a d b, ds = a ++ d :: b ∧ AllWell a e ∧ (d.execute (effects a e)).2 = false ∧ e' = effects (a ++ [d]) e) := by
  induction ds with
  | nil =>
    intro e e'
    refine ⟨by simp [executeAll, AllWell, effects, eq_comm], by simp [executeAll]⟩
  | cons d ds ih =>
    intro e e'
    obtain ⟨h1, h2⟩ := ih (d.execute e).1 e'
    simp only [executeAll]
    by_cases hd : (d.execute e).2 = true
    · simp only [hd, if_true, h1, h2]
      refine ⟨by simp [AllWell, hd, effects], ?_⟩
      constructor
      · rintro ⟨a, x, b, rfl, ha, hx, rfl⟩
        exact ⟨d :: a, x, b, rfl, ⟨hd, ha⟩, hx, rfl⟩
      · rintro ⟨a, x, b, he, ha, hx, rfl⟩
        cases a with
        | nil =>
          simp only [List.nil_append, List.cons.injEq] at he
          obtain ⟨rfl, rfl⟩ := he
          simp only [effects, List.foldl_nil, hd, reduceCtorEq] at hx
        | cons y a =>
          simp only [List.cons_append, List.cons.injEq] at he
          obtain ⟨rfl, rfl⟩ := he
          exact ⟨a, x, b, rfl, ha.2, hx, rfl⟩
    · simp only [hd, Bool.false_eq_true, if_false]
      simp only [Bool.not_eq_true] at hd
      refine ⟨by simp [AllWell, hd], ?_⟩
      constructor
      · intro h
        cases h
        exact ⟨[], d, ds, rfl, trivial, hd, rfl⟩
      · rintro ⟨a, x, b, he, ha, hx, rfl⟩
        cases a with
        | nil =>
          simp only [List.nil_append, List.cons.injEq] at he
          obtain ⟨rfl, rfl⟩ := he
          rfl
        | cons y a =>
          simp only [List.cons_append, List.cons.injEq] at he
          obtain ⟨rfl, rfl⟩ := he
          have := ha.1
          rw [hd] at this
          cases this

/-- `C103_stops_at_error`: the body switch behind the failing directive is not set. -/
example : executeAll [.std (.ruleEng 1), .custom fun e => (e, false), .std (.reqBody true)] newEngine =
    (effects [.std (.ruleEng 1)] newEngine, false) := rfl

/-- The directives of the package do not fail, so for sets of these alone the claim is true,
and `Execute` is what Model/Seclang says. -/
theorem C103_package_partial (ds : DireSet) : ∀ e : Engine, executeAll (ds.map .std) e = (ds.execute e, true) := by
  induction ds with
  | nil => intro e; rfl
  | cons d ds ih =>
    intro e
    simp only [List.map_cons, executeAll, GDire.execute, if_true, ih]
    rfl

/-- `SecRuleEngine On` and a directive of the host that fails: the engine has been turned on. -/
theorem C103_refuted : ¬ C103_statement := by
  intro h
  have := h [.std (.ruleEng 1), .custom fun e => (e, false)] newEngine rfl
  have := congrArg Engine.enabled this
  cases this

/-! ### C104 -/

/-- A factory of the host that takes nothing more from the text. -/
def flagFactory (tk : Int) (v : Bytes) : Factory := .custom fun s => .ok (s, .ok (.other tk v))

/-- There is a text whose first directive is read by the factory that was registered. -/
def Usable (hi : Rune → Rune) (tk : Int) (name : Bytes) : Prop := ∀ v, ∃ text s,
  (stdTables.registerDir hi tk name (flagFactory tk v)).readDirective hi (newScanner text) = .ok (s, .ok (.other tk v))

/-- A directive that is registered can be used in a text. -/
def C104_statement : Prop := ∀ (hi : Rune → Rune) (tk : Int) (name : Bytes), name ≠ [] → stdTables.dirs.lookup tk = none → Usable hi tk name

theorem std_not_other {w : Bytes} {f : Factory} (h : stdTables.find w = some f) {s s' : Scan} {tk : Int} {v : Bytes} :
    f.read s ≠ .ok (s', .ok (.other tk v)) := by
  rw [std_find] at h
  obtain ⟨k, _, rfl⟩ := Option.map_eq_some_iff.1 h
  intro e
  cases k with
  | rule =>
    obtain ⟨_, _, _, e⟩ := andThen_ok e
    obtain ⟨_, _, _, e⟩ := andThen_ok e
    obtain ⟨_, _, _, e⟩ := andThen_ok e
    cases e
  | ruleEng =>
    obtain ⟨_, a, _, e⟩ := andThen_ok e
    simp only [Res.ok.injEq, Prod.mk.injEq] at e
    cases k : parseTri a with
    | error x => rw [k] at e; cases e.2
    | ok x => rw [k] at e; cases e.2
  | reqBody =>
    obtain ⟨_, a, _, e⟩ := andThen_ok e
    simp only [Res.ok.injEq, Prod.mk.injEq] at e
    cases k : parseBool a with
    | error x => rw [k] at e; cases e.2
    | ok x => rw [k] at e; cases e.2
  | resBody =>
    obtain ⟨_, a, _, e⟩ := andThen_ok e
    simp only [Res.ok.injEq, Prod.mk.injEq] at e
    cases k : parseBool a with
    | error x => rw [k] at e; cases e.2
    | ok x => rw [k] at e; cases e.2

/-- It can exactly if its name is, up to case, one of letters only. -/
theorem C104_exact (hi : Rune → Rune) {tk : Int} (ht : stdTables.dirs.lookup tk = none) (name : Bytes) :
    Usable hi tk name ↔ ∃ w, (∀ c ∈ w, Letter c) ∧ toLower hi name = toLower hi w := by
  constructor
  · intro h
    obtain ⟨text, s, h⟩ := h []
    rw [Tables.readDirective] at h
    generalize skipLines (newScanner text).inp (newScanner text).line = q at h
    obtain ⟨r, l⟩ := q
    cases r with
    | nil => cases h
    | cons c r =>
      simp only at h
      have hs := readLetters_spec (c :: r)
      have hrd := regRead_word (hi := hi) (stdTables.registerDir hi tk name (flagFactory tk [])) hs.2.1 hs.2.2 l
      rw [← hs.1] at hrd
      rw [show (newScanner text).buf = [] from rfl, hrd] at h
      refine ⟨(readLetters (c :: r)).1, hs.2.1, ?_⟩
      generalize (readLetters (c :: r)).1 = w at h
      by_cases e : toLower hi w = toLower hi name
      · exact e.symm
      · exfalso
        have hw : (toLower hi w == toLower hi name) = false := by simpa using e
        have hf : (stdTables.registerDir hi tk name (flagFactory tk [])).find (toLower hi w) = stdTables.find (toLower hi w) := by
          simp only [Tables.find, Tables.registerDir, List.lookup, hw]
          cases k : stdTables.index.lookup (toLower hi w) with
          | none => rfl
          | some tk' =>
            simp only
            have : (tk' == tk) = false := by
              rw [beq_eq_false_iff_ne]
              rintro rfl
              have hk : ∀ p ∈ stdTables.index, stdTables.dirs.lookup p.2 ≠ none := by decide
              have : (toLower hi w, tk') ∈ stdTables.index := by
                obtain ⟨l1, l2, h1, _⟩ := List.lookup_eq_some_iff.1 k
                rw [h1]; simp
              exact hk _ this ht
            rw [this]
        rw [hf] at h
        cases k : stdTables.find (toLower hi w) with
        | none => rw [k] at h; cases h
        | some f =>
          rw [k] at h
          simp only at h
          cases k2 : f.read { bos := false, inp := (readLetters (c :: r)).2, buf := [], line := l } with
          | panic => rw [k2] at h; cases h
          | fuel => rw [k2] at h; cases h
          | ok p =>
            obtain ⟨s1, a⟩ := p
            rw [k2] at h
            cases a with
            | error x => cases x <;> cases h
            | ok a =>
              cases h
              exact std_not_other k k2
  · rintro ⟨w, hw, he⟩ v
    refine ⟨w ++ [40], { bos := false, inp := [40], buf := [], line := 1 }, ?_⟩
    have hh : ∃ c, (w ++ [40]).head? = some c ∧ ¬ IsFiller c := by
      cases w with
      | nil => exact ⟨40, rfl, by simp [IsFiller, Nl, Sp]⟩
      | cons c w => exact ⟨c, rfl, letter_no_filler (hw c (by simp))⟩
    obtain ⟨c, hc, hf⟩ := hh
    have := regRead_line (hi := hi) (stdTables.registerDir hi tk name (flagFactory tk v)) hw (r := [40]) (by intro c hc; cases hc; simp [Letter]) hc hf true 1
    rw [← he, registered_find] at this
    exact this

/-- A name of letters can be used. -/
theorem C104_letters_partial (hi : Rune → Rune) {tk : Int} (ht : stdTables.dirs.lookup tk = none) {name : Bytes} (hn : ∀ c ∈ name, Letter c) :
    Usable hi tk name := (C104_exact hi ht name).2 ⟨name, hn, rfl⟩

/-- `C104_letters_partial`. -/
example : Usable id 1000 b!"SecServerName" := C104_letters_partial id rfl (by simp [Letter])

/-- A name with a digit can not. -/
theorem C104_refuted : ¬ C104_statement := by
  intro h
  obtain ⟨w, hw, e⟩ := (C104_exact id (tk := 1000) rfl b!"SecRule2").1 (h id 1000 b!"SecRule2" (by simp) rfl)
  rw [toLower_letters id hw] at e
  have : (50 : UInt8) ∈ w.map lowerByte := by rw [← e]; decide
  obtain ⟨c, hc, e⟩ := List.mem_map.1 this
  have hl := hw c hc
  have : ∀ c : UInt8, lowerByte c = 50 → c = 50 := forall_u8 (by decide +kernel)
  rw [this c e] at hl
  simp [Letter] at hl

end Verif
