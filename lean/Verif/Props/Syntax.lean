import Verif.Proofs.Print
import Verif.Proofs.ParserLine
/-!
Properties C50–C55: the rule language.  `Spec/Syntax` is the grammar,
`Spec/Print` the printer.
-/
namespace Verif
open Spec

deriving instance DecidableEq for Except

/-! ### C50: quoting -/

/-- C50.  Every string put between quotation marks (of either kind) with
backslash escapes is read back as itself, and the scanner stands right behind
the closing mark. -/
theorem C50_quoted {q : UInt8} (hq : Quote q) (s rest : Bytes) (bos : Bool) (line : Nat) : ∃ line',
    Scan.readString { bos, inp := quoted q s ++ rest, buf := [], line } =
      .ok ({ bos := false, inp := rest, buf := [], line := line' }, .ok s) :=
  readString_token (token_quoted hq s rest) bos line

/-- C50, the same behind blanks and line continuations. -/
theorem C50_quoted_gap {q : UInt8} (hq : Quote q) {g : Bytes} (hg : Gap g) (s rest : Bytes) (bos : Bool) (line : Nat) : ∃ line',
    Scan.readString { bos, inp := g ++ quoted q s ++ rest, buf := [], line } =
      .ok ({ bos := false, inp := rest, buf := [], line := line' }, .ok s) := by
  have e : g ++ quoted q s ++ rest = g ++ q :: (s.flatMap (escByte q) ++ q :: rest) := by simp [quoted]
  rw [e]
  exact readString_token (.quoted hg hq (lex_quoted hq s rest)) bos line

/-- C50, the printable form is not the only one: what the scanner returns for a
token is what the grammar says, and conversely a non-empty string is only
returned for a token of the grammar. -/
theorem C50_exact {inp v rest : Bytes} (hv : v ≠ []) (bos : Bool) (line : Nat) :
    Token inp v rest ↔ ∃ line', Scan.readString { bos, inp, buf := [], line } =
      .ok ({ bos := false, inp := rest, buf := [], line := line' }, .ok v) := by
  constructor
  · exact fun h => readString_token h bos line
  · rintro ⟨line', h⟩
    exact (token_of_readString rfl h hv).1

/-- Different strings have different quoted forms. -/
theorem C50_injective {q : UInt8} (hq : Quote q) {s t : Bytes} (h : quoted q s = quoted q t) : s = t := by
  obtain ⟨l, h1⟩ := C50_quoted hq s [] true 1
  obtain ⟨l', h2⟩ := C50_quoted hq t [] true 1
  rw [h, h2] at h1
  simp only [Res.ok.injEq, Prod.mk.injEq, Except.ok.injEq] at h1
  exact h1.2.symm

/-- A string with a quotation mark, a backslash and a line break. -/
example : quoted 34 b!"a\"b\\c\nd" = b!"\"a\\\"b\\\\c\\nd\"" := by decide +kernel
example : Scan.readString { inp := b!" \"a\\\"b\\\\c\\nd\" rest" } = .ok ({ bos := false, inp := b!" rest" }, .ok b!"a\"b\\c\nd") := by
  decide +kernel

/-! ### C53: the parser and the grammar -/

/-- C53, exactness.  The parser returns directives iff the text is a rule file
with these directives. -/
theorem C53_exact (hi : Rune → Rune) (text : Bytes) (ds : List PDir) : parse hi text = .ok (.ok ds) ↔ Program text ds := by
  constructor
  · intro h
    rcases allDirective_cases hi (text.length + 1) true text 1 (by omega) with ⟨s', ds', e, hp⟩ | ⟨s', er, e⟩ | ⟨e, _⟩
    · rw [parse_eq hi (n := text.length + 1) (b := true) (l := 1) (by omega), e] at h
      simp only [Res.bind_ok', Res.ok.injEq, Except.ok.injEq] at h
      exact h ▸ hp
    · rw [parse_eq hi (n := text.length + 1) (b := true) (l := 1) (by omega), e] at h; simp at h
    · rw [parse_eq hi (n := text.length + 1) (b := true) (l := 1) (by omega), e] at h; cases h
  · intro h
    obtain ⟨s', e⟩ := allDirective_ok hi h (text.length + 1) true 1 (by omega)
    rw [parse_eq hi (n := text.length + 1) (b := true) (l := 1) (by omega), e]; rfl

/-- C53.  Printing directives and parsing the text gives the directives back. -/
theorem C53_round_trip (hi : Rune → Rune) {ds : List PDir} (h : ∀ d ∈ ds, WfDir d) : parse hi (print ds) = .ok (.ok ds) := by
  rw [C53_exact]
  have := print_program h (rest := []) (ds' := []) (.done (by simp [Filler]))
  simpa using this

/-- C53, appending.  Printed directives in front of any text: the text parses as
before, with the directives in front. -/
theorem C53_prefix (hi : Rune → Rune) {ds : List PDir} (h : ∀ d ∈ ds, WfDir d) (text : Bytes) :
    parse hi (print ds ++ text) = (parse hi text).bind fun r => .ok (r.map (ds ++ ·)) := by
  have filler10 : ∀ t, parse hi (10 :: t) = parse hi t := parse_skip hi (f := [10]) (by simp [Filler, Nl])
  induction ds with
  | nil =>
    have : (fun r : Except PErr (List PDir) => (Res.ok (r.map (([] : List PDir) ++ ·)))) = fun r => .ok r := by
      funext r; cases r <;> rfl
    rw [this]
    simp only [print, List.flatMap_nil, List.nil_append]
    cases parse hi text <;> rfl
  | cons d ds ih =>
    simp only [List.mem_cons, forall_eq_or_imp] at h
    have hstep : parse hi (print (d :: ds) ++ text) = (parse hi (print ds ++ text)).bind fun r => .ok (r.map (d :: ·)) := by
      have e : print (d :: ds) ++ text = [] ++ (printDir d ++ (print ds ++ text)) := by simp [print]
      rw [e]
      rcases printDir_directive h.1 (print ds ++ text) with hd | hd
      · exact parse_dir hi (by simp [Filler]) hd
      · rw [parse_dir hi (by simp [Filler]) hd, filler10]
    rw [hstep, ih h.2]
    cases parse hi text with
    | panic => rfl
    | fuel => rfl
    | ok r => cases r <;> rfl

/-- What the parser accepts is determined by the text, whatever the
lower-casing of letters outside ASCII. -/
theorem C53_determined {text : Bytes} {ds ds' : List PDir} (h : Program text ds) (h' : Program text ds') : ds = ds' := by
  rw [← C53_exact id] at h h'
  rw [h] at h'
  simpa using h'

/-- A well-formed list with every kind of directive: names with selectors, an
exclusion, a count, a negated operator, a chain. -/
def sampleDirs : List PDir :=
  [.ruleEng 2, .reqBody true, .resBody false,
   .rule {
     vars := [{ tk := .args, index := b!"user", count := false, exclusion := false },
              { tk := .args, index := b!"x", count := false, exclusion := true },
              { tk := .requestHeaders, index := [], count := true, exclusion := false }]
     op := { tk := .rx, not := true, arg := b!"^[a-z]+\\d\"$" }
     acts := { id := 12, phase := 2, chain := true, trans := [.lowercase, .urlDecodeUni],
               action := [⟨.deny, []⟩, ⟨.msg, b!"'a b'"⟩, ⟨.severity, b!"3"⟩] } },
   .rule {
     vars := [{ tk := .requestUri, index := [], count := false, exclusion := false }]
     op := { tk := .ge, not := false, arg := b!"5" }
     acts := { id := -7, phase := 0, chain := false, trans := [], action := [] } }]

theorem sampleDirs_wf : ∀ d ∈ sampleDirs, WfDir d := by
  have hs : ∃ n : Int, 0 ≤ n ∧ n ≤ 7 ∧ b!"3" = number n := ⟨3, by decide⟩
  simp [sampleDirs, WfDir, WfVar, WfAct, InInt64, hs]

example : parse id (print sampleDirs) = .ok (.ok sampleDirs) := C53_round_trip id sampleDirs_wf
example : print sampleDirs =
    b!"SecRuleEngine DetectionOnly\nSecRequestBodyAccess On\nSecResponseBodyAccess Off\nSecRule \"ARGS:user|!ARGS:x|&REQUEST_HEADERS\" \"!@rx ^[a-z]+\\\\d\\\"$\" \"deny:,msg:'a b',severity:3,t:lowercase,t:urlDecodeUni,chain,phase:2,id:12\"\nSecRule \"REQUEST_URI\" \"@ge 5\" \"id:-7\"\n" := by
  decide +kernel

/-! ### C52: no panic -/

/-- C52.  No text makes the parser panic. -/
theorem C52_no_panic (hi : Rune → Rune) (text : Bytes) : parse hi text ≠ .panic := by
  rw [parse_eq hi (n := text.length + 1) (b := true) (l := 1) (by omega)]
  rcases allDirective_cases hi (text.length + 1) true text 1 (by omega) with ⟨s', ds', e, hp⟩ | ⟨s', er, e⟩ | ⟨e, _⟩ <;>
    rw [e] <;> simp

/-- C52.  If the parser returns, it returns directives or an error. -/
theorem C52_returns {hi : Rune → Rune} {text : Bytes} (h : parse hi text ≠ .fuel) :
    (∃ ds, parse hi text = .ok (.ok ds)) ∨ ∃ e, parse hi text = .ok (.error e) := by
  have := C52_no_panic hi text
  cases hp : parse hi text with
  | panic => exact absurd hp this
  | fuel => exact absurd hp h
  | ok r =>
    cases r with
    | ok ds => exact .inl ⟨ds, rfl⟩
    | error e => exact .inr ⟨e, rfl⟩

/-- `splitMulti`, the one place with indexed writes, stays in range for every string. -/
theorem C52_splitMulti (s : Bytes) : ∃ l, splitMulti s [44, 124] = .ok l := ⟨_, splitMulti_ok s⟩

/-- Texts with an unterminated string, with an unknown name and with nothing behind the name. -/
example : parse id b!"SecRule \"ARGS" = .ok (.error .unexpectedEOS) := by decide +kernel
example : parse id b!"SecFoo On" = .ok (.error .notDirective) := by decide +kernel
example : parse id b!"SecRule ARGS,| x id:1" = .ok (.error .emptySeparated) := by decide +kernel
example : parse id b!"SecRuleEngine" = .ok (.error .unexpectedEOS) := by decide +kernel

/-! ### C51: termination -/

/-- C51, the full claim. -/
def C51_statement : Prop := ∀ hi text, parse hi text ≠ .fuel

/-- The parser does not return iff, behind a part that parses, a token is
preceded by a backslash that is not followed by a line feed. -/
theorem C51_hangs_iff (hi : Rune → Rune) (text : Bytes) : parse hi text = .fuel ↔ Hangs text := by
  rw [parse_eq hi (n := text.length + 1) (b := true) (l := 1) (by omega)]
  constructor
  · intro h
    rcases allDirective_cases hi (text.length + 1) true text 1 (by omega) with ⟨s', ds', e, hp⟩ | ⟨s', er, e⟩ | ⟨_, hh⟩
    · rw [e] at h; cases h
    · rw [e] at h; cases h
    · exact hh
  · intro h
    rw [allDirective_hangs hi h]; rfl

/-- That it does not return is not for want of fuel: the loop of `SkipBlank`,
executed literally, is still running after any number of iterations, and so is
the loop over directives. -/
theorem C51_loops_forever {text : Bytes} (h : Hangs text) (hi : Rune → Rune) (n : Nat) :
    allDirectiveFuel hi n (newScanner text) = .fuel := allDirective_hangs hi h n true 1

theorem C51_literal (s : Scan) :
    (∀ s', s.skipBlank = .ok s' → ∃ n, ∀ m, n ≤ m → skipBlankFuel m s = .ok s') ∧
    (s.skipBlank = .fuel → ∀ n, skipBlankFuel n s = .fuel) := skipBlank_literal s

theorem stuck_backslash {t u : Bytes} (h : Stuck u) (hu : u <:+ t) : ∃ pre r, t = pre ++ 92 :: r ∧ r.head? ≠ some 10 := by
  obtain ⟨g, r, _, rfl, hr⟩ := h
  obtain ⟨p, rfl⟩ := hu
  exact ⟨p ++ g, r, by simp, hr⟩

theorem hangs_backslash {t : Bytes} (h : Hangs t) : ∃ pre r, t = pre ++ 92 :: r ∧ r.head? ≠ some 10 := by
  have sub : ∀ {a t : Bytes}, (∃ pre r, t = pre ++ 92 :: r ∧ r.head? ≠ some 10) → ∃ pre r, a ++ t = pre ++ 92 :: r ∧ r.head? ≠ some 10 := by
    rintro a _ ⟨pre, r, rfl, hr⟩
    exact ⟨a ++ pre, r, by simp, hr⟩
  induction h with
  | here _ hh =>
    refine sub ?_
    cases hh with
    | first _ _ hs => exact sub (stuck_backslash hs (List.suffix_refl _))
    | operator _ _ h1 _ hs => exact sub (stuck_backslash hs (token_suffix h1))
    | actions _ _ h1 _ h2 _ hs => exact sub (stuck_backslash hs ((token_suffix h2).trans (token_suffix h1)))
  | later _ hd _ ih =>
    refine sub ?_
    obtain ⟨p, rfl⟩ := (directive_shorter hd).1
    exact sub ih

/-- C51 for texts in which every backslash is followed by a line feed (so for
all texts without a backslash); the claim for all texts is false. -/
theorem C51_terminates_partial (hi : Rune → Rune) {text : Bytes} (h : ∀ pre r, text = pre ++ 92 :: r → r.head? = some 10) :
    parse hi text ≠ .fuel := by
  intro e
  obtain ⟨pre, r, h1, h2⟩ := hangs_backslash ((C51_hangs_iff hi text).1 e)
  exact h2 (h pre r h1)

example : ∀ pre r, b!"SecRule ARGS \\\n rx id:1" = pre ++ 92 :: r → r.head? = some 10 := by
  intro pre r h
  have : ∀ k ≤ 24, (b!"SecRule ARGS \\\n rx id:1").drop k = 92 :: r → r.head? = some 10 := by
    intro k hk
    have : k = 13 ∨ ((b!"SecRule ARGS \\\n rx id:1").drop k).head? ≠ some 92 := by
      revert k; decide
    rcases this with rfl | h
    · intro h; cases h; rfl
    · intro h'; rw [h'] at h; exact absurd rfl h
  refine this pre.length ?_ (by rw [h]; simp)
  have := congrArg List.length h
  simp at this; omega
example : (parse id b!"SecRule ARGS \\\n rx id:1") ≠ .fuel := by decide +kernel

/-- Printed rule files always parse. -/
theorem C51_printed (hi : Rune → Rune) {ds : List PDir} (h : ∀ d ∈ ds, WfDir d) : parse hi (print ds) ≠ .fuel := by
  rw [C53_round_trip hi h]; simp

/-- A line continued in a file with CRLF line ends: whatever follows, the
parser does not return. -/
theorem C51_crlf_hangs (hi : Rune → Rune) {w n : Bytes}
    (hn : n ∈ [b!"SecRule", b!"SecRuleEngine", b!"SecRequestBodyAccess", b!"SecResponseBodyAccess"])
    (hw : CaseVariant w n) (rest : Bytes) : parse hi (w ++ b!" \\\r\n" ++ rest) = .fuel := by
  rw [C51_hangs_iff, List.append_assoc]
  exact .here (f := []) (by simp [Filler]) (.first hn hw ⟨[32], 13 :: 10 :: rest, .blank (.inl rfl) .nil, rfl, by simp⟩)

theorem C51_refuted : ¬ C51_statement := fun h =>
  h id (b!"SecRule" ++ b!" \\\r\n" ++ []) (C51_crlf_hangs id (by decide) (CaseVariant.refl _) [])

/-! ### C54: case of names and values -/

/-- `Recased s t`: the texts differ in the case of letters in directive names
and in the values of switches only. -/
inductive Spec.Recased : Bytes → Bytes → Prop
  /-- No difference from here on. -/
  | same (t : Bytes) : Recased t t
  /-- Another spelling of the name of the next directive, whatever follows. -/
  | name {f w w' n t : Bytes} : Filler f →
      n ∈ [b!"SecRule", b!"SecRuleEngine", b!"SecRequestBodyAccess", b!"SecResponseBodyAccess"] →
      CaseVariant w n → CaseVariant w' n → Recased (f ++ (w ++ t)) (f ++ (w' ++ t))
  /-- Another spelling of the value of a switch, whatever follows. -/
  | value {f w n t t' v v' rest : Bytes} : Filler f →
      n ∈ [b!"SecRuleEngine", b!"SecRequestBodyAccess", b!"SecResponseBodyAccess"] → CaseVariant w n →
      (∀ c, t.head? = some c → ¬ Letter c) → (∀ c, t'.head? = some c → ¬ Letter c) →
      Token t v rest → Token t' v' rest → CaseVariant v v' → Recased (f ++ (w ++ t)) (f ++ (w ++ t'))
  /-- The same directive, then further differences. -/
  | later {f t t' rest rest' : Bytes} {d : PDir} : Filler f → Directive t d rest → Directive t' d rest' →
      Recased rest rest' → Recased (f ++ t) (f ++ t')
  | trans {s t u : Bytes} : Recased s t → Recased t u → Recased s u

theorem readLetters_prefix {w : Bytes} (hw : ∀ c ∈ w, Letter c) (t : Bytes) :
    readLetters (w ++ t) = (w ++ (readLetters t).1, (readLetters t).2) := by
  obtain ⟨h1, h2, h3⟩ := readLetters_spec t
  have := readLetters_append (w := w ++ (readLetters t).1) (t := (readLetters t).2)
    (fun c hc => (List.mem_append.1 hc).elim (hw c) (h2 c)) h3
  rw [List.append_assoc, ← h1] at this
  exact this

/-- C54.  Texts that differ in the case of directive names and switch values
only give the same result: the same directives, the same error, or none. -/
theorem C54_case_insensitive (hi : Rune → Rune) {s t : Bytes} (h : Recased s t) : parse hi s = parse hi t := by
  induction h with
  | same => rfl
  | trans _ _ h1 h2 => exact h1.trans h2
  | later hf hd hd' _ ih => rw [parse_dir hi hf hd, parse_dir hi hf hd', ih]
  | @name f w w' n t hf hn hw hw' =>
    obtain ⟨tk, rfl⟩ := (dirName_mem n).1 hn
    refine parse_alike hi hf (variant_cons hw (dirName_ne tk) (dirName_letters tk))
      (variant_cons hw' (dirName_ne tk) (dirName_letters tk)) fun l l' => ?_
    rw [readDirective'_word, readDirective'_word, readLetters_prefix (letters_of_variant hw (dirName_letters tk)),
      readLetters_prefix (letters_of_variant hw' (dirName_letters tk))]
    simp only [List.map_append]
    rw [(caseVariant_iff _ _).1 hw, (caseVariant_iff _ _).1 hw']
    split
    · exact .ok ⟨l', rfl⟩
    · exact readBody_line ⟨l', rfl⟩ _
  | @value f w n t t' v v' rest hf hn hw ht ht' h1 h2 hv =>
    have tok : ∀ {α : Type} (g : Bytes → Except PErr α), g v = g v' → ∀ l l', Sim ((at' t l).tok g) ((at' t' l').tok g) := by
      intro α g hg l l'
      obtain ⟨l1, e1⟩ := readString_token h1 false l
      obtain ⟨l2, e2⟩ := readString_token h2 false l'
      simp only [Scan.tok, SR.andThen, e1, e2, Res.bind_ok', hg]
      exact .ok ⟨l2, rfl⟩
    have hfold : ∀ n, eqFold v n = eqFold v' n := by intro n; simp only [eqFold]; rw [(caseVariant_iff _ _).1 hv]
    have hb : parseBool v = parseBool v' := by simp only [parseBool, hfold]
    have htri : parseTri v = parseTri v' := by simp only [parseTri, hfold]
    obtain ⟨tk, rfl, htk⟩ : ∃ tk, n = dirName tk ∧ tk ≠ .rule := by
      simp only [List.mem_cons, List.not_mem_nil, or_false] at hn
      rcases hn with rfl | rfl | rfl
      · exact ⟨.ruleEng, rfl, by decide⟩
      · exact ⟨.reqBody, rfl, by decide⟩
      · exact ⟨.resBody, rfl, by decide⟩
    refine parse_alike hi hf (variant_cons hw (dirName_ne tk) (dirName_letters tk))
      (variant_cons hw (dirName_ne tk) (dirName_letters tk)) fun l l' => ?_
    rw [readDirective'_eq hi hw ht, readDirective'_eq hi hw ht']
    cases tk with
    | rule => exact absurd rfl htk
    | ruleEng => exact tok _ (by rw [htri]) l l'
    | reqBody => exact tok _ (by rw [hb]) l l'
    | resBody => exact tok _ (by rw [hb]) l l'

/-- C54.  The switches by name and value. -/
theorem C54_switch (hi : Rune → Rune) {w v : Bytes} {b : Bool} (hw : CaseVariant w b!"SecRequestBodyAccess")
    (hv : CaseVariant v (if b then b!"On" else b!"Off")) (text : Bytes) :
    parse hi (w ++ 32 :: v ++ 10 :: text) = (parse hi text).bind fun r => .ok (r.map (PDir.reqBody b :: ·)) := by
  have hl : ∀ c ∈ v, Letter c := by
    refine letters_of_variant hv ?_
    have : ∀ c ∈ (if b then b!"On" else b!"Off" : Bytes), isAlphabet c = true := by cases b <;> decide
    exact fun c hc => (isAlphabet_iff c).1 (this c hc)
  have hne : v ≠ [] := by
    intro h; subst h
    have := variant_length hv
    cases b <;> simp at this
  obtain ⟨c, r, rfl⟩ := List.exists_cons_of_ne_nil hne
  have h1 : ∀ d ∈ c :: r, ¬ Sp d ∧ ¬ Nl d ∧ d ≠ 92 := by
    intro d hd
    have := hl d hd
    refine ⟨?_, ?_, ?_⟩
    · rintro (rfl | rfl | rfl | rfl) <;> simp [Letter] at this
    · rintro (rfl | rfl) <;> simp [Letter] at this
    · rintro rfl; simp [Letter] at this
  have hq : ¬ Quote c := by
    have := hl c List.mem_cons_self
    rintro (rfl | rfl) <;> simp [Letter] at this
  have ht := token_space (token_word h1 hq (d := 10) (.inr (.inl rfl)) text)
  have hd : Directive (w ++ (32 :: (c :: r ++ 10 :: text))) (.reqBody b) text := by
    refine .reqBody hw (by intro c hc; cases hc; simp [Letter]) ht ?_
    cases b
    · exact .inr ⟨hv, rfl⟩
    · exact .inl ⟨hv, rfl⟩
  have := parse_dir hi (f := []) (by simp [Filler]) hd
  simpa using this

example : Recased b!"SECRULEENGINE On\nsecrule ARGS x id:1" b!"secRuleEngine oN\nsecrule ARGS x id:1" := by
  refine .trans (t := b!"secRuleEngine On\nsecrule ARGS x id:1")
    (.name (f := []) (w := b!"SECRULEENGINE") (w' := b!"secRuleEngine") (n := b!"SecRuleEngine") (t := b!" On\nsecrule ARGS x id:1")
      (by simp [Filler]) (by decide) ((caseVariant_iff _ _).2 (by decide)) ((caseVariant_iff _ _).2 (by decide))) ?_
  refine .value (f := []) (w := b!"secRuleEngine") (n := b!"SecRuleEngine") (t := b!" On\nsecrule ARGS x id:1")
    (t' := b!" oN\nsecrule ARGS x id:1") (v := b!"On") (v' := b!"oN") (rest := b!"secrule ARGS x id:1")
    (by simp [Filler]) (by decide) ((caseVariant_iff _ _).2 (by decide)) (by intro c hc; cases hc; simp [Letter])
    (by intro c hc; cases hc; simp [Letter])
    (token_space (token_word (c := 79) (w := [110]) (by simp [Sp, Nl]) (by simp [Quote]) (d := 10) (.inr (.inl rfl)) _))
    (token_space (token_word (c := 111) (w := [78]) (by simp [Sp, Nl]) (by simp [Quote]) (d := 10) (.inr (.inl rfl)) _))
    ((caseVariant_iff _ _).2 (by decide))
example : parse id b!"SECRULEENGINE oN\nsecruleengine detectiononly" = .ok (.ok [.ruleEng 1, .ruleEng 2]) := by decide +kernel

/-! ### C55: phases -/

theorem phase_range {s : Bytes} {n : Int} (h : Phase s n) : 1 ≤ n ∧ n ≤ 5 := by
  rcases h with ⟨_, rfl⟩ | ⟨_, rfl⟩ | ⟨_, rfl⟩ | ⟨_, h⟩
  · decide
  · decide
  · decide
  · exact h

theorem item_phase_range {p : Bytes} {i : Item} {n : Int} (h : ActItem p i) (hi : i.phase? = some n) : 1 ≤ n ∧ n ≤ 5 := by
  obtain ⟨l, tk, r, tail, arg, _, _, _, _, hm⟩ := h
  cases hm with
  | phase _ hp => cases hi; exact phase_range hp
  | _ => cases hi

theorem pairs_phase {ps : List Bytes} {is : List Item} (h : Pairs ActItem ps is) : ∀ n ∈ is.filterMap Item.phase?, 1 ≤ n ∧ n ≤ 5 := by
  induction h with
  | nil => simp
  | @cons p i ps is h1 _ ih =>
    intro n hn
    rw [List.filterMap_cons] at hn
    split at hn
    · exact ih n hn
    · rename_i m hm
      rcases List.mem_cons.1 hn with rfl | hn
      · exact item_phase_range h1 hm
      · exact ih n hn

theorem acts_phase {s : Bytes} {a : PActs} (h : Acts s a) : a.phase = 0 ∨ (1 ≤ a.phase ∧ a.phase ≤ 5) := by
  obtain ⟨l, core, r, is, _, _, _, _, _, hs, rfl⟩ := h
  have := pairs_phase ((sepBy_iff _ _).1 hs)
  simp only [summary, lastOr0]
  cases hl : (is.filterMap Item.phase?).getLast? with
  | none => exact .inl rfl
  | some n => exact .inr (this n (List.mem_of_getLast? hl))

/-- C55.  The phase of a parsed rule is 0 or 1 to 5. -/
theorem C55_legal_phase {hi : Rune → Rune} {text : Bytes} {ds : List PDir} (h : parse hi text = .ok (.ok ds)) {r : PRule}
    (hr : PDir.rule r ∈ ds) : r.acts.phase = 0 ∨ (1 ≤ r.acts.phase ∧ r.acts.phase ≤ 5) := by
  rw [C53_exact] at h
  induction h with
  | done => cases hr
  | dir _ hd _ ih =>
    rcases List.mem_cons.1 hr with h | h
    · subst h
      cases hd with
      | rule _ _ _ _ _ _ _ h6 => exact acts_phase h6
    · exact ih h

/-- `piece` is the action `name`, with or without an argument. -/
def Spec.Names (name piece : Bytes) : Prop :=
  ∃ l r tail, piece = l ++ name ++ r ++ tail ∧ Blank l ∧ Blank r ∧ (tail = [] ∨ ∃ arg, tail = 58 :: arg)

theorem pairs_eq {α : Type} {as bs : List α} (h : Pairs (fun a b => a = b) as bs) : as = bs := by
  induction h with
  | nil => rfl
  | cons h _ ih => rw [h, ih]

theorem splitAny_join {ps : List Bytes} (hne : ps ≠ []) (hc : ∀ p ∈ ps, ∀ c ∈ p, c ≠ 44) : splitAny [44] (joinWith 44 ps) = ps := by
  have h : Pairs (fun a b => a = b) ps ps := by
    have := pairs_map (R := fun (a b : Bytes) => a = b) (f := id) (l := ps) (fun _ _ => rfl)
    simpa using this
  have := sepBy_join (sep := 44) (seps := [44]) (by decide) h hne (fun p hp c hc' => by simpa using hc p hp c hc')
  exact pairs_eq ((sepBy_iff _ _).1 this)

theorem names_phase {p : Bytes} {i : Item} (h : ActItem p i) : Names b!"phase" p ↔ ∃ n, i.phase? = some n := by
  obtain ⟨l, tk, r, tail, arg, e, hl, hr, ht, hm⟩ := h
  have h1 := (parseAction_iff p tk arg).2 ⟨l, r, tail, e, hl, hr, ht⟩
  constructor
  · rintro ⟨l', r', tail', e', hl', hr', ht'⟩
    obtain ⟨arg', ha⟩ : ∃ arg', (tail' = [] ∧ arg' = []) ∨ tail' = 58 :: arg' := by
      rcases ht' with rfl | ⟨arg', rfl⟩
      · exact ⟨[], .inl ⟨rfl, rfl⟩⟩
      · exact ⟨arg', .inr rfl⟩
    have h2 := (parseAction_iff p .phase arg').2 ⟨l', r', tail', e', hl', hr', ha⟩
    rw [h1] at h2
    simp only [Except.ok.injEq, Prod.mk.injEq] at h2
    obtain ⟨rfl, _⟩ := h2
    cases hm with
    | phase _ _ => exact ⟨_, rfl⟩
    | other _ h => exact absurd rfl h
  · rintro ⟨n, hn⟩
    cases hm with
    | phase _ _ => exact ⟨l, r, tail, e, hl, hr, ht.imp And.left fun h => ⟨_, h⟩⟩
    | _ => cases hn

theorem pairs_mem_left {α β : Type} {R : α → β → Prop} {as : List α} {bs : List β} (h : Pairs R as bs) {a : α} (ha : a ∈ as) :
    ∃ b ∈ bs, R a b := by
  induction h with
  | nil => cases ha
  | @cons x y as bs h1 _ ih =>
    rcases List.mem_cons.1 ha with rfl | ha
    · exact ⟨y, List.mem_cons_self, h1⟩
    · obtain ⟨b, hb, hr⟩ := ih ha; exact ⟨b, List.mem_cons_of_mem _ hb, hr⟩

theorem pairs_mem_right {α β : Type} {R : α → β → Prop} {as : List α} {bs : List β} (h : Pairs R as bs) {b : β} (hb : b ∈ bs) :
    ∃ a ∈ as, R a b := by
  induction h with
  | nil => cases hb
  | @cons x y as bs h1 _ ih =>
    rcases List.mem_cons.1 hb with rfl | hb
    · exact ⟨x, List.mem_cons_self, h1⟩
    · obtain ⟨a, ha, hr⟩ := ih hb; exact ⟨a, List.mem_cons_of_mem _ ha, hr⟩

/-- C55.  The phase is 0 exactly if no comma-separated piece of the action
string is a phase action. -/
theorem C55_zero_iff {l r : Bytes} {ps : List Bytes} {a : PActs} (hl : Blank l) (hr : Blank r) (hne : ps ≠ [])
    (hc : ∀ p ∈ ps, ∀ c ∈ p, c ≠ 44) (ht : Trimmed (joinWith 44 ps)) (h : parseActions (l ++ joinWith 44 ps ++ r) = .ok a) :
    a.phase = 0 ↔ ∀ p ∈ ps, ¬ Names b!"phase" p := by
  simp only [parseActions, trimSpace_of_trimmed hl hr ht] at h
  split at h
  · cases h
  · obtain ⟨is, h1, rfl⟩ := (processActions_iff _ _ _).1 h
    rw [splitByte_any, splitAny_join hne hc] at h1
    have hrange := pairs_phase h1
    rw [foldl_summary]
    simp only [summary, lastOr0]
    constructor
    · intro h0 p hp hn
      obtain ⟨i, hi, hpi⟩ := pairs_mem_left h1 hp
      obtain ⟨n, hn⟩ := (names_phase hpi).1 hn
      have hm : n ∈ is.filterMap Item.phase? := List.mem_filterMap.2 ⟨i, hi, hn⟩
      have hne' : is.filterMap Item.phase? ≠ [] := List.ne_nil_of_mem hm
      rw [List.getLast?_eq_some_getLast hne'] at h0
      have := hrange _ (List.getLast_mem hne')
      simp only [Option.getD_some] at h0
      omega
    · intro hno
      have : is.filterMap Item.phase? = [] := by
        rw [List.filterMap_eq_nil_iff]
        intro i hi
        obtain ⟨p, hp, hpi⟩ := pairs_mem_right h1 hi
        cases he : i.phase? with
        | none => rfl
        | some n => exact absurd ((names_phase hpi).2 ⟨n, he⟩) (hno p hp)
      rw [this]; rfl

/-- C55.  A phase action whose argument is neither 1 to 5 nor an alias makes
the action string an error. -/
theorem C55_bad_phase {l r : Bytes} {ps : List Bytes} (hl : Blank l) (hr : Blank r) (hc : ∀ p ∈ ps, ∀ c ∈ p, c ≠ 44)
    (ht : Trimmed (joinWith 44 ps)) {p l' r' arg : Bytes} (hp : p ∈ ps) (e : p = l' ++ b!"phase" ++ r' ++ 58 :: arg)
    (hl' : Blank l') (hr' : Blank r') (hbad : ∀ u n, Unquoted arg u → ¬ Phase u n) :
    ∃ er, parseActions (l ++ joinWith 44 ps ++ r) = .error er := by
  cases h : parseActions (l ++ joinWith 44 ps ++ r) with
  | error er => exact ⟨er, rfl⟩
  | ok a =>
    exfalso
    simp only [parseActions, trimSpace_of_trimmed hl hr ht] at h
    split at h
    · cases h
    · obtain ⟨is, h1, _⟩ := (processActions_iff _ _ _).1 h
      rw [splitByte_any, splitAny_join (List.ne_nil_of_mem hp) hc] at h1
      obtain ⟨i, _, l2, tk, r2, tail, arg2, e2, hl2, hr2, ht2, hm⟩ := pairs_mem_left h1 hp
      have k1 := (parseAction_iff p tk arg2).2 ⟨l2, r2, tail, e2, hl2, hr2, ht2⟩
      have k2 := (parseAction_iff p .phase arg).2 ⟨l', r', 58 :: arg, e, hl', hr', .inr rfl⟩
      rw [k1] at k2
      simp only [Except.ok.injEq, Prod.mk.injEq] at k2
      obtain ⟨rfl, rfl⟩ := k2
      cases hm with
      | phase hu hph => exact hbad _ _ hu hph
      | other _ h => exact absurd rfl h

/-- C55.  An error in the action string of a rule is an error of the text. -/
theorem C55_error_propagates (hi : Rune → Rune) {ds : List PDir} (hds : ∀ d ∈ ds, WfDir d) {vs os as t : Bytes}
    {vars : List PVar} {op : POp} {er : PErr} (hv : Vars vs vars) (ho : Oper os op) (ha : parseActions as = .error er) :
    ∃ er', parse hi (print ds ++ (b!"SecRule " ++ quoted 34 vs ++ 32 :: quoted 34 os ++ 32 :: quoted 34 as ++ t)) = .ok (.error er') := by
  rw [C53_prefix hi hds]
  have key : ∃ er', parse hi (b!"SecRule " ++ quoted 34 vs ++ 32 :: quoted 34 os ++ 32 :: quoted 34 as ++ t) = .ok (.error er') := by
    have e : b!"SecRule " ++ quoted 34 vs ++ 32 :: quoted 34 os ++ 32 :: quoted 34 as ++ t =
        [] ++ (b!"SecRule" ++ (32 :: (quoted 34 vs ++ (32 :: (quoted 34 os ++ (32 :: (quoted 34 as ++ t))))))) := by simp
    rw [e]
    have t1 := token_space (token_quoted (.inl rfl) vs (32 :: (quoted 34 os ++ (32 :: (quoted 34 as ++ t)))))
    have t2 := token_space (token_quoted (.inl rfl) os (32 :: (quoted 34 as ++ t)))
    have t3 := token_space (token_quoted (.inl rfl) as t)
    obtain ⟨l1, e1⟩ := tok_ok t1 ((checkVars_iff _ _).2 hv) 1
    obtain ⟨l2, e2⟩ := tok_ok t2 ((parseOperator_iff _ _).2 ho) l1
    obtain ⟨l3, e3⟩ := readString_token t3 false l2
    refine parse_error (l := 1) (s' := at' t l3) (e := er) hi (by simp [Filler]) ⟨83, _, rfl, by simp [Letter]⟩ ?_
    have e0 := readDirective'_eq (tk := .rule) hi (CaseVariant.refl (dirName .rule))
      (t := 32 :: (quoted 34 vs ++ (32 :: (quoted 34 os ++ (32 :: (quoted 34 as ++ t))))))
      (by intro c hc; cases hc; simp [Letter]) 1
    rw [show (b!"SecRule" : Bytes) = dirName .rule from rfl, e0]
    have e4 : (at' (32 :: (quoted 34 as ++ t)) l2).tok parseActions = .ok (at' t l3, .error er) := by
      simp only [Scan.tok, SR.andThen, e3, Res.bind_ok', ha]
    simp only [Scan.readBody, readRule_eq, SR.andThen, e1, e2, e4, Res.bind_ok']
  obtain ⟨er', h⟩ := key
  exact ⟨er', by rw [h]; rfl⟩

example : parse id b!"SecRule ARGS x \"id:1,phase:6\"" = .ok (.error .badPhase) := by decide +kernel
example : parse id b!"SecRule ARGS x \"phase:3,id:1,phase:response\"" = .ok (.ok [.rule {
    vars := [{ tk := .args, index := [], count := false, exclusion := false }]
    op := { tk := .rx, not := false, arg := b!"x" }
    acts := { id := 1, phase := 4, chain := false, trans := [], action := [] } }]) := by decide +kernel

end Verif
