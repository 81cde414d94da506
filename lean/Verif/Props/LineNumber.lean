import Verif.Props.Syntax
import Verif.Proofs.Literal
/-!
Property C96: the line number of the scanner (`Scanner.LineNumber`).

A line break that ends an unquoted argument is taken by `readString` as its
delimiter and is not counted, so in files with bare '\n' line breaks the number
falls behind by one for each such line; it never runs ahead.
-/
namespace Verif
open Spec

namespace Spec

/-- The last byte before the text `a` ends, `p` being the byte before `a`. -/
def lastOf : Option UInt8 → Bytes → Option UInt8
  | p, [] => p
  | _, c :: r => lastOf (some c) r

/-- The byte before a line break is a blank, a line break byte, or there is none. -/
def loose : Option UInt8 → Bool
  | none => true
  | some c => c == 32 || c == 9 || c == 11 || c == 12 || c == 10 || c == 13

/-- The '\n' bytes of a text that follow a blank, a '\r', a '\n' or nothing. -/
def looseBreaks : Option UInt8 → Bytes → Nat
  | _, [] => 0
  | p, c :: r => (if c == 10 && loose p then 1 else 0) + looseBreaks (some c) r

/-- A '\r' occurs only before a '\n'. -/
def CrBeforeLf (text : Bytes) : Prop := ∀ a b, text = a ++ 13 :: b → b.head? = some 10

end Spec

/-- The full claim: after reading a text, successfully or up to an error, the
line number is that of the byte the scanner stands at. -/
def C96_statement : Prop :=
  ∀ (hi : Rune → Rune) (text : Bytes) (s : Scan) (r : Except PErr (List PDir)), CrBeforeLf text →
    (newScanner text).allDirective hi = .ok (s, r) →
      ∃ read, text = read ++ s.inp ∧ s.line = 1 + read.count 10

/-! ### Counting -/

theorem looseBreaks_snoc (a : Bytes) (c : UInt8) : ∀ p,
    looseBreaks p (a ++ [c]) = looseBreaks p a + if c == 10 && loose (lastOf p a) then 1 else 0 := by
  induction a with
  | nil => intro p; simp [looseBreaks, lastOf]
  | cons d a ih => intro p; simp only [List.cons_append, looseBreaks, lastOf, ih]; rw [Nat.add_assoc]; rfl

theorem lastOf_snoc (a : Bytes) (c : UInt8) : ∀ p, lastOf p (a ++ [c]) = some c := by
  induction a with
  | nil => intro p; rfl
  | cons d a ih => intro p; exact ih _

/-- What the line number says when the scanner stands at `inp` of `text`. -/
def Tally (text inp : Bytes) (line : Nat) : Prop :=
  ∃ a, text = a ++ inp ∧ line ≤ 1 + a.count 10 ∧ (92 ∉ text → 1 + looseBreaks none a ≤ line)

theorem tally_byte {text r : Bytes} {c : UInt8} {l : Nat} (h : Tally text (c :: r) l) (hc : c ≠ 10) : Tally text r l := by
  obtain ⟨a, e, h1, h2⟩ := h
  refine ⟨a ++ [c], by rw [e]; simp, ?_, fun hb => ?_⟩
  · rw [List.count_append]; omega
  · rw [looseBreaks_snoc, if_neg (by simp [hc])]; exact h2 hb

theorem tally_lf {text r : Bytes} {l : Nat} (h : Tally text (10 :: r) l) : Tally text r (l + 1) := by
  obtain ⟨a, e, h1, h2⟩ := h
  refine ⟨a ++ [10], by rw [e]; simp, ?_, fun hb => ?_⟩
  · rw [List.count_append, List.count_singleton_self]; omega
  · rw [looseBreaks_snoc]; have := h2 hb; split <;> omega

theorem tally_newline {text r : Bytes} {c : UInt8} {l : Nat} (hcr : CrBeforeLf text) (h : Tally text (c :: r) l)
    (hc : isNewLine c = true) : Tally text (afterNewline c r) (l + 1) := by
  have hc' : c = 10 ∨ c = 13 := by simpa [isNewLine] using hc
  rcases hc' with rfl | rfl
  · have h1 := tally_lf h
    cases r with
    | nil => exact h1
    | cons d r =>
      simp only [afterNewline]
      split
      · rename_i hd
        exact tally_byte h1 (by intro e; subst e; simp at hd)
      · exact h1
  · obtain ⟨a, e, _⟩ := id h
    have hh := hcr a r e
    cases r with
    | nil => simp at hh
    | cons d r =>
      simp only [List.head?_cons, Option.some.injEq] at hh
      subst hh
      exact tally_lf (tally_byte h (by decide))

theorem skipBlanks_tally {text : Bytes} (inp : Bytes) (l : Nat) :
    ∀ r l', Tally text inp l → skipBlanks inp l = some (r, l') → Tally text r l' := by
  fun_induction skipBlanks inp l with
  | case1 l => intro r l' h e; cases e; exact h
  | case2 c r l hb ih =>
    intro r1 l' h e
    exact ih _ _ (tally_byte h (by intro hc; subst hc; simp [isBlank] at hb)) e
  | case3 l r hb ih =>
    intro r1 l' h e
    exact ih _ _ (tally_byte (tally_lf (tally_byte h (by decide))) (by decide)) e
  | case4 l r hb hr ih =>
    intro r1 l' h e
    exact ih _ _ (tally_lf (tally_byte h (by decide))) e
  | case5 => intro r1 l' h e; cases e
  | case6 c r l hb hc => intro r1 l' h e; cases e; exact h

/-- A byte of a word: neither blank nor line break. -/
def Solid (p : Option UInt8) : Prop := ¬ loose p = true

/-- As `Tally`, the last byte read being part of a word unless the delimiters
contain no line break. -/
def Tally' (delim : UInt8 → Bool) (text inp : Bytes) (line : Nat) : Prop :=
  ∃ a, text = a ++ inp ∧ line ≤ 1 + a.count 10 ∧
    (92 ∉ text → 1 + looseBreaks none a ≤ line ∧ (delim 10 = true → Solid (lastOf none a)))

theorem Tally'.forget {delim : UInt8 → Bool} {text inp : Bytes} {line : Nat} (h : Tally' delim text inp line) :
    Tally text inp line := by
  obtain ⟨a, e, h1, h2⟩ := h
  exact ⟨a, e, h1, fun hb => (h2 hb).1⟩

theorem tally_escaped {delim : UInt8 → Bool} {text inp : Bytes} {line : Nat} (h : Tally text inp line) (hb : 92 ∈ text) :
    Tally' delim text inp line := by
  obtain ⟨a, e, h1, _⟩ := h
  exact ⟨a, e, h1, fun h => absurd hb h⟩

theorem tally_mem {text inp : Bytes} {c : UInt8} {line : Nat} (h : Tally text (c :: inp) line) : c ∈ text := by
  obtain ⟨a, e, _⟩ := h
  rw [e]; simp

theorem not_loose {c : UInt8} (h : (isBlank c || isNewLine c) = false) : Solid (some c) := by
  simp only [Solid, loose]
  simp [isBlank, isNewLine] at h
  simp
  grind

theorem loop_tally {text : Bytes} (hcr : CrBeforeLf text) {delim : UInt8 → Bool} {eosDelim : Bool}
    (hd : delim 10 = true → ∀ c, (isBlank c || isNewLine c) = true → delim c = true) (inp buf : Bytes) (line : Nat) :
    Tally' delim text inp line →
      Tally text (readStringLoop delim eosDelim inp buf line).1.inp (readStringLoop delim eosDelim inp buf line).1.line := by
  fun_induction readStringLoop delim eosDelim inp buf line with
  | case1 => intro h; exact h.forget
  | case2 => intro h; exact h.forget
  | case3 => intro h; exact h.forget
  | case4 c r buf line hc =>
    intro h
    obtain ⟨a, e, h1, h2⟩ := h
    refine ⟨a ++ [c], by rw [e]; simp, ?_, fun hb => ?_⟩
    · rw [List.count_append]; show line ≤ _; omega
    · show _ ≤ line
      rw [looseBreaks_snoc, if_neg]
      · exact (h2 hb).1
      · intro h
        simp only [Bool.and_eq_true, beq_iff_eq] at h
        obtain ⟨rfl, hl⟩ := h
        exact (h2 hb).2 hc hl
  | case5 => intro h; exact h.forget
  | case6 => intro h; exact tally_byte h.forget (by decide)
  | case7 buf line e r' x hx _ _ ih =>
    intro h
    refine ih (tally_escaped (tally_byte (tally_byte h.forget (by decide)) ?_) (tally_mem h.forget))
    intro he; subst he; simp [escape] at hx
  | case8 buf line e _ _ _ _ ih =>
    intro h
    have := tally_newline hcr (tally_byte h.forget (by decide)) (by assumption)
    exact ih (tally_escaped this (tally_mem h.forget))
  | case9 buf line e c' r'' _ _ _ hp _ ih =>
    intro h
    have := tally_newline hcr (tally_byte h.forget (by decide)) (by assumption)
    simp only [afterNewline] at this
    rw [if_pos (by assumption)] at this
    exact ih (tally_escaped this (tally_mem h.forget))
  | case10 buf line e c' r'' _ _ _ hp _ ih =>
    intro h
    have := tally_newline hcr (tally_byte h.forget (by decide)) (by assumption)
    simp only [afterNewline] at this
    rw [if_neg (by assumption)] at this
    exact ih (tally_escaped this (tally_mem h.forget))
  | case11 buf line e r' _ _ he _ ih =>
    intro h
    have he : ¬ isNewLine e = true := by assumption
    refine ih (tally_escaped (tally_byte (tally_byte h.forget (by decide)) ?_) (tally_mem h.forget))
    intro h; subst h; simp [isNewLine] at he
  | case12 c r buf line hc hn h92 ih =>
    intro h
    refine ih ?_
    have h10 : c ≠ 10 := fun h => hn (.inl h)
    obtain ⟨a, e, h1, h2⟩ := h
    refine ⟨a ++ [c], by rw [e]; simp, ?_, fun hb => ⟨?_, fun hl => ?_⟩⟩
    · rw [List.count_append]; omega
    · rw [looseBreaks_snoc, if_neg (by simp [h10])]; exact (h2 hb).1
    · rw [lastOf_snoc]
      refine not_loose ?_
      cases hx : (isBlank c || isNewLine c) with
      | false => rfl
      | true => exact absurd (hd hl c hx) hc

theorem skipBlanks_head {t u : Bytes} {l l' : Nat} {c : UInt8} (h : skipBlanks t l = some (c :: u, l')) :
    isBlank c = false := by
  fun_induction skipBlanks t l with
  | case1 => cases h
  | case2 _ _ _ _ ih => exact ih h
  | case3 _ _ _ ih => exact ih h
  | case4 _ _ _ _ ih => exact ih h
  | case5 => cases h
  | case6 c r l hb hc => cases h; simpa using hb

/-- A scanner standing in `text`. -/
abbrev TallyAt (text : Bytes) (s : Scan) : Prop := Tally text s.inp s.line

theorem readString_tally {text : Bytes} (hcr : CrBeforeLf text) {s s' : Scan} {r : Except PErr Bytes}
    (h : TallyAt text s) (e : s.readString = .ok (s', r)) : TallyAt text s' := by
  simp only [Scan.readString, Scan.skipBlank] at e
  cases hs : skipBlanks s.inp s.line with
  | none => rw [hs] at e; simp [Res.bind] at e
  | some x =>
    obtain ⟨r1, l1⟩ := x
    have h1 := skipBlanks_tally _ _ _ _ h hs
    rw [hs] at e
    simp only [Res.bind_ok'] at e
    cases r1 with
    | nil => simp only [Res.ok.injEq, Prod.mk.injEq] at e; rw [← e.1]; exact h1
    | cons c u =>
      simp only at e
      split at e
      · rename_i hc
        simp only [Res.ok.injEq, Prod.mk.injEq] at e
        rw [← e.1]; exact tally_newline hcr h1 hc
      · rename_i hc
        split at e
        · rename_i hq
          subst hq
          simp only [Res.ok.injEq] at e
          have := loop_tally hcr (delim := (· == 34)) (eosDelim := false) (by simp) u s.buf l1
            (by
              obtain ⟨a, e, h2, h3⟩ := tally_byte h1 (by decide)
              exact ⟨a, e, h2, fun hb => ⟨h3 hb, by simp⟩⟩)
          simp only [Scan.readStringDelim, beq_self_eq_true, if_true] at e
          rw [e] at this
          exact this
        · split at e
          · rename_i hq
            subst hq
            simp only [Res.ok.injEq] at e
            have := loop_tally hcr (delim := (· == 39)) (eosDelim := false) (by simp) u s.buf l1
              (by
                obtain ⟨a, e, h2, h3⟩ := tally_byte h1 (by decide)
                exact ⟨a, e, h2, fun hb => ⟨h3 hb, by simp⟩⟩)
            simp only [Scan.readStringDelim, beq_self_eq_true, if_true] at e
            rw [e] at this
            exact this
          · simp only [Res.ok.injEq] at e
            have hsolid := skipBlanks_head hs
            have hdel : (isBlank c || isNewLine c) = false := by simp [hsolid, hc]
            have h2 : Tally text (readStringLoop (fun c => isBlank c || isNewLine c) true (c :: u) s.buf l1).1.inp
                (readStringLoop (fun c => isBlank c || isNewLine c) true (c :: u) s.buf l1).1.line := by
              by_cases h92 : c = 92
              · subst h92
                exact loop_tally hcr (fun _ c hc => hc) _ _ _ (tally_escaped h1 (tally_mem h1))
              · have h13 : ¬ (c = 10 ∨ c = 13) := by simpa [isNewLine] using hc
                rw [readStringLoop.eq_def]
                simp only [hdel, h13, h92, if_false, Bool.false_eq_true]
                refine loop_tally hcr (fun _ c hc => hc) _ _ _ ?_
                obtain ⟨a, e, h3, h4⟩ := h1
                refine ⟨a ++ [c], by rw [e]; simp, ?_, fun hb => ⟨?_, fun _ => ?_⟩⟩
                · rw [List.count_append]; omega
                · rw [looseBreaks_snoc, if_neg (by simp [show c ≠ 10 from fun h => h13 (.inl h)])]; exact h4 hb
                · rw [lastOf_snoc]; exact not_loose hdel
            simp only [Scan.readStringDelim, hdel, Bool.false_eq_true, if_false] at e
            rw [e] at h2
            exact h2

/-- A scanner method that keeps the tally. -/
def KeepsTally (text : Bytes) {α : Type} (x : SR α) : Prop := ∀ s' r, x = .ok (s', r) → TallyAt text s'

theorem readString_keepsTally {text : Bytes} (hcr : CrBeforeLf text) {s : Scan} (h : TallyAt text s) :
    KeepsTally text s.readString := fun _ _ e => readString_tally hcr h e

theorem keepsTally_ok {text : Bytes} {α : Type} {s : Scan} {r : Except PErr α} (h : TallyAt text s) :
    KeepsTally text (Res.ok (s, r)) := fun _ _ e => by cases e; exact h

theorem KeepsTally.then {text : Bytes} {α β : Type} {x : SR α} {f : α → Scan → SR β} (h : KeepsTally text x)
    (hf : ∀ a s, TallyAt text s → KeepsTally text (f a s)) : KeepsTally text (SR.andThen x f) := by
  intro s' r e
  cases x with
  | panic => cases e
  | fuel => cases e
  | ok y =>
    obtain ⟨s1, z⟩ := y
    have h1 := h _ _ rfl
    cases z with
    | ok z => exact hf z s1 h1 _ _ e
    | error z => cases e; exact h1

theorem readLetters_tally {text : Bytes} {l : Nat} (inp : Bytes) : Tally text inp l → Tally text (readLetters inp).2 l := by
  induction inp with
  | nil => exact id
  | cons c r ih =>
    intro h
    simp only [readLetters]
    split
    · rename_i hc
      exact ih (tally_byte h (by intro e; subst e; simp [isAlphabet] at hc))
    · exact h

theorem skipLines_tally {text : Bytes} (hcr : CrBeforeLf text) (inp : Bytes) (l : Nat) :
    Tally text inp l → Tally text (skipLines inp l).1 (skipLines inp l).2 := by
  fun_induction skipLines inp l with
  | case1 => exact id
  | case2 l c hc => exact fun h => tally_newline hcr h hc
  | case3 c l hc c' r' hp ih =>
    intro h
    have := tally_newline hcr h (by assumption)
    simp only [afterNewline] at this
    rw [if_pos (by assumption)] at this
    exact ih this
  | case4 c l hc c' r' hp ih =>
    intro h
    have := tally_newline hcr h (by assumption)
    simp only [afterNewline] at this
    rw [if_neg (by assumption)] at this
    exact ih this
  | case5 c r l hn hb ih =>
    intro h
    exact ih (tally_byte h (by intro e; subst e; simp [isNewLine] at hn))
  | case6 => exact id

theorem readDirective'_tally {text : Bytes} (hcr : CrBeforeLf text) (hi : Rune → Rune) {s s' : Scan} {r : Except PErr PDir}
    (h : TallyAt text s) (e : s.readDirective' hi = .ok (s', r)) : TallyAt text s' := by
  have hw : TallyAt text s.readWord.1 := by
    simp only [Scan.readWord]
    split
    · exact h
    · exact readLetters_tally _ h
  simp only [Scan.readDirective'] at e
  generalize s.readWord = w at hw e
  obtain ⟨s1, word⟩ := w
  simp only at hw e
  split at e
  · cases e; exact hw
  · refine KeepsTally.then (KeepsTally.then (readString_keepsTally hcr hw) fun x s2 h2 => ?_) (fun x s2 h2 => ?_) _ _ e
    · intro s' r e
      split at e
      · cases e; exact h2
      · cases hm : splitMulti x [44, 124] with
        | panic => rw [hm] at e; cases e
        | fuel => rw [hm] at e; cases e
        | ok y => rw [hm] at e; cases e; exact h2
    · refine KeepsTally.then (KeepsTally.then (readString_keepsTally hcr h2) fun _ _ h => keepsTally_ok h) fun x s3 h3 => ?_
      exact KeepsTally.then (KeepsTally.then (readString_keepsTally hcr h3) fun _ _ h => keepsTally_ok h)
        fun _ _ h => keepsTally_ok h
  all_goals
    exact KeepsTally.then (readString_keepsTally hcr hw) (fun _ _ h => keepsTally_ok h) _ _ e

theorem readDirective_tally {text : Bytes} (hcr : CrBeforeLf text) (hi : Rune → Rune) {s s' : Scan} {r : Except PErr PDir}
    (h : TallyAt text s) (e : s.readDirective hi = .ok (s', r)) : TallyAt text s' := by
  have h1 := skipLines_tally hcr _ _ h
  simp only [Scan.readDirective] at e
  generalize skipLines s.inp s.line = x at h1 e
  obtain ⟨t, l⟩ := x
  simp only at h1 e
  cases t with
  | nil => cases e; exact h1
  | cons c u =>
    cases hd : Scan.readDirective' hi { s with bos := false, inp := c :: u, line := l } with
    | panic => rw [hd] at e; cases e
    | fuel => rw [hd] at e; cases e
    | ok y =>
      obtain ⟨s1, z⟩ := y
      have h2 := readDirective'_tally hcr hi (s := { s with bos := false, inp := c :: u, line := l }) h1 hd
      rw [hd] at e
      simp only [Res.bind_ok'] at e
      split at e <;> · cases e; first | exact h2 | (rename_i hx; cases hx; exact h2)

theorem allDirective_tally {text : Bytes} (hcr : CrBeforeLf text) (hi : Rune → Rune) : ∀ (n : Nat) (s s' : Scan)
    (r : Except PErr (List PDir)), TallyAt text s → allDirectiveFuel hi n s = .ok (s', r) → TallyAt text s' := by
  intro n
  induction n with
  | zero => intro s s' r _ e; cases e
  | succ n ih =>
    intro s s' r h e
    simp only [allDirectiveFuel] at e
    cases hd : s.readDirective hi with
    | panic => rw [hd] at e; cases e
    | fuel => rw [hd] at e; cases e
    | ok y =>
      obtain ⟨s1, z⟩ := y
      have h1 := readDirective_tally hcr hi h hd
      rw [hd] at e
      simp only [Res.bind_ok'] at e
      cases z with
      | error er => cases er <;> · cases e; exact h1
      | ok d =>
        simp only [SR.andThen] at e
        cases ha : allDirectiveFuel hi n s1 with
        | panic => rw [ha] at e; cases e
        | fuel => rw [ha] at e; cases e
        | ok y =>
          obtain ⟨s2, w⟩ := y
          have h2 := ih _ _ _ h1 ha
          rw [ha] at e
          simp only [Res.bind_ok'] at e
          cases w <;> · cases e; exact h2

/-! ### The property -/

/-- C96, never ahead.  After any run over a text whose '\r' bytes occur only
before '\n', the scanner has read a prefix of the text and its line number is
at most one more than the number of line breaks in it. -/
theorem C96_never_ahead_partial (hi : Rune → Rune) {text : Bytes} (hcr : CrBeforeLf text) {s : Scan}
    {r : Except PErr (List PDir)} (h : (newScanner text).allDirective hi = .ok (s, r)) :
    ∃ read, text = read ++ s.inp ∧ s.line ≤ 1 + read.count 10 := by
  obtain ⟨a, e, h1, _⟩ := allDirective_tally hcr hi _ _ _ _ ⟨[], rfl, by simp [newScanner], fun _ => by simp [newScanner, looseBreaks]⟩ h
  exact ⟨a, e, h1⟩

/-- C96, what is counted.  In a text without backslashes every '\n' after a
blank, a '\r' or another '\n' is counted. -/
theorem C96_counted_partial (hi : Rune → Rune) {text : Bytes} (hcr : CrBeforeLf text) (hb : 92 ∉ text) {s : Scan}
    {r : Except PErr (List PDir)} (h : (newScanner text).allDirective hi = .ok (s, r)) :
    ∃ read, text = read ++ s.inp ∧ 1 + looseBreaks none read ≤ s.line ∧ s.line ≤ 1 + read.count 10 := by
  obtain ⟨a, e, h1, h2⟩ := allDirective_tally hcr hi _ _ _ _ ⟨[], rfl, by simp [newScanner], fun _ => by simp [newScanner, looseBreaks]⟩ h
  exact ⟨a, e, h2 hb, h1⟩

theorem looseBreaks_all : ∀ (a : Bytes) (p : Option UInt8) (pre : Bytes),
    (∀ u v, pre ++ a = u ++ 10 :: v → loose (lastOf none u) = true) → p = lastOf none pre →
    looseBreaks p a = a.count 10
  | [], _, _, _, _ => rfl
  | c :: a, p, pre, h, hp => by
    have ih := looseBreaks_all a (some c) (pre ++ [c]) (fun u v e => h u v (by rw [← e]; simp)) (lastOf_snoc _ _ _).symm
    simp only [looseBreaks, ih, List.count_cons]
    by_cases hc : c = 10
    · subst hc
      have := h pre a rfl
      rw [hp, this]; simp; omega
    · simp [hc]

/-- C96, where it is right.  In a text without backslashes in which every line
break comes as "\r\n", or follows a blank or another line break, the line
number is exact. -/
theorem C96_exact_partial (hi : Rune → Rune) {text : Bytes} (hcr : CrBeforeLf text) (hb : 92 ∉ text)
    (hl : ∀ u v, text = u ++ 10 :: v → loose (lastOf none u) = true) {s : Scan}
    {r : Except PErr (List PDir)} (h : (newScanner text).allDirective hi = .ok (s, r)) :
    ∃ read, text = read ++ s.inp ∧ s.line = 1 + read.count 10 := by
  obtain ⟨a, e, h1, h2⟩ := C96_counted_partial hi hcr hb h
  refine ⟨a, e, ?_⟩
  rw [looseBreaks_all a none [] (fun u v e1 => hl u (v ++ s.inp) (by rw [e]; simp only [List.nil_append] at e1; rw [e1]; simp)) rfl] at h1
  omega

/-- `n` lines switching the engine on, and a word that is no directive. -/
def driftText (n : Nat) : Bytes := (List.replicate n b!"SecRuleEngine On\n").flatten ++ b!"X"

theorem drift_string (t : Bytes) (l : Nat) (b : Bool) :
   Scan.readString { bos := b, inp := b!" On\n" ++ t, buf := [], line := l } = .ok ({ bos := false, inp := t, buf := [], line := l }, .ok b!"On") := by
  simp [Scan.readString, Scan.skipBlank, skipBlanks, isBlank, isNewLine, Scan.readStringDelim, Res.bind]
  repeat (rw [readStringLoop.eq_def]; simp)

theorem drift_line (hi : Rune → Rune) (b : Bool) (t : Bytes) (l : Nat) :
    Scan.readDirective hi { bos := b, inp := b!"SecRuleEngine On\n" ++ t, buf := [], line := l } =
      .ok ({ bos := false, inp := t, buf := [], line := l }, .ok (.ruleEng 1)) := by
  have h1 : skipLines (b!"SecRuleEngine On\n" ++ t) l = (b!"SecRuleEngine On\n" ++ t, l) := by
    simp [skipLines, isNewLine, isBlank]
  have h2 : readLetters (b!"SecRuleEngine On\n" ++ t) = (b!"SecRuleEngine", b!" On\n" ++ t) := by
    simp [readLetters, isAlphabet]
  have h3 : toLower hi b!"SecRuleEngine" = b!"secruleengine" := by
    rw [toLower_letters hi (by simp [Letter])]; decide
  simp only [Scan.readDirective, h1]
  show (Scan.readDirective' hi { bos := false, inp := b!"SecRuleEngine On\n" ++ t, buf := [], line := l }).bind _ = _
  simp only [Scan.readDirective', Scan.readWord, h2, Bool.false_eq_true, if_false, List.nil_append, h3]
  rw [show dirIndex.lookup b!"secruleengine" = some .ruleEng by decide]
  simp only [Scan.readTri, SR.andThen, drift_string, Res.bind_ok']
  rfl
theorem drift_run (hi : Rune → Rune) : ∀ (n m : Nat) (b : Bool) (l : Nat), n < m →
    allDirectiveFuel hi m { bos := b, inp := driftText n, buf := [], line := l } =
      .ok ({ bos := false, inp := [], buf := [], line := l }, .error .notDirective)
  | 0, m, b, l, hm => by
    obtain ⟨m, rfl⟩ : ∃ k, m = k + 1 := ⟨m - 1, by omega⟩
    cases b <;> rfl
  | n + 1, m, b, l, hm => by
    obtain ⟨m, rfl⟩ : ∃ k, m = k + 1 := ⟨m - 1, by omega⟩
    have e : driftText (n + 1) = b!"SecRuleEngine On\n" ++ driftText n := by
      simp only [driftText, List.replicate_succ, List.flatten_cons, List.append_assoc]
    rw [e, allDirectiveFuel, drift_line]
    simp only [Res.bind_ok', SR.andThen, drift_run hi n m false l (by omega)]

theorem driftText_length (n : Nat) : n < (driftText n).length + 1 := by
  induction n with
  | zero => simp
  | succ n ih =>
    have : (driftText (n + 1)).length = 17 + (driftText n).length := by
      simp only [driftText, List.replicate_succ, List.flatten_cons, List.append_assoc]
      rw [List.length_append]
      rfl
    omega

/-- C96, the number falls behind without bound: the wrong word stands on line
`n + 1`, the scanner reports line 1. -/
theorem C96_drift (hi : Rune → Rune) (n : Nat) : (driftText n).count 10 = n ∧
    (newScanner (driftText n)).allDirective hi =
      .ok ({ bos := false, inp := [], buf := [], line := 1 }, .error .notDirective) := by
  constructor
  · induction n with
    | zero => decide
    | succ n ih =>
      simp only [driftText, List.replicate_succ, List.flatten_cons, List.append_assoc]
      rw [List.count_append]
      show _ + (driftText n).count 10 = _
      rw [ih]
      have : List.count 10 b!"SecRuleEngine On\n" = 1 := by decide +kernel
      omega
  · exact drift_run hi n _ true 1 (driftText_length n)

/-- C96 fails. -/
theorem C96_refuted : ¬ C96_statement := by
  intro h
  obtain ⟨h1, h2⟩ := C96_drift id 1
  obtain ⟨read, e, h3⟩ := h id (driftText 1) _ _ (by
    intro a b e
    have : (13 : UInt8) ∈ driftText 1 := by rw [e]; simp
    exact absurd this (by decide +kernel)) h2
  simp only [List.append_nil] at e
  rw [← e, h1] at h3
  exact absurd h3 (by decide)

/-- The same file with "\r\n" line breaks: exact, an error on line 3. -/
example : (newScanner b!"SecRuleEngine On\r\n\r\nX").allDirective id =
    .ok ({ bos := false, inp := [], buf := [], line := 3 }, .error .notDirective) := by decide +kernel
/-- A blank before the line break repairs it. -/
example : (newScanner b!"SecRuleEngine On \nX").allDirective id =
    .ok ({ bos := false, inp := [], buf := [], line := 2 }, .error .notDirective) := by decide +kernel
/-- A quoted argument before the line break as well. -/
example : (newScanner b!"SecRule ARGS \"@rx a\" \"id:1\"\nX").allDirective id =
    .ok ({ bos := false, inp := [], buf := [], line := 2 }, .error .notDirective) := by decide +kernel

end Verif
