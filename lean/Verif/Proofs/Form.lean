import Verif.Model.Form
import Verif.Spec.Form
import Verif.Proofs.Media
import Verif.Proofs.Parser
import Verif.Props.HeaderCase
import Verif.Props.Media
/-! `ReadForm` on the text of a form. -/
namespace Verif
open Spec

/-! ### Lines -/

theorem dropWhile_append_stop {p : UInt8 → Bool} {s t : Bytes} (hs : ∀ c ∈ s, p c = true) (ht : ∀ c ∈ t.head?, p c = false) :
    (s ++ t).dropWhile p = t := (takeWhile_stop hs ht).2

theorem readSlice_line {line rest : Bytes} (h : 10 ∉ line) : readSlice (line ++ 10 :: rest) = some (line ++ [10], rest) := by
  obtain ⟨h1, h2⟩ := takeWhile_stop (p := (· != 10)) (s := line) (t := 10 :: rest)
    (fun c hc => by simpa using fun e : c = 10 => h (e ▸ hc)) (fun c hc => by cases hc; rfl)
  simp only [readSlice, h1, h2]

theorem readSlice_open {line : Bytes} (h : 10 ∉ line) : readSlice line = none := by
  have h2 := (takeWhile_stop (p := (· != 10)) (s := line) (t := [])
    (fun c hc => by simpa using fun e : c = 10 => h (e ▸ hc)) (fun c hc => by cases hc)).2
  rw [List.append_nil] at h2
  simp only [readSlice, h2]

theorem afterPrefix_append (p s : Bytes) : afterPrefix p (p ++ s) = some s := by
  simp [afterPrefix, List.isPrefixOf_iff_prefix]

theorem afterPrefix_none {p s : Bytes} (h : ¬ p <+: s) : afterPrefix p s = none := by
  simp [afterPrefix, List.isPrefixOf_iff_prefix, h]

theorem isLWSP_iff (c : UInt8) : isLWSP c = true ↔ c = 32 ∨ c = 9 := by simp [isLWSP]

theorem isLWSP_false {c : UInt8} (h : c ≠ 32 ∧ c ≠ 9) : isLWSP c = false := by simpa [isLWSP] using h

theorem skipLWSP_solid {s : Bytes} (h : ∀ c ∈ s.head?, c ≠ 32 ∧ c ≠ 9) : skipLWSP s = s := by
  cases s with
  | nil => rfl
  | cons c r => simp only [skipLWSP, List.dropWhile_cons, isLWSP_false (h c (by simp)), Bool.false_eq_true, if_false]

theorem skipLWSP_gap {w s : Bytes} (hw : Blanks w) : skipLWSP (w ++ s) = skipLWSP s := by
  induction w with
  | nil => rfl
  | cons c w ih =>
    have : isLWSP c = true := (isLWSP_iff c).2 (hw c List.mem_cons_self)
    simp only [skipLWSP, List.cons_append, List.dropWhile_cons, this, if_true]
    exact ih fun d hd => hw d (List.mem_cons_of_mem _ hd)

/-! ### Delimiters -/

section
variable {bnd : Bytes}

theorem dashed_head (s : Bytes) : dashed bnd ++ s = 45 :: 45 :: (bnd ++ s) := rfl

theorem delimiter_line (first : Bool) : delimiterLine bnd [13, 10] first (dashed bnd ++ [13, 10]) = some [13, 10] := by
  simp only [delimiterLine, afterPrefix_append]
  cases first <;> rfl

theorem not_delimiter {nl : Bytes} (hnl : nl = [13, 10]) (first : Bool) {r : Bytes} : delimiterLine bnd nl first (dashed bnd ++ 45 :: r) = none := by
  subst hnl
  simp only [delimiterLine, afterPrefix_append]
  have : skipLWSP (45 :: r) = 45 :: r := rfl
  simp [this]

/-- The delimiter line of the first part. -/
theorem nextPart_first (hb : Boundary bnd) (hs : bnd.length + 4 ≤ 4096) (n : Nat) (e first : Bool) (rest : Bytes) :
    nextPart bnd [13, 10] first (n + 1) e (dashed bnd ++ 13 :: 10 :: rest) = .part [13, 10] rest := by
  have hl : (10 : UInt8) ∉ dashed bnd ++ [13] := by
    simp only [dashed, List.cons_append, List.mem_cons, List.mem_append, List.not_mem_nil, or_false, not_or]
    exact ⟨by decide, by decide, fun h => (hb.2 _ h).2 rfl, by decide⟩
  have e1 : dashed bnd ++ 13 :: 10 :: rest = (dashed bnd ++ [13]) ++ 10 :: rest := by simp
  have e2 : (dashed bnd ++ [13]) ++ [10] = dashed bnd ++ [13, 10] := by simp
  rw [nextPart, e1, readSlice_line hl, e2]
  have hl' : ¬ 4096 < (dashed bnd ++ [13, 10]).length := by simp [dashed]; omega
  simp only [delimiter_line, hl', if_false]

theorem nl_no_delimiter (first : Bool) : delimiterLine bnd [13, 10] first [13, 10] = none := by
  rw [delimiterLine, afterPrefix_none]
  rintro ⟨t, ht⟩
  simp [dashed] at ht

theorem nl_not_final : isFinalBoundary bnd [13, 10] [13, 10] = false := by
  rw [isFinalBoundary, afterPrefix_none]
  rintro ⟨t, ht⟩
  simp [dashed] at ht

/-- The line end before a delimiter. -/
theorem nextPart_nl (n : Nat) (rest : Bytes) : nextPart bnd [13, 10] false (n + 1) false (13 :: 10 :: rest) = nextPart bnd [13, 10] false n true rest := by
  have : readSlice (13 :: 10 :: rest) = some ([13, 10], rest) := readSlice_line (line := [13]) (by decide)
  rw [nextPart, this]
  simp only [nl_no_delimiter, nl_not_final, Bool.false_eq_true, if_false, if_true, show ¬ 4096 < [(13 : UInt8), 10].length by decide]

theorem no_lf (hb : Boundary bnd) {s : Bytes} (hs : (10 : UInt8) ∉ s) : (10 : UInt8) ∉ dashed bnd ++ s := by
  simp only [dashed, List.cons_append, List.mem_cons, List.mem_append, not_or]
  exact ⟨by decide, by decide, fun h => (hb.2 _ h).2 rfl, hs⟩

theorem blanks_lf {w : Bytes} (hw : Blanks w) : (10 : UInt8) ∉ w := fun h => by rcases hw _ h with h | h <;> cases h

/-- The last delimiter, its line being ended. -/
theorem nextPart_last (hb : Boundary bnd) {w : Bytes} (hw : Blanks w) (hs : bnd.length + 6 + w.length ≤ 4096) (n : Nat) (e first : Bool) (rest : Bytes) :
    nextPart bnd [13, 10] first (n + 1) e (dashed bnd ++ 45 :: 45 :: (w ++ 13 :: 10 :: rest)) = .last := by
  have e1 : dashed bnd ++ 45 :: 45 :: (w ++ 13 :: 10 :: rest) = (dashed bnd ++ (45 :: 45 :: (w ++ [13]))) ++ 10 :: rest := by simp
  have e2 : (dashed bnd ++ (45 :: 45 :: (w ++ [13]))) ++ [10] = (dashed bnd ++ [45, 45]) ++ (w ++ [13, 10]) := by simp
  have e3 : (dashed bnd ++ [45, 45]) ++ (w ++ [13, 10]) = dashed bnd ++ 45 :: (45 :: (w ++ [13, 10])) := by simp
  have hd : delimiterLine bnd [13, 10] first ((dashed bnd ++ [45, 45]) ++ (w ++ [13, 10])) = none := by rw [e3]; exact not_delimiter rfl first
  have hf : isFinalBoundary bnd [13, 10] ((dashed bnd ++ [45, 45]) ++ (w ++ [13, 10])) = true := by
    simp only [isFinalBoundary, afterPrefix_append, skipLWSP_gap hw]; rfl
  have hl : (10 : UInt8) ∉ 45 :: 45 :: (w ++ [13]) := by simp [blanks_lf hw]
  have hl' : ¬ 4096 < ((dashed bnd ++ [45, 45]) ++ (w ++ [13, 10])).length := by simp [dashed]; omega
  rw [nextPart, e1, readSlice_line (no_lf hb hl), e2]
  simp only [hd, hf, hl', if_true, if_false]

/-- The last delimiter at the end of the bytes. -/
theorem nextPart_open (hb : Boundary bnd) {w : Bytes} (hw : Blanks w) (hs : bnd.length + 4 + w.length < 4096) (n : Nat) (e first : Bool) :
    nextPart bnd [13, 10] first (n + 1) e (dashed bnd ++ 45 :: 45 :: w) = .more (bnd.length + 4 + w.length) := by
  have hl : (10 : UInt8) ∉ 45 :: 45 :: w := by simp [blanks_lf hw]
  have e : (dashed bnd ++ 45 :: 45 :: w).length = bnd.length + 4 + w.length := by simp [dashed]; omega
  rw [nextPart, readSlice_open (no_lf hb hl)]
  simp only [e, hs, if_true]

/-- The last delimiter, another one following on the same line. -/
theorem nextPart_twice (hb : Boundary bnd) {w : Bytes} (hw : Blanks w) (hs : bnd.length + 4 + w.length + (bnd.length + 4) ≤ 4096) (n : Nat) (first : Bool) (rest : Bytes) :
    nextPart bnd [13, 10] first (n + 1) true (dashed bnd ++ 45 :: 45 :: (w ++ (dashed bnd ++ 13 :: 10 :: rest))) =
      .failed (.expecting ((dashed bnd ++ [45, 45]) ++ (w ++ (dashed bnd ++ [13, 10])))) := by
  have e1 : dashed bnd ++ 45 :: 45 :: (w ++ (dashed bnd ++ 13 :: 10 :: rest)) = (dashed bnd ++ 45 :: 45 :: (w ++ (dashed bnd ++ [13]))) ++ 10 :: rest := by simp
  have e2 : (dashed bnd ++ 45 :: 45 :: (w ++ (dashed bnd ++ [13]))) ++ [10] = (dashed bnd ++ [45, 45]) ++ (w ++ (dashed bnd ++ [13, 10])) := by simp
  have e3 : (dashed bnd ++ [45, 45]) ++ (w ++ (dashed bnd ++ [13, 10])) = dashed bnd ++ 45 :: (45 :: (w ++ (dashed bnd ++ [13, 10]))) := by simp
  have hd : delimiterLine bnd [13, 10] first ((dashed bnd ++ [45, 45]) ++ (w ++ (dashed bnd ++ [13, 10]))) = none := by rw [e3]; exact not_delimiter rfl first
  have hf : isFinalBoundary bnd [13, 10] ((dashed bnd ++ [45, 45]) ++ (w ++ (dashed bnd ++ [13, 10]))) = false := by
    have : skipLWSP (dashed bnd ++ [13, 10]) = dashed bnd ++ [13, 10] := rfl
    simp only [isFinalBoundary, afterPrefix_append, skipLWSP_gap hw, this]
    simp [dashed]
  have hl : (10 : UInt8) ∉ 45 :: 45 :: (w ++ (dashed bnd ++ [13])) := by
    have := no_lf hb (s := [13]) (by decide)
    simp only [List.mem_cons, List.mem_append (s := w), not_or]
    exact ⟨by decide, by decide, blanks_lf hw, this⟩
  have hl' : ¬ 4096 < ((dashed bnd ++ [45, 45]) ++ (w ++ (dashed bnd ++ [13, 10]))).length := by simp [dashed]; omega
  rw [nextPart, e1, readSlice_line (no_lf hb hl), e2]
  simp only [hd, hf, hl', Bool.false_eq_true, if_false, if_true]

/-! ### The content of a part -/

theorem cutAt_first {s content rest : Bytes} (hs : (13 : UInt8) ∉ s) (h : ¬ (13 :: s) <:+: content) :
    cutAt (13 :: s) (content ++ 13 :: s ++ rest) = some (content, rest) := by
  induction content with
  | nil =>
    simp only [List.nil_append, List.cons_append, cutAt]
    rw [if_pos (by simp [List.isPrefixOf_iff_prefix])]
    simp
  | cons c r ih =>
    have hn : ¬ (13 :: s).isPrefixOf (c :: (r ++ 13 :: s ++ rest)) = true := by
      rw [List.isPrefixOf_iff_prefix, List.cons_prefix_cons]
      rintro ⟨rfl, hp⟩
      by_cases hl : s.length ≤ r.length
      · rw [List.append_assoc] at hp
        have := List.prefix_of_prefix_length_le hp (List.prefix_append _ _) hl
        exact h ⟨[], r.drop s.length, by rw [List.nil_append, List.cons_append, List.prefix_iff_eq_append.1 this]⟩
      · obtain ⟨z, hz⟩ := hp
        have : (s ++ z)[r.length]? = some 13 := by rw [hz]; simp
        rw [List.getElem?_append_left (by omega)] at this
        exact hs (List.mem_of_getElem? this)
    simp only [List.cons_append, cutAt] at ih ⊢
    rw [if_neg (by simpa using hn), ih fun hi => h (hi.trans (List.infix_cons (List.infix_refl r)))]
    rfl

theorem endsBoundary_mem {c : UInt8} : endsBoundary c = true ↔ c ∈ b!" \t\r\n-" := by
  simp [endsBoundary, isLWSP]
  grind

/-- Content in which no delimiter begins does not end, if a line end follows. -/
theorem Spec.NoDelimiter.notEnded (hb : Boundary bnd) {v : Bytes} (h : NoDelimiter bnd v) : NotEnded bnd v := by
  rintro c hc ⟨x, y, e⟩
  have hs : (13 : UInt8) ∉ 10 :: dashed bnd := by
    simp only [dashed, List.mem_cons, not_or]
    exact ⟨by decide, by decide, by decide, fun h => (hb.2 _ h).1 rfl⟩
  have e : x ++ (13 :: 10 :: dashed bnd ++ [c]) ++ y = 13 :: 10 :: v ++ [13] := e
  refine h ?_
  show (13 :: 10 :: dashed bnd) <:+: 13 :: 10 :: v
  rcases List.eq_nil_or_concat y with rfl | ⟨y, z, rfl⟩
  · rw [List.append_nil, ← List.append_assoc] at e
    exact ⟨x, [], by rw [List.append_nil]; exact (List.append_inj' e rfl).1⟩
  · rw [List.concat_eq_append, ← List.append_assoc, ← List.append_assoc] at e
    exact ⟨x, [c] ++ y, by rw [← (List.append_inj' e rfl).1]; simp⟩

theorem first_infix {d : Bytes} (hd : d ≠ []) (n : Nat) : ∀ {a b : Bytes}, a.length ≤ n → ∃ a' b', a ++ d ++ b = a' ++ d ++ b' ∧ ¬ d <:+: a' ∧ a'.length ≤ a.length := by
  induction n with
  | zero =>
    intro a b h
    have : a = [] := List.length_eq_zero_iff.1 (by omega)
    subst this
    exact ⟨[], b, rfl, fun h => hd (List.infix_nil.1 h), Nat.le_refl _⟩
  | succ n ih =>
    intro a b h
    by_cases hi : d <:+: a
    · obtain ⟨x, y, rfl⟩ := hi
      have hpos := List.length_pos_iff.2 hd
      obtain ⟨a', b', h1, h2, h3⟩ := ih (a := x) (b := y ++ d ++ b) (by simp only [List.length_append] at h; omega)
      exact ⟨a', b', by rw [← h1]; simp, h2, by simp only [List.length_append]; omega⟩
    · exact ⟨a, b, rfl, hi, Nat.le_refl _⟩

/-- The rest of a body ends at the first delimiter that goes on as one does. -/
theorem partRest_content {s : Bytes} (hs : (13 : UInt8) ∉ s) {c : UInt8} (he : endsBoundary c = true) (rest : Bytes) (n : Nat) : ∀ {v : Bytes}, v.length < n →
    (∀ e, endsBoundary e = true → ¬ (13 :: s ++ [e]) <:+: v ++ [13]) →
    partRest (13 :: s) n (v ++ 13 :: s ++ c :: rest) = .ends v (13 :: s ++ c :: rest) := by
  induction n with
  | zero => intro v h; omega
  | succ n ih =>
    intro v hlen h
    by_cases hi : (13 :: s) <:+: v
    · obtain ⟨x, y, rfl⟩ := hi
      obtain ⟨a, b, h1, h2, _⟩ := first_infix (d := 13 :: s) (by simp) x.length (a := x) (b := y) (Nat.le_refl _)
      rw [h1] at h hlen ⊢
      have e1 : a ++ 13 :: s ++ b ++ 13 :: s ++ c :: rest = a ++ 13 :: s ++ (b ++ 13 :: s ++ c :: rest) := by simp
      rw [e1]
      simp only [partRest, cutAt_first hs h2]
      cases b with
      | nil => exact absurd ⟨a, [], by simp⟩ (h 13 rfl)
      | cons e b =>
        have hne : ¬ endsBoundary e = true := fun he => h e he ⟨a, b ++ [13], by simp⟩
        have := ih (v := e :: b) (by simp only [List.length_append, List.length_cons] at hlen ⊢; omega) fun e' he' hi => h e' he' (hi.trans ⟨a ++ 13 :: s, [], by simp⟩)
        rw [this]
        simp only [List.cons_append, if_neg hne, PartText.after]
    · simp only [partRest, cutAt_first hs hi, he, if_true]

theorem partBody_content (hb : Boundary bnd) {content : Bytes} (hc : NotEnded bnd content) {c : UInt8} (he : endsBoundary c = true) (rest : Bytes) :
    partBody bnd [13, 10] (content ++ 13 :: 10 :: (dashed bnd ++ c :: rest)) = .ends content (13 :: 10 :: (dashed bnd ++ c :: rest)) := by
  have hs : (13 : UInt8) ∉ 10 :: dashed bnd := by
    simp only [dashed, List.mem_cons, not_or]
    exact ⟨by decide, by decide, by decide, fun h => (hb.2 _ h).1 rfl⟩
  have hc' : ∀ e, endsBoundary e = true → ¬ (13 :: (10 :: dashed bnd) ++ [e]) <:+: 13 :: 10 :: (content ++ [13]) := fun e he => hc e (endsBoundary_mem.1 he)
  have e : content ++ 13 :: 10 :: (dashed bnd ++ c :: rest) = content ++ 13 :: (10 :: dashed bnd) ++ c :: rest := by simp
  have e' : [13, 10] ++ dashed bnd = 13 :: 10 :: dashed bnd := rfl
  have hq : ¬ (content ++ 13 :: 10 :: (dashed bnd ++ c :: rest)).isPrefixOf (dashed bnd) = true := by
    rw [List.isPrefixOf_iff_prefix]
    intro h
    exact hs (List.mem_cons_of_mem _ (h.subset (by simp)))
  by_cases hp : dashed bnd <+: content
  · obtain ⟨z, rfl⟩ := hp
    have ha : afterPrefix (dashed bnd) (dashed bnd ++ z ++ 13 :: 10 :: (dashed bnd ++ c :: rest)) = some (z ++ 13 :: 10 :: (dashed bnd ++ c :: rest)) := by
      rw [afterPrefix, if_pos (by rw [List.isPrefixOf_iff_prefix, List.append_assoc]; exact List.prefix_append _ _), List.append_assoc, List.drop_left]
    have hz := partRest_content (s := 10 :: dashed bnd) hs he rest ((dashed bnd ++ z ++ 13 :: 10 :: (dashed bnd ++ c :: rest)).length + 1) (v := z)
      (by simp only [List.length_append]; omega) fun e he hi => hc' e he (hi.trans ⟨13 :: 10 :: dashed bnd, [], by simp⟩)
    have e2 : z ++ 13 :: (10 :: dashed bnd) ++ c :: rest = z ++ 13 :: 10 :: (dashed bnd ++ c :: rest) := by simp
    rw [e2] at hz
    rw [partBody, ha, e']
    cases z with
    | nil => exact absurd ⟨[], [], by simp⟩ (hc' 13 rfl)
    | cons x z =>
      have hne : ¬ endsBoundary x = true := fun hx => hc' x hx ⟨[], z ++ [13], by simp⟩
      simp only [List.cons_append] at hz ⊢
      simp only [if_neg hne, hz, PartText.after]
  · have hp' : ¬ dashed bnd <+: content ++ 13 :: 10 :: (dashed bnd ++ c :: rest) := by
      intro h
      by_cases hl : (dashed bnd).length ≤ content.length
      · exact hp (List.prefix_of_prefix_length_le h (List.prefix_append _ _) hl)
      · obtain ⟨z, hz⟩ := h
        have : (dashed bnd ++ z)[content.length]? = some 13 := by rw [hz]; simp
        rw [List.getElem?_append_left (by omega)] at this
        exact hs (List.mem_cons_of_mem _ (List.mem_of_getElem? this))
    rw [partBody, afterPrefix_none hp']
    simp only [if_neg hq]
    rw [e', e]
    exact partRest_content hs he rest _ (by simp only [List.length_append]; omega) fun e he hi => hc' e he (hi.trans ⟨[13, 10], [], by simp⟩)

/-! ### The header of a part -/

theorem fieldChar_plain {c : UInt8} (h : FieldChar c) : c ≠ 32 ∧ c ≠ 9 ∧ c ≠ 13 ∧ c ≠ 10 ∧ c ≠ 58 := by
  obtain ⟨h1, _, h2⟩ := h
  refine ⟨?_, ?_, ?_, ?_, ?_⟩ <;> rintro rfl <;> first | (revert h1; decide) | (revert h2; decide)

theorem readLine_crlf {line rest : Bytes} (h : 10 ∉ line) : readLine (line ++ 13 :: 10 :: rest) = some (line, rest) := by
  have e : line ++ 13 :: 10 :: rest = (line ++ [13]) ++ 10 :: rest := by simp
  have hl : (10 : UInt8) ∉ line ++ [13] := by simp [h]
  have e2 : line ++ [13] ++ [10] = line ++ [13, 10] := by simp
  rw [readLine, e, readSlice_line hl, e2]
  simp only [Option.map_some]
  rw [if_pos (by simp [List.isSuffixOf_iff_suffix])]
  congr 2
  rw [show line ++ [13, 10] = (line ++ [13]) ++ [10] by simp, List.dropLast_concat, List.dropLast_concat]

/-- Without blanks at the end. -/
def chop (s : Bytes) : Bytes := (s.reverse.dropWhile isLWSP).reverse

theorem chop_gap {s w : Bytes} (hw : Blanks w) : chop (s ++ w) = chop s := by
  have := skipLWSP_gap (w := w.reverse) (s := s.reverse) (fun c hc => hw c (List.mem_reverse.1 hc))
  simp only [skipLWSP] at this
  rw [chop, List.reverse_append, this, chop]

theorem chop_solid {s : Bytes} (h : ∀ c ∈ s.getLast?, c ≠ 32 ∧ c ≠ 9) : chop s = s := by
  have := skipLWSP_solid (s := s.reverse) (by rwa [List.head?_reverse])
  simp only [skipLWSP] at this
  rw [chop, this, List.reverse_reverse]

theorem chop_cons (a : Bytes) {c : UInt8} (hc : c ≠ 32 ∧ c ≠ 9) (y : Bytes) : chop (a ++ c :: y) = a ++ c :: chop y := by
  obtain ⟨p, q, hq⟩ : ∃ p q, y = p ++ q ∧ Blanks q ∧ chop y = p := by
    refine ⟨chop y, (y.reverse.takeWhile isLWSP).reverse, ?_, ?_, rfl⟩
    · rw [chop, ← List.reverse_append, List.takeWhile_append_dropWhile, List.reverse_reverse]
    · intro d hd
      exact (isLWSP_iff d).1 (by
        have h := List.mem_reverse.1 hd
        have hall : ∀ l : Bytes, ∀ d ∈ l.takeWhile isLWSP, isLWSP d = true := by
          intro l
          induction l with
          | nil => simp
          | cons x l ih =>
            intro d hd
            rw [List.takeWhile_cons] at hd
            split at hd
            · rcases List.mem_cons.1 hd with rfl | hd
              · assumption
              · exact ih d hd
            · cases hd
        exact hall _ _ h)
  obtain ⟨rfl, hg, hp⟩ := hq
  rw [hp]
  have e : a ++ c :: (p ++ q) = (a ++ c :: p) ++ q := by simp
  rw [e, chop_gap hg, chop_solid]
  have hlast : ∀ d ∈ p.getLast?, d ≠ 32 ∧ d ≠ 9 := by
    intro d hd
    rw [← hp, chop, List.getLast?_reverse] at hd
    cases hh : (p ++ q).reverse.dropWhile isLWSP with
    | nil => rw [hh] at hd; cases hd
    | cons x l =>
      rw [hh] at hd
      cases hd
      have := dropWhile_head hh
      simpa [isLWSP] using this
  intro d hd
  cases hp' : p.getLast? with
  | none =>
    rw [List.getLast?_eq_none_iff] at hp'
    subst hp'
    simp at hd
    exact hd ▸ hc
  | some x =>
    have hne : p ≠ [] := by rintro rfl; cases hp'
    have : (a ++ c :: p).getLast? = p.getLast? := by
      simp [List.getLast?_append, List.getLast?_cons, hp']
    rw [this] at hd
    exact hlast d hd

theorem skip_chop {w v w' : Bytes} (hw : Blanks w) (hw' : Blanks w') (hv : LineValue v) : skipLWSP (chop (w ++ v ++ w')) = v := by
  rw [chop_gap hw']
  by_cases hn : v = []
  · subst hn
    have := chop_gap (s := []) hw
    rw [List.append_nil, List.nil_append] at *
    rw [this]
    rfl
  · rw [chop_solid (by
      rw [List.getLast?_append]
      cases hg : v.getLast? with
      | none => exact absurd (List.getLast?_eq_none_iff.1 hg) hn
      | some x => rw [Option.some_or, ← hg]; exact hv.back), skipLWSP_gap hw, skipLWSP_solid hv.front]

/-- What begins a line that continues none. -/
def NewLine (s : Bytes) : Prop := ∃ c r, s = c :: r ∧ c ≠ 32 ∧ c ≠ 9

theorem continuedLine_none {line rest : Bytes} (h : NewLine rest) (n : Nat) : continuedLine (n + 1) line rest = some (line, rest) := by
  obtain ⟨c, r, rfl, hc⟩ := h
  simp only [continuedLine, isLWSP_false hc, Bool.false_eq_true, if_false]

theorem name_new {n s : Bytes} (hn : n ≠ []) (hc : ∀ c ∈ n, FieldChar c) : NewLine (n ++ s) := by
  cases n with
  | nil => exact absurd rfl hn
  | cons c n =>
    have := fieldChar_plain (hc c List.mem_cons_self)
    exact ⟨c, _, rfl, this.1, this.2.1⟩

theorem headerLines_new {ls : List (Bytes × Bytes)} {head rest : Bytes} (h : HeaderLines ls head) : NewLine (head ++ 13 :: 10 :: rest) := by
  cases h with
  | nil => exact ⟨13, 10 :: rest, rfl, by decide⟩
  | cons hn hc => simp only [List.append_assoc]; exact name_new hn hc
  | folded hn hc => simp only [List.append_assoc]; exact name_new hn hc
  | hanging hn hc => simp only [List.append_assoc]; exact name_new hn hc

theorem gap_line {w : Bytes} (hw : Blanks w) : (10 : UInt8) ∉ w := fun h => by rcases hw _ h with h | h <;> cases h

theorem continued_count {vs : List Bytes} {cont : Bytes} (h : Continued vs cont) : vs.length ≤ cont.length := by
  induction h with
  | nil => exact Nat.le_refl _
  | cons hb =>
    have := List.length_pos_iff.2 hb
    simp only [List.length_cons, List.length_append]
    omega

/-- The lines that continue one are joined to it. -/
theorem continuedLine_all {vs : List Bytes} {cont next : Bytes} (h : Continued vs cont) (hnew : NewLine next) :
    ∀ {n : Nat} (line : Bytes), vs.length < n → continuedLine n line (cont ++ next) = some (spaced line vs, next) := by
  induction h with
  | nil =>
    intro n line hn
    cases n with
    | zero => cases hn
    | succ n => rw [List.nil_append, continuedLine_none hnew]; simp [spaced]
  | @cons b v w text vs hne hb hw hv hvne _ ih =>
    intro n line hn
    cases n with
    | zero => cases hn
    | succ n =>
      cases b with
      | nil => exact absurd rfl hne
      | cons c b =>
        have hc : isLWSP c = true := (isLWSP_iff c).2 (hb c List.mem_cons_self)
        have e : (c :: b ++ v ++ w ++ b!"\r\n" ++ text) ++ next = (c :: b) ++ ((v ++ w) ++ 13 :: 10 :: (text ++ next)) := by
          show (c :: b ++ v ++ w ++ [13, 10] ++ text) ++ next = _
          simp
        have hs : skipLWSP ((c :: b) ++ ((v ++ w) ++ 13 :: 10 :: (text ++ next))) = (v ++ w) ++ 13 :: 10 :: (text ++ next) := by
          rw [skipLWSP_gap hb]
          refine skipLWSP_solid ?_
          cases v with
          | nil => exact absurd rfl hvne
          | cons d v => exact hv.front
        have hl : (10 : UInt8) ∉ v ++ w := by
          simp only [List.mem_append, not_or]
          exact ⟨fun h => (hv.line _ h).2 rfl, gap_line hw⟩
        have ht : trimLWSP (v ++ w) = v := by
          have h1 : (v ++ w).dropWhile isLWSP = v ++ w := by
            cases v with
            | nil => exact absurd rfl hvne
            | cons d v => 
              have := hv.front d rfl
              simp only [List.cons_append, List.dropWhile_cons, isLWSP_false this, Bool.false_eq_true, if_false]
          rw [trimLWSP, h1]
          exact (chop_gap hw).trans (chop_solid hv.back)
        rw [e, List.cons_append, continuedLine]
        simp only [hc, if_true]
        rw [← List.cons_append, hs, readLine_crlf hl, Option.bind_some]
        simp only [ht]
        rw [ih _ (by simpa using hn)]
        simp [spaced]

/-- A round of the loop of `ReadMIMEHeader`. -/
theorem mimeLoop_line {nm raw cont next : Bytes} {vs : List Bytes} (hne : nm ≠ []) (hc : ∀ c ∈ nm, FieldChar c) (hraw : (10 : UInt8) ∉ raw) (hcont : Continued vs cont)
    (hnew : NewLine next) (n : Nat) (m : GoMap) :
    mimeLoop (n + 1) m ((nm ++ 58 :: raw) ++ 13 :: 10 :: (cont ++ next)) = mimeLoop n (m.append (canonicalKey nm) [skipLWSP (spaced (chop raw) vs)]) next := by
  have hl : (10 : UInt8) ∉ nm ++ 58 :: raw := by
    simp only [List.mem_append, List.mem_cons, not_or]
    exact ⟨fun h => (fieldChar_plain (hc _ h)).2.2.2.1 rfl, by decide, hraw⟩
  have hne2 : nm ++ 58 :: raw ≠ [] := by simp
  have htrim : trimLWSP (nm ++ 58 :: raw) = nm ++ 58 :: chop raw := by
    have h1 : (nm ++ 58 :: raw).dropWhile isLWSP = nm ++ 58 :: raw := by
      cases nm with
      | nil => exact absurd rfl hne
      | cons c r =>
        have := fieldChar_plain (hc c List.mem_cons_self)
        simp only [List.cons_append, List.dropWhile_cons, isLWSP_false ⟨this.1, this.2.1⟩, Bool.false_eq_true, if_false]
    rw [trimLWSP, h1]
    exact chop_cons nm (by decide) _
  have hsp : spaced (nm ++ 58 :: chop raw) vs = nm ++ 58 :: spaced (chop raw) vs := by simp [spaced]
  obtain ⟨t1, t2⟩ := takeWhile_stop (p := (· != 58)) (s := nm) (t := 58 :: spaced (chop raw) vs)
    (fun c h => by simpa using (fieldChar_plain (hc c h)).2.2.2.2) (fun c h => by cases h; rfl)
  have hkey : ((nm.reverse.dropWhile (· == 32)).reverse) = nm := by
    cases hr : nm.reverse with
    | nil => rw [List.reverse_eq_nil_iff] at hr; exact absurd hr hne
    | cons c r =>
      have hm : c ∈ nm := by rw [← List.mem_reverse, hr]; exact List.mem_cons_self
      have hq : (c == 32) = false := by simpa using (fieldChar_plain (hc c hm)).1
      rw [List.dropWhile_cons, if_neg (by simp [hq]), ← hr, List.reverse_reverse]
  have hcan : canonicalKey nm ≠ [] := by
    have hv : ∀ c ∈ nm, validHeaderByte c = true := fun c h => (validHeaderByte_iff c).2 (hc c h)
    have := (canonicalKey_spec hv).2
    intro e
    rw [e] at this
    cases this
    exact hne rfl
  have hcl := continuedLine_all hcont hnew (n := (cont ++ next).length + 1) (nm ++ 58 :: chop raw) (by
    have := continued_count hcont
    rw [List.length_append]; omega)
  rw [mimeLoop]
  simp only [readContinued, readLine_crlf hl, Option.bind_some, hne2, if_false, htrim, hcl, hsp, t1, t2, hkey, hcan]
  have hne3 : nm ++ 58 :: spaced (chop raw) vs ≠ [] := by simp
  simp only [hne3, if_false]

theorem mimeLoop_lines {ls : List (Bytes × Bytes)} {head : Bytes} (h : HeaderLines ls head) : ∀ {n : Nat} {m : GoMap} (rest : Bytes), ls.length < n →
    mimeLoop n m (head ++ 13 :: 10 :: rest) = some (.ok (ls.foldl (fun m l => m.append (canonicalKey l.1) [l.2]) m, rest)) := by
  have value : ∀ {w v w' : Bytes}, Blanks w → Blanks w' → LineValue v → (10 : UInt8) ∉ w ++ v ++ w' := by
    intro w v w' hw hw' hv
    simp only [List.mem_append, not_or]
    exact ⟨⟨gap_line hw, fun h => (hv.line _ h).2 rfl⟩, gap_line hw'⟩
  induction h with
  | nil =>
    intro n m rest hn
    cases n with
    | zero => cases hn
    | succ n =>
      have : readLine (13 :: 10 :: rest) = some ([], rest) := readLine_crlf (line := []) (by decide)
      simp only [List.nil_append, mimeLoop, readContinued, this, Option.bind_some, if_true, List.foldl_nil]
  | @cons nm v w w' text ls hne hc hw hw' hv hls ih =>
    intro n m rest hn
    cases n with
    | zero => cases hn
    | succ n =>
      have e : (nm ++ b!":" ++ w ++ v ++ w' ++ b!"\r\n" ++ text) ++ 13 :: 10 :: rest =
          (nm ++ 58 :: (w ++ v ++ w')) ++ 13 :: 10 :: ([] ++ (text ++ 13 :: 10 :: rest)) := by
        show (nm ++ [58] ++ w ++ v ++ w' ++ [13, 10] ++ text) ++ 13 :: 10 :: rest = _
        simp
      have hs : skipLWSP (spaced (chop (w ++ v ++ w')) []) = v := by
        rw [show spaced (chop (w ++ v ++ w')) [] = chop (w ++ v ++ w') by simp [spaced], skip_chop hw hw' hv]
      rw [e, mimeLoop_line hne hc (value hw hw' hv) .nil (headerLines_new hls (rest := rest)), hs, ih rest (by simpa using hn)]
      rfl
  | @folded nm v w w' more text vs ls hne hc hw hw' hv hvne hmore hls ih =>
    intro n m rest hn
    cases n with
    | zero => cases hn
    | succ n =>
      have e : (nm ++ b!":" ++ w ++ v ++ w' ++ b!"\r\n" ++ more ++ text) ++ 13 :: 10 :: rest =
          (nm ++ 58 :: (w ++ v ++ w')) ++ 13 :: 10 :: (more ++ (text ++ 13 :: 10 :: rest)) := by
        show (nm ++ [58] ++ w ++ v ++ w' ++ [13, 10] ++ more ++ text) ++ 13 :: 10 :: rest = _
        simp
      have hch : chop (w ++ v ++ w') = w ++ v := by
        rw [chop_gap hw', chop_solid]
        rw [List.getLast?_append]
        cases hg : v.getLast? with
        | none => exact absurd (List.getLast?_eq_none_iff.1 hg) hvne
        | some x => rw [Option.some_or, ← hg]; exact hv.back
      have hs : skipLWSP (spaced (chop (w ++ v ++ w')) vs) = spaced v vs := by
        rw [hch, spaced, List.append_assoc, skipLWSP_gap hw]
        refine skipLWSP_solid ?_
        cases v with
        | nil => exact absurd rfl hvne
        | cons d v => exact hv.front
      rw [e, mimeLoop_line hne hc (value hw hw' hv) hmore (headerLines_new hls (rest := rest)), hs, ih rest (by simpa using hn)]
      rfl
  | @hanging nm v w more text vs ls hne hc hw hmore hls ih =>
    intro n m rest hn
    cases n with
    | zero => cases hn
    | succ n =>
      have e : (nm ++ b!":" ++ w ++ b!"\r\n" ++ more ++ text) ++ 13 :: 10 :: rest =
          (nm ++ 58 :: w) ++ 13 :: 10 :: (more ++ (text ++ 13 :: 10 :: rest)) := by
        show (nm ++ [58] ++ w ++ [13, 10] ++ more ++ text) ++ 13 :: 10 :: rest = _
        simp
      have hs : skipLWSP (spaced (chop w) (v :: vs)) = spaced v vs := by
        have h0 : chop w = [] := by
          have := chop_gap (s := []) hw
          rw [List.nil_append] at this
          exact this
        have hv : (∀ c ∈ v.head?, c ≠ 32 ∧ c ≠ 9) ∧ v ≠ [] := by
          cases hmore with
          | cons _ _ _ hv hvne _ => exact ⟨hv.front, hvne⟩
        have h1 : spaced [] (v :: vs) = [32] ++ spaced v vs := by simp [spaced]
        rw [h0, h1, skipLWSP_gap (by intro c hc; exact .inl (List.mem_singleton.1 hc))]
        refine skipLWSP_solid ?_
        cases v with
        | nil => exact absurd rfl hv.2
        | cons d v => exact hv.1
      rw [e, mimeLoop_line hne hc (gap_line hw) hmore (headerLines_new hls (rest := rest)), hs, ih rest (by simpa using hn)]
      rfl

theorem headerLines_count {ls : List (Bytes × Bytes)} {head : Bytes} (h : HeaderLines ls head) : ls.length ≤ head.length := by
  induction h with
  | nil => exact Nat.le_refl _
  | cons hne | folded hne | hanging hne =>
    have := List.length_pos_iff.2 hne
    simp only [List.length_cons, List.length_append]
    omega

theorem readMimeHeader_lines {ls : List (Bytes × Bytes)} {head : Bytes} (h : HeaderLines ls head) (rest : Bytes) :
    readMimeHeader (head ++ 13 :: 10 :: rest) = some (.ok (readHeader ls, rest)) := by
  obtain ⟨c, r, e, hc⟩ := headerLines_new h (rest := rest)
  have hn := headerLines_count h
  have hm := mimeLoop_lines h (n := (head ++ 13 :: 10 :: rest).length + 1) (m := []) rest (by simp only [List.length_append]; omega)
  rw [e] at hm ⊢
  simp only [readMimeHeader, isLWSP_false hc, Bool.false_eq_true, if_false, hm]
  rfl

theorem headerLines_names {ls : List (Bytes × Bytes)} {head : Bytes} (h : HeaderLines ls head) : ∀ l ∈ ls, ∀ c ∈ l.1, FieldChar c := by
  induction h with
  | nil => intro l hl; cases hl
  | cons _ hc _ _ _ _ ih | folded _ hc _ _ _ _ _ _ ih | hanging _ hc _ _ _ ih =>
    intro l hl
    rcases List.mem_cons.1 hl with rfl | hl
    · exact hc
    · exact ih l hl

theorem readHeader_pairs (ls : List (Bytes × Bytes)) : readHeader ls = addPairs [] (ls.map fun l => (canonicalKey l.1, l.2)) := by
  rw [readHeader, addPairs, List.foldl_map]

/-- A name in the spelling of net/http. -/
theorem key_iff {n key : Bytes} (hn : ∀ c ∈ n, FieldChar c) (hk : Canonical key) : canonicalKey n = key ↔ CaseVariant n key := by
  obtain ⟨h1, h2⟩ := canonicalKey_spec fun c hc => (validHeaderByte_iff c).2 (hn c hc)
  rw [caseVariant_iff] at h2
  constructor
  · rintro rfl
    exact (caseVariant_iff _ _).2 h2.symm
  · intro h
    exact canonicalFrom_unique h1 hk ((caseVariant_iff _ _).2 (h2.trans ((caseVariant_iff _ _).1 h)))

theorem get_lacks {ls : List (Bytes × Bytes)} {key : Bytes} (hn : ∀ l ∈ ls, ∀ c ∈ l.1, FieldChar c) (hk : Canonical key) (h : Lacks ls key) :
    (readHeader ls).get? key = none := by
  have hm : key ∉ (readHeader ls).map Prod.fst := by
    rw [readHeader_pairs, addPairs_keys]
    rintro (h' | h')
    · cases h'
    · obtain ⟨l, hl, e⟩ := List.mem_map.1 h'
      obtain ⟨l', hl', rfl⟩ := List.mem_map.1 hl
      exact h l' hl' ((key_iff (hn l' hl') hk).1 e)
  cases hg : (readHeader ls).get? key with
  | none => rfl
  | some v => exact absurd (List.mem_map.2 ⟨_, lookup_mem hg, rfl⟩) hm

theorem headerGet_lacks {ls : List (Bytes × Bytes)} {key : Bytes} (hn : ∀ l ∈ ls, ∀ c ∈ l.1, FieldChar c) (hk : Canonical key) (h : Lacks ls key) :
    headerGet (some (readHeader ls)) key = [] := by
  simp only [headerGet, get_lacks hn hk h]

theorem headerGet_says {ls : List (Bytes × Bytes)} {key v : Bytes} (hn : ∀ l ∈ ls, ∀ c ∈ l.1, FieldChar c) (hk : Canonical key) (h : FirstSays ls key v) :
    headerGet (some (readHeader ls)) key = v := by
  obtain ⟨a, n, b, rfl, h1, h2⟩ := h
  have hg := addPairs_get [] ((a ++ (n, v) :: b).map fun l => (canonicalKey l.1, l.2)) key
  rw [← readHeader_pairs] at hg
  have ha : (a.map fun l => (canonicalKey l.1, l.2)).filter (fun c => decide (c.1 = key)) = [] := by
    rw [List.filter_eq_nil_iff]
    intro x hx
    obtain ⟨l, hl, rfl⟩ := List.mem_map.1 hx
    simp only [decide_eq_true_eq]
    exact fun e => h2 l hl ((key_iff (hn l (List.mem_append_left _ hl)) hk).1 e)
  have hnk := (key_iff (hn (n, v) (by simp)) hk).2 h1
  simp only [List.map_append, List.map_cons, List.filter_append, ha, List.nil_append, List.filter_cons, hnk, decide_true, if_true] at hg
  simp only [headerGet]
  cases hh : (readHeader (a ++ (n, v) :: b)).get? key with
  | none => rw [hh] at hg; simp [GoMap.get?] at hg
  | some vs =>
    rw [hh] at hg
    simp only [GoMap.get?, List.lookup, Option.getD_some, Option.getD_none, List.nil_append] at hg
    rw [hg]

/-- Without stars in the names, a parameter is what is written. -/
theorem paramValue_plain (hi : Rune → Rune) {ps : List (Bytes × Bytes)} (hs : ∀ p ∈ ps, 42 ∉ p.1) (key : Bytes) : paramValue hi ps key = ps.lookup key := by
  have star : ∀ k : Bytes, 42 ∈ k → ps.lookup k = none := by
    intro k hk
    cases hl : ps.lookup k with
    | none => rfl
    | some v =>
      have : (ps.lookup k).isSome = true := by rw [hl]; rfl
      obtain ⟨p, hp, rfl⟩ := List.mem_map.1 (lookup_isSome.1 this)
      exact absurd hk (hs p hp)
  have hst : (stitch hi ps key ps.length 0).2 = false := by
    cases ps.length with
    | zero => rfl
    | succ n =>
      rw [stitch, star _ (by simp)]
      simp only
      rw [star _ (by simp)]
  simp only [paramValue, star (key ++ [42]) (by simp)]
  rcases hst' : stitch hi ps key ps.length 0 with ⟨v, b⟩
  rw [hst'] at hst
  simp only at hst
  subst hst
  rfl

theorem disposition_form (hi : Rune → Rune) {d : Bytes} {ps : List (Bytes × Bytes)} (h : OfForm d ps) :
    disposition hi d = (b!"form-data", (ps.lookup b!"name").getD [], (ps.lookup b!"filename").getD []) := by
  obtain ⟨params, w, h1, h2, h3, h4, h5⟩ := h
  have hm : MediaType b!"form-data" := (isMediaType_iff _).1 (by decide +kernel)
  obtain ⟨g1, g2⟩ := names_head hi h1 hm
  simp only [disposition, g1, g2, (isMediaType_iff _).2 hm, Bool.not_true, Bool.false_eq_true, if_false]
  rcases h4 with h4 | h4
  · rw [paramLoop_all h2 h3 h4]
    simp only [paramValue_plain hi h5]
  · rw [paramLoop_semicolon h2 h3 h4]

theorem lookup_given {ps : List (Bytes × Bytes)} {k : Bytes} (h : ∀ v, (k, v) ∈ ps → v = []) : (ps.lookup k).getD [] = [] := by
  cases hl : ps.lookup k with
  | none => rfl
  | some v => exact h v (lookup_mem hl)

/-! ### All parts -/

/-- What a closing delimiter begins with, or a line end before it. -/
def lead (first : Bool) : Bytes := if first then [] else [13, 10]

theorem nextPart_part (hb : Boundary bnd) (hs : bnd.length + 4 ≤ 4096) (first : Bool) (rest : Bytes) : ∀ {n : Nat}, (lead first ++ (dashed bnd ++ 13 :: 10 :: rest)).length ≤ n →
    nextPart bnd [13, 10] first (n + 1) false (lead first ++ (dashed bnd ++ 13 :: 10 :: rest)) = .part [13, 10] rest := by
  intro n hn
  cases first with
  | true => exact nextPart_first hb hs n false true rest
  | false =>
    cases n with
    | zero => simp [lead] at hn
    | succ n => exact (nextPart_nl (n + 1) _).trans (nextPart_first hb hs n true false rest)

theorem canonical_disposition : Canonical b!"Content-Disposition" := by simp [Canonical, CanonicalFrom]
theorem canonical_encoding : Canonical b!"Content-Transfer-Encoding" := by simp [Canonical, CanonicalFrom]
theorem canonical_type : Canonical b!"Content-Type" := by simp [Canonical, CanonicalFrom]

/-- What parts hold. -/
def contents (ps : List (Option Bytes × Bytes)) : Nat := (ps.map (·.2.length)).sum

theorem parts_start {ps : List (Option Bytes × Bytes)} {parts : Bytes} (h : Parts bnd ps parts) {c : UInt8} (hc : endsBoundary c = true) (tail : Bytes) :
    ∃ c' r, parts ++ (dashed bnd ++ c :: tail) = dashed bnd ++ c' :: r ∧ endsBoundary c' = true := by
  cases h with
  | nil => exact ⟨c, tail, rfl, hc⟩
  | @cons ls n head content more ps _ _ _ _ _ =>
    refine ⟨13, 10 :: (head ++ b!"\r\n" ++ content ++ b!"\r\n" ++ more) ++ (dashed bnd ++ c :: tail), ?_, rfl⟩
    show (([45, 45] ++ bnd ++ [13, 10] ++ head ++ [13, 10] ++ content ++ [13, 10] ++ more) ++ _) = _
    simp [dashed]

/-- The round of a part, up to its body. -/
theorem readParts_head (hi : Rune → Rune) (hb : Boundary bnd) (hs : bnd.length + 4 ≤ 4096) {ls : List (Bytes × Bytes)} {head : Bytes} (hh : HeaderLines ls head)
    (he : Lacks ls b!"Content-Transfer-Encoding") (n : Nat) (first : Bool) (mm mv : Int) (m : GoMap) (rest : Bytes) :
    readParts hi bnd (n + 1) [13, 10] first mm mv m (lead first ++ (dashed bnd ++ 13 :: 10 :: (head ++ 13 :: 10 :: rest))) =
      let d := disposition hi (headerGet (some (readHeader ls)) b!"Content-Disposition")
      match partBody bnd [13, 10] rest with
      | .runs taken kept =>
        if 4096 ≤ kept then .unknown
        else if d.1 ≠ b!"form-data" ∨ d.2.1 = [] then .more kept
        else if d.2.2 = [] then
          if ((readHeader ls).get? b!"Content-Type").isSome then .unknown
          else if mv < taken then .tooLarge
          else .more kept
        else if mm < taken then .unknown
        else .more kept
      | .ends content rest =>
        if d.1 ≠ b!"form-data" ∨ d.2.1 = [] then readParts hi bnd n [13, 10] false mm mv m rest
        else if d.2.2 = [] then
          if ((readHeader ls).get? b!"Content-Type").isSome then .unknown
          else if mv < content.length then .tooLarge
          else readParts hi bnd n [13, 10] false mm (mv - content.length) (m.append d.2.1 [content]) rest
        else if mm < content.length then .unknown
        else readParts hi bnd n [13, 10] false (mm - content.length) (mv - content.length) m rest := by
  have hne : ¬ ((headerGet (some (readHeader ls)) b!"Content-Transfer-Encoding").map lowerByte = b!"quoted-printable") := by
    rw [headerGet_lacks (headerLines_names hh) canonical_encoding he]; decide
  rw [readParts, nextPart_part hb hs first _ (Nat.le_refl _)]
  simp only [readMimeHeader_lines hh, hne, if_false]
  cases partBody bnd [13, 10] rest <;> rfl

/-- What a skipped part's disposition says. -/
theorem skipped_disposition (hi : Rune → Rune) {ls : List (Bytes × Bytes)} (hn : ∀ l ∈ ls, ∀ c ∈ l.1, FieldChar c) (h : Skipped ls) :
    (disposition hi (headerGet (some (readHeader ls)) b!"Content-Disposition")).1 ≠ b!"form-data" ∨
      (disposition hi (headerGet (some (readHeader ls)) b!"Content-Disposition")).2.1 = [] := by
  cases h with
  | nameless h1 h2 h3 =>
    rw [headerGet_says hn canonical_disposition h1, disposition_form hi h2, lookup_given h3]
    exact .inr rfl
  | @other d m params h1 h2 h3 h4 =>
    rw [headerGet_says hn canonical_disposition h1]
    left
    simp only [disposition, (names_head hi h2 h3).1, (isMediaType_iff _).2 h3, Bool.not_true, Bool.false_eq_true, if_false]
    split
    · decide
    · exact h4
    · exact h4
    · exact h4
  | bare h1 =>
    rw [headerGet_lacks hn canonical_disposition h1]
    have hh : mediaHead hi [] = [] := by simp [mediaHead, toLower]; decide +kernel
    right
    simp only [disposition, hh]
    rw [if_pos (by decide +kernel)]

/-- The round of a skipped part. -/
theorem readParts_skipped (hi : Rune → Rune) (hb : Boundary bnd) (hs : bnd.length + 4 ≤ 4096) {ls : List (Bytes × Bytes)} {head : Bytes} (hh : HeaderLines ls head)
    (he : Lacks ls b!"Content-Transfer-Encoding") (hp : Skipped ls) (n : Nat) (first : Bool) (mm mv : Int) (m : GoMap) (rest : Bytes) :
    readParts hi bnd (n + 1) [13, 10] first mm mv m (lead first ++ (dashed bnd ++ 13 :: 10 :: (head ++ 13 :: 10 :: rest))) =
      match partBody bnd [13, 10] rest with
      | .runs _ kept => if 4096 ≤ kept then .unknown else .more kept
      | .ends _ rest => readParts hi bnd n [13, 10] false mm mv m rest := by
  rw [readParts_head hi hb hs hh he]
  have := skipped_disposition hi (headerLines_names hh) hp
  simp only [if_pos this]

/-- The round of a field. -/
theorem readParts_field (hi : Rune → Rune) (hb : Boundary bnd) (hs : bnd.length + 4 ≤ 4096) {ls : List (Bytes × Bytes)} {head : Bytes} (hh : HeaderLines ls head)
    (he : Lacks ls b!"Content-Transfer-Encoding") {x : Bytes} (hp : IsField ls x) (n : Nat) (first : Bool) (mm mv : Int) (m : GoMap) (rest : Bytes) :
    readParts hi bnd (n + 1) [13, 10] first mm mv m (lead first ++ (dashed bnd ++ 13 :: 10 :: (head ++ 13 :: 10 :: rest))) =
      match partBody bnd [13, 10] rest with
      | .runs taken kept => if 4096 ≤ kept then .unknown else if mv < taken then .tooLarge else .more kept
      | .ends content rest =>
        if mv < content.length then .tooLarge
        else readParts hi bnd n [13, 10] false mm (mv - content.length) (m.append x [content]) rest := by
  rw [readParts_head hi hb hs hh he]
  obtain ⟨h1, h2, h3, h4, h5, h6⟩ := hp
  have hn := headerLines_names hh
  have hty : ((readHeader ls).get? b!"Content-Type").isSome = false := by rw [get_lacks hn canonical_type h6]; rfl
  rw [headerGet_says hn canonical_disposition h1, disposition_form hi h2, lookup_given h5, lookup_distinct h2.choose_spec.choose_spec.2.2.1 h3]
  simp only [Option.getD_some, ne_eq, not_true_eq_false, h4, or_self, if_false, if_true, hty, Bool.false_eq_true]

theorem part_text (head content more s : Bytes) : (b!"--" ++ bnd ++ b!"\r\n" ++ head ++ b!"\r\n" ++ content ++ b!"\r\n" ++ more) ++ s =
    dashed bnd ++ 13 :: 10 :: (head ++ 13 :: 10 :: (content ++ 13 :: 10 :: (more ++ s))) := by
  show ([45, 45] ++ bnd ++ [13, 10] ++ head ++ [13, 10] ++ content ++ [13, 10] ++ more) ++ _ = _
  simp [dashed]

theorem readParts_parts (hi : Rune → Rune) (hb : Boundary bnd) (hs : bnd.length + 4 ≤ 4096) {ps : List (Option Bytes × Bytes)} {parts : Bytes} (h : Parts bnd ps parts) (tail : Bytes) :
    ∀ (n : Nat) (first : Bool) {mm mv : Int} (m : GoMap), otherBytes ps ≤ mm → contents ps ≤ mv →
    ∃ mm' mv', readParts hi bnd (ps.length + n) [13, 10] first mm mv m (lead first ++ (parts ++ (dashed bnd ++ 45 :: tail))) =
      readParts hi bnd n [13, 10] (first && ps.isEmpty) mm' mv' (addPairs m (fieldsOf ps)) (lead (first && ps.isEmpty) ++ (dashed bnd ++ 45 :: tail)) := by
  induction h with
  | nil =>
    intro n first mm mv m _ _
    exact ⟨mm, mv, by simp [fieldsOf, addPairs]⟩
  | @cons ls nm head content more ps hh hp he hc hr ih =>
    intro n first mm mv m hm hv
    obtain ⟨c, r, e, hcr⟩ := parts_start hr (c := 45) rfl tail
    have hlen : ((nm, content) :: ps).length + n = (ps.length + n) + 1 := by simp only [List.length_cons]; omega
    have hn := headerLines_names hh
    have hsz : contents ((nm, content) :: ps) = content.length + contents ps := by simp [contents]
    have hsz' : otherBytes ((nm, content) :: ps) = (if nm = none then content.length else 0) + otherBytes ps := by simp [otherBytes]
    rw [hsz] at hv
    rw [hsz'] at hm
    have hbody := partBody_content hb hc hcr r
    rw [← e] at hbody
    have hmm : (otherBytes ps : Int) ≤ mm := by split at hm <;> omega
    rw [part_text, hlen]
    cases hp with
    | @field x hp =>
      rw [readParts_field hi hb hs hh he hp]
      simp only [hbody, List.isEmpty_cons, Bool.and_false]
      have hlt : ¬ (mv < content.length) := by omega
      obtain ⟨mm', mv', g⟩ := ih n false (mm := mm) (mv := mv - content.length) (m.append x [content]) hmm (by omega)
      refine ⟨mm', mv', ?_⟩
      simp only [hlt, if_false]
      exact g
    | @file d x f qs h1 h2 h3 h4 h5 h6 =>
      rw [readParts_head hi hb hs hh he]
      rw [headerGet_says hn canonical_disposition h1, disposition_form hi h2, lookup_distinct h2.choose_spec.choose_spec.2.2.1 h5,
        lookup_distinct h2.choose_spec.choose_spec.2.2.1 h3]
      simp only [hbody, List.isEmpty_cons, Bool.and_false]
      rw [if_pos rfl] at hm
      have hlt : ¬ (mm < content.length) := by omega
      obtain ⟨mm', mv', g⟩ := ih n false (mm := mm - content.length) (mv := mv - content.length) m (by omega) (by omega)
      refine ⟨mm', mv', ?_⟩
      simp only [Option.getD_some, ne_eq, not_true_eq_false, h4, h6, or_self, if_false, hlt]
      exact g
    | skipped hp =>
      rw [readParts_skipped hi hb hs hh he hp]
      simp only [hbody, List.isEmpty_cons, Bool.and_false]
      obtain ⟨mm', mv', g⟩ := ih n false (mm := mm) (mv := mv) m hmm (by omega)
      exact ⟨mm', mv', g⟩

theorem parts_count {ps : List (Option Bytes × Bytes)} {parts : Bytes} (h : Parts bnd ps parts) : ps.length ≤ parts.length ∧ contents ps ≤ parts.length := by
  induction h with
  | nil => exact ⟨Nat.le_refl _, Nat.le_refl _⟩
  | @cons ls nm head content more ps hh hp he hc hr ih =>
    have hsz : contents ((nm, content) :: ps) = content.length + contents ps := by simp [contents]
    have : (b!"--").length = 2 := rfl
    rw [hsz]
    simp only [List.length_cons, List.length_append, this]
    omega

/-- `ReadForm` on parts and a last delimiter, up to that. -/
theorem readFormOn_parts (hi : Rune → Rune) (hb : Boundary bnd) (hs : bnd.length + 4 ≤ 4096) {ps : List (Option Bytes × Bytes)} {parts : Bytes} (h : Parts bnd ps parts) (tail : Bytes)
    {mm : Int} (hm : otherBytes ps ≤ mm) (hp : parts.length ≤ mm + 10485760) (hm' : mm + 10485760 < 2 ^ 63) :
    ∃ n mm' mv', readFormOn hi bnd mm (parts ++ (dashed bnd ++ 45 :: tail)) =
      readParts hi bnd (n + 1) [13, 10] ps.isEmpty mm' mv' (addPairs [] (fieldsOf ps)) (lead ps.isEmpty ++ (dashed bnd ++ 45 :: tail)) := by
  have hc := parts_count h
  obtain ⟨mm', mv', g⟩ := readParts_parts hi hb hs h tail (parts.length - ps.length + (dashed bnd ++ 45 :: tail).length + 1) true (mm := mm) (mv := mm + 10485760) []
    (by omega) (by omega)
  refine ⟨parts.length - ps.length + (dashed bnd ++ 45 :: tail).length, mm', mv', ?_⟩
  have hn : ¬ (mm + 10485760 ≥ 2 ^ 63 ∨ 13 ∈ bnd ∨ 10 ∈ bnd) := by
    rintro (h | h | h)
    · omega
    · exact (hb.2 _ h).1 rfl
    · exact (hb.2 _ h).2 rfl
  have hl : (parts ++ (dashed bnd ++ 45 :: tail)).length + 1 = ps.length + (parts.length - ps.length + (dashed bnd ++ 45 :: tail).length + 1) := by
    rw [List.length_append]; omega
  rw [readFormOn, if_neg hb.1, if_neg hn, hl]
  exact g

/-- The last delimiter has a line end: the form has the fields. -/
theorem readFormOn_ended (hi : Rune → Rune) (hb : Boundary bnd) (hs : bnd.length + 4 ≤ 4096) {ps : List (Option Bytes × Bytes)} {parts : Bytes} (h : Parts bnd ps parts) {w : Bytes} (hw : Blanks w) (hs' : bnd.length + 6 + w.length ≤ 4096) (rest : Bytes)
    {mm : Int} (hm : otherBytes ps ≤ mm) (hp : parts.length ≤ mm + 10485760) (hm' : mm + 10485760 < 2 ^ 63) :
    readFormOn hi bnd mm (parts ++ (dashed bnd ++ 45 :: 45 :: (w ++ 13 :: 10 :: rest))) = .form (addPairs [] (fieldsOf ps)) := by
  obtain ⟨n, mm', mv', g⟩ := readFormOn_parts hi hb hs h (45 :: (w ++ 13 :: 10 :: rest)) hm hp hm'
  have : ∀ first, nextPart bnd [13, 10] first ((lead first ++ (dashed bnd ++ 45 :: 45 :: (w ++ 13 :: 10 :: rest))).length + 1) false
      (lead first ++ (dashed bnd ++ 45 :: 45 :: (w ++ 13 :: 10 :: rest))) = .last := by
    rintro (_ | _)
    · have := (nextPart_nl (bnd := bnd) ((dashed bnd ++ 45 :: 45 :: (w ++ 13 :: 10 :: rest)).length + 2) (dashed bnd ++ 45 :: 45 :: (w ++ 13 :: 10 :: rest))).trans
        (nextPart_last hb hw hs' ((dashed bnd ++ 45 :: 45 :: (w ++ 13 :: 10 :: rest)).length + 1) true false rest)
      exact this
    · exact nextPart_last hb hw hs' _ _ _ _
  rw [g, readParts, this]

/-- It has none: more is read. -/
theorem readFormOn_open (hi : Rune → Rune) (hb : Boundary bnd) (hs : bnd.length + 4 ≤ 4096) {ps : List (Option Bytes × Bytes)} {parts : Bytes} (h : Parts bnd ps parts) {w : Bytes} (hw : Blanks w) (hs' : bnd.length + 4 + w.length < 4096)
    {mm : Int} (hm : otherBytes ps ≤ mm) (hp : parts.length ≤ mm + 10485760) (hm' : mm + 10485760 < 2 ^ 63) :
    readFormOn hi bnd mm (parts ++ (dashed bnd ++ 45 :: 45 :: w)) = .more (bnd.length + 4 + w.length) := by
  obtain ⟨n, mm', mv', g⟩ := readFormOn_parts hi hb hs h (45 :: w) hm hp hm'
  have : ∀ first, nextPart bnd [13, 10] first ((lead first ++ (dashed bnd ++ 45 :: 45 :: w)).length + 1) false
      (lead first ++ (dashed bnd ++ 45 :: 45 :: w)) = .more (bnd.length + 4 + w.length) := by
    rintro (_ | _)
    · have := (nextPart_nl (bnd := bnd) ((dashed bnd ++ 45 :: 45 :: w).length + 2) (dashed bnd ++ 45 :: 45 :: w)).trans
        (nextPart_open hb hw hs' ((dashed bnd ++ 45 :: 45 :: w).length + 1) true false)
      exact this
    · exact nextPart_open hb hw hs' _ _ _
  rw [g, readParts, this]

/-- Another delimiter follows it directly: there is no form. -/
theorem readFormOn_again (hi : Rune → Rune) (hb : Boundary bnd) (hs : bnd.length + 4 ≤ 4096) {ps : List (Option Bytes × Bytes)} {parts : Bytes} (h : Parts bnd ps parts) (hne : ps ≠ []) {w : Bytes} (hw : Blanks w) (hs' : bnd.length + 4 + w.length + (bnd.length + 4) ≤ 4096) (rest : Bytes)
    {mm : Int} (hm : otherBytes ps ≤ mm) (hp : parts.length ≤ mm + 10485760) (hm' : mm + 10485760 < 2 ^ 63) :
    readFormOn hi bnd mm (parts ++ (dashed bnd ++ 45 :: 45 :: (w ++ (dashed bnd ++ 13 :: 10 :: rest)))) =
      .failed (.expecting ((dashed bnd ++ [45, 45]) ++ (w ++ (dashed bnd ++ [13, 10])))) := by
  obtain ⟨n, mm', mv', g⟩ := readFormOn_parts hi hb hs h (45 :: (w ++ (dashed bnd ++ 13 :: 10 :: rest))) hm hp hm'
  have : nextPart bnd [13, 10] false ((lead false ++ (dashed bnd ++ 45 :: 45 :: (w ++ (dashed bnd ++ 13 :: 10 :: rest)))).length + 1) false
      (lead false ++ (dashed bnd ++ 45 :: 45 :: (w ++ (dashed bnd ++ 13 :: 10 :: rest)))) = .failed _ :=
    (nextPart_nl (bnd := bnd) ((dashed bnd ++ 45 :: 45 :: (w ++ (dashed bnd ++ 13 :: 10 :: rest))).length + 2) _).trans (nextPart_twice hb hw hs' _ false rest)
  have he : ps.isEmpty = false := by cases ps with
    | nil => exact absurd rfl hne
    | cons => rfl
  rw [g, he, readParts, this]

/-! ### Reading again -/

theorem nextPart_more {nl : Bytes} {first : Bool} : ∀ {n : Nat} {e : Bool} {buf : Bytes} {k : Nat}, nextPart bnd nl first n e buf = .more k → k < 4096
  | 0, _, _, _, h => by simp [nextPart] at h
  | n + 1, e, buf, k, h => by
    rw [nextPart] at h
    split at h
    · split at h
      · cases h; assumption
      · cases h
    · split at h
      · cases h
      · split at h
        · cases h
        · split at h
          · cases h
          · split at h
            · cases h
            · split at h
              · exact nextPart_more h
              · split at h
                · exact nextPart_more h
                · cases h

theorem readParts_more {hi : Rune → Rune} : ∀ {n : Nat} {nl : Bytes} {first : Bool} {mm mv : Int} {m : GoMap} {buf : Bytes} {k : Nat},
    readParts hi bnd n nl first mm mv m buf = .more k → k < 4096
  | 0, _, _, _, _, _, _, _, h => by simp [readParts] at h
  | n + 1, nl, first, mm, mv, m, buf, k, h => by
    rw [readParts] at h
    split at h
    · next hn => cases h; exact nextPart_more hn
    · cases h
    · cases h
    · split at h
      · cases h
      · cases h
      · split at h
        · cases h
        · simp only at h
          split at h
          · repeat' split at h
            all_goals first | cases h; omega | cases h
          · repeat' split at h
            all_goals first | exact readParts_more h | cases h

theorem readFormOn_more {hi : Rune → Rune} {mm : Int} {text : Bytes} {k : Nat} (h : readFormOn hi bnd mm text = .more k) : k < 4096 := by
  rw [readFormOn] at h
  split at h
  · cases h
  · split at h
    · cases h
    · exact readParts_more h

theorem readFormOn_nothing (hi : Rune → Rune) (hb : Boundary bnd) {mm : Int} (hm' : mm + 10485760 < 2 ^ 63) : readFormOn hi bnd mm [] = .more 0 := by
  have hn : ¬ (mm + 10485760 ≥ 2 ^ 63 ∨ 13 ∈ bnd ∨ 10 ∈ bnd) := by
    rintro (h | h | h)
    · omega
    · exact (hb.2 _ h).1 rfl
    · exact (hb.2 _ h).2 rfl
  rw [readFormOn, if_neg hb.1, if_neg hn]
  rfl

end

end Verif
