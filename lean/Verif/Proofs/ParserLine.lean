import Verif.Proofs.ParserDirs
/-! The line count does not influence the parser; parsing continues behind a directive. -/
namespace Verif
open Spec

/-- The same scanner up to the line count. -/
def Scan.Same (s s' : Scan) : Prop := ∃ l, s' = { s with line := l }

/-- The same result up to the line count. -/
inductive Sim {α : Type} : SR α → SR α → Prop
  | panic : Sim .panic .panic
  | fuel : Sim .fuel .fuel
  | ok {s s' : Scan} {v : Except PErr α} : s.Same s' → Sim (.ok (s, v)) (.ok (s', v))

theorem Scan.Same.refl (s : Scan) : s.Same s := ⟨s.line, rfl⟩

theorem Sim.andThen {α β : Type} {x y : SR α} {f : α → Scan → SR β} (h : Sim x y) (hf : ∀ a s s', s.Same s' → Sim (f a s) (f a s')) :
    Sim (SR.andThen x f) (SR.andThen y f) := by
  cases h with
  | panic => exact .panic
  | fuel => exact .fuel
  | @ok s s' v h =>
    cases v with
    | error e => exact .ok h
    | ok a => exact hf a s s' h

theorem skipBlanks_line (t : Bytes) : ∀ l l', (skipBlanks t l).map (·.1) = (skipBlanks t l').map (·.1) := by
  match t with
  | [] => intro l l'; simp [skipBlanks]
  | c :: r =>
    intro l l'
    rw [skipBlanks.eq_def (c :: r) l, skipBlanks.eq_def (c :: r) l']
    simp only
    split
    · exact skipBlanks_line r l l'
    · split
      · split
        · exact skipBlanks_line _ _ _
        · exact skipBlanks_line _ _ _
        · rfl
      · rfl
termination_by t.length

theorem readStringLoop_line {delim : UInt8 → Bool} {eosDelim : Bool} (t : Bytes) : ∀ (buf : Bytes) (l l' : Nat),
    (readStringLoop delim eosDelim t buf l).1.Same (readStringLoop delim eosDelim t buf l').1 ∧
      (readStringLoop delim eosDelim t buf l).2 = (readStringLoop delim eosDelim t buf l').2 := by
  match t with
  | [] =>
    intro buf l l'
    simp only [readStringLoop]
    split
    · exact ⟨⟨l', rfl⟩, rfl⟩
    · split <;> exact ⟨⟨l', rfl⟩, rfl⟩
  | c :: r =>
    intro buf l l'
    rw [readStringLoop.eq_def _ _ (c :: r) buf l, readStringLoop.eq_def _ _ (c :: r) buf l']
    simp only
    split
    · exact ⟨⟨l', rfl⟩, rfl⟩
    · split
      · exact ⟨⟨l', rfl⟩, rfl⟩
      · split
        · cases r with
          | nil => exact ⟨⟨l', rfl⟩, rfl⟩
          | cons e r' =>
            simp only
            split
            · exact readStringLoop_line r' _ _ _
            · split
              · cases r' with
                | nil => exact readStringLoop_line [] _ _ _
                | cons c' r'' =>
                  simp only
                  split
                  · exact readStringLoop_line r'' _ _ _
                  · exact readStringLoop_line (c' :: r'') _ _ _
              · exact readStringLoop_line r' _ _ _
        · exact readStringLoop_line r _ _ _
termination_by t.length

theorem readStringDelim_line {s s' : Scan} (h : s.Same s') (delim : UInt8 → Bool) (eosDelim : Bool) :
    Sim (.ok (s.readStringDelim delim eosDelim)) (.ok (s'.readStringDelim delim eosDelim)) := by
  obtain ⟨l, rfl⟩ := h
  have key : ∀ inp, Sim (.ok (readStringLoop delim eosDelim inp s.buf s.line)) (.ok (readStringLoop delim eosDelim inp s.buf l)) := by
    intro inp
    obtain ⟨h1, h2⟩ := readStringLoop_line (delim := delim) (eosDelim := eosDelim) inp s.buf s.line l
    revert h1 h2
    cases readStringLoop delim eosDelim inp s.buf s.line with
    | mk a v => cases readStringLoop delim eosDelim inp s.buf l with
      | mk b w => rintro h1 (rfl : v = w); exact .ok h1
  exact key _

theorem readString_line {s s' : Scan} (h : s.Same s') : Sim s.readString s'.readString := by
  obtain ⟨l, rfl⟩ := h
  simp only [Scan.readString, Scan.skipBlank]
  have := skipBlanks_line s.inp s.line l
  cases h1 : skipBlanks s.inp s.line with
  | none =>
    rw [h1] at this
    cases h2 : skipBlanks s.inp l with
    | none => exact .fuel
    | some p => rw [h2] at this; cases this
  | some p =>
    obtain ⟨r, l1⟩ := p
    rw [h1] at this
    cases h2 : skipBlanks s.inp l with
    | none => rw [h2] at this; cases this
    | some p =>
      obtain ⟨r', l2⟩ := p
      rw [h2] at this
      simp only [Option.map_some, Option.some.injEq] at this
      subst this
      simp only [Res.bind_ok']
      cases r with
      | nil => exact .ok ⟨l2, rfl⟩
      | cons c r =>
        simp only
        split
        · exact .ok ⟨l2 + 1, rfl⟩
        · split
          · exact readStringDelim_line ⟨l2, rfl⟩ _ _
          · split
            · exact readStringDelim_line ⟨l2, rfl⟩ _ _
            · exact readStringDelim_line ⟨l2, rfl⟩ _ _

theorem tok_line {α : Type} {s s' : Scan} (h : s.Same s') (f : Bytes → Except PErr α) : Sim (s.tok f) (s'.tok f) :=
  (readString_line h).andThen fun _ _ _ h => .ok h

theorem readBody_line {s s' : Scan} (h : s.Same s') (tk : DirTok) : Sim (s.readBody tk) (s'.readBody tk) := by
  cases tk with
  | rule =>
    simp only [Scan.readBody, readRule_eq]
    exact (tok_line h _).andThen fun _ _ _ h => (tok_line h _).andThen fun _ _ _ h => (tok_line h _).andThen fun _ _ _ h => .ok h
  | ruleEng => exact tok_line h _
  | reqBody => exact tok_line h _
  | resBody => exact tok_line h _

/-- `readDirective` is determined by the word it reads. -/
theorem readDirective'_word (hi : Rune → Rune) (t : Bytes) (l : Nat) : (at' t l).readDirective' hi =
    match dirIndex.lookup ((readLetters t).1.map lowerByte) with
    | none => .ok (at' (readLetters t).2 l, .error .notDirective)
    | some tk => (at' (readLetters t).2 l).readBody tk := by
  have hl := toLower_letters hi (readLetters_spec t).2.1
  simp only [Scan.readDirective', Scan.readWord]
  simp only [Bool.false_eq_true, if_false, List.nil_append, hl]
  cases dirIndex.lookup ((readLetters t).1.map lowerByte) with
  | none => rfl
  | some tk => cases tk <;> rfl

theorem readDirective'_line (hi : Rune → Rune) (t : Bytes) (l l' : Nat) :
    Sim ((at' t l).readDirective' hi) ((at' t l').readDirective' hi) := by
  rw [readDirective'_word, readDirective'_word]
  split
  · exact .ok ⟨l', rfl⟩
  · exact readBody_line ⟨l', rfl⟩ _

theorem skipLines_line (t : Bytes) : ∀ l l', (skipLines t l).1 = (skipLines t l').1 := by
  match t with
  | [] => intro l l'; simp [skipLines]
  | c :: r =>
    intro l l'
    rw [skipLines.eq_def (c :: r) l, skipLines.eq_def (c :: r) l']
    simp only
    split
    · cases r with
      | nil => rfl
      | cons c' r' =>
        simp only
        split
        · exact skipLines_line r' _ _
        · exact skipLines_line (c' :: r') _ _
    · split
      · exact skipLines_line r _ _
      · rfl
termination_by t.length

theorem Sim.bind {α β : Type} {x y : SR α} {g g' : Scan × Except PErr α → SR β} (h : Sim x y)
    (hg : ∀ s s' v, s.Same s' → Sim (g (s, v)) (g' (s', v))) : Sim (x.bind g) (y.bind g') := by
  cases h with
  | panic => exact .panic
  | fuel => exact .fuel
  | ok h => exact hg _ _ _ h

theorem readDirective_line (hi : Rune → Rune) (b b' : Bool) (t : Bytes) (l l' : Nat) :
    Sim ((atB b t l).readDirective hi) ((atB b' t l').readDirective hi) := by
  have h := skipLines_line t l l'
  simp only [Scan.readDirective]
  cases h1 : skipLines t l with
  | mk u l1 =>
    cases h2 : skipLines t l' with
    | mk u' l2 =>
      rw [h1, h2] at h
      simp only at h
      subst h
      simp only
      cases u with
      | nil => exact .ok ⟨l2, rfl⟩
      | cons c u =>
        refine (readDirective'_line hi (c :: u) l1 l2).bind fun s s' v h => ?_
        cases v with
        | ok a => exact .ok h
        | error e => cases e <;> exact .ok h

theorem Sim.snd {α : Type} {x y : SR α} (h : Sim x y) : (x.bind fun r => Res.ok r.2) = y.bind fun r => .ok r.2 := by
  cases h <;> rfl

theorem allDirective_line (hi : Rune → Rune) : ∀ (n m : Nat) (b b' : Bool) (t : Bytes) (l l' : Nat), t.length < n → t.length < m →
    Sim (allDirectiveFuel hi n (atB b t l)) (allDirectiveFuel hi m (atB b' t l')) := by
  intro n
  induction n with
  | zero => intro m b b' t l l' h; omega
  | succ n ih =>
    intro m b b' t l l' hn hm
    obtain ⟨m, rfl⟩ : ∃ k, m = k + 1 := ⟨m - 1, by omega⟩
    have hs := readDirective_line hi b b' t l l'
    rcases readDirective_cases hi b t l with ⟨hf, s', e⟩ | ⟨s', er, he, e⟩ | ⟨f, u, rest, d, l1, rfl, hf, hd, e⟩ | ⟨f, u, rfl, hf, hh, e⟩
    · rw [e] at hs
      obtain ⟨s2, e2⟩ := readDirective_end hi hf b' l'
      rw [e2] at hs
      cases hs with
      | ok h => simp only [allDirectiveFuel, e, e2, Res.bind_ok']; exact .ok h
    · rw [e] at hs
      generalize he2 : (atB b' t l').readDirective hi = y at hs
      cases hs with
      | ok h =>
        simp only [allDirectiveFuel, e, he2, Res.bind_ok']
        exact .ok h
    · obtain ⟨l2, e2⟩ := readDirective_ok hi hf hd b' l'
      have hlen := (directive_shorter hd).2
      rw [List.length_append] at hn hm
      simp only [allDirectiveFuel, e, e2, Res.bind_ok']
      exact (ih m false false rest l1 l2 (by omega) (by omega)).andThen fun _ _ _ h => .ok h
    · rw [e] at hs
      generalize he2 : (atB b' (f ++ u) l').readDirective hi = y at hs
      cases hs
      simp only [allDirectiveFuel, e, he2, Res.bind_fuel']
      exact .fuel

/-- Results of `parse` for texts on which the first directive parses alike. -/
theorem parse_eq (hi : Rune → Rune) {n b l} {t : Bytes} (h : t.length < n) :
    parse hi t = (allDirectiveFuel hi n (atB b t l)).bind fun r => .ok r.2 :=
  (allDirective_line hi (t.length + 1) n true b t 1 l (by omega) h).snd

theorem parse_filler (hi : Rune → Rune) {f : Bytes} (hf : Filler f) : parse hi f = .ok (.ok []) := by
  obtain ⟨s, h⟩ := allDirective_ok hi (.done hf) (f.length + 1) true 1 (by omega)
  rw [parse_eq hi (n := f.length + 1) (b := true) (l := 1) (by omega), h]; rfl

/-- Parsing goes on behind the first directive. -/
theorem parse_dir (hi : Rune → Rune) {f t rest : Bytes} {d : PDir} (hf : Filler f) (hd : Directive t d rest) :
    parse hi (f ++ t) = (parse hi rest).bind fun r => .ok (r.map (d :: ·)) := by
  obtain ⟨l1, e⟩ := readDirective_ok hi hf hd true 1
  have hlen := (directive_shorter hd).2
  rw [parse_eq hi (n := (f ++ t).length + 1) (b := true) (l := 1) (by omega),
    parse_eq hi (n := (f ++ t).length) (b := false) (l := l1) (t := rest) (by rw [List.length_append]; omega)]
  simp only [allDirectiveFuel, e, Res.bind_ok', SR.andThen]
  cases allDirectiveFuel hi (f ++ t).length (at' rest l1) with
  | panic => rfl
  | fuel => rfl
  | ok p => obtain ⟨s, v⟩ := p; cases v <;> rfl

/-- An error in the first directive is the result. -/
theorem parse_error (hi : Rune → Rune) {f t : Bytes} {s' : Scan} {l : Nat} {e : PErr} (hf : Filler f) (ht : ∃ c r, t = c :: r ∧ Letter c)
    (he : (at' t l).readDirective' hi = .ok (s', .error e)) : ∃ e', parse hi (f ++ t) = .ok (.error e') := by
  obtain ⟨l1, e1⟩ := readDirective_eq hi hf ht true 1
  have hs := readDirective'_line hi t l l1
  rw [he] at hs
  generalize hy : (at' t l1).readDirective' hi = y at hs e1
  cases hs with
  | ok h =>
    rw [parse_eq hi (n := (f ++ t).length + 1) (b := true) (l := 1) (by omega)]
    simp only [allDirectiveFuel, e1]
    cases e <;> exact ⟨_, rfl⟩

/-- Texts whose first directives read alike parse alike. -/
theorem parse_alike' (hi : Rune → Rune) {t t' : Bytes}
    (hs : Sim ((atB true t 1).readDirective hi) ((atB true t' 1).readDirective hi)) : parse hi t = parse hi t' := by
  rw [parse_eq hi (n := t.length + t'.length + 1) (b := true) (l := 1) (t := t) (by omega),
    parse_eq hi (n := t.length + t'.length + 1) (b := true) (l := 1) (t := t') (by omega)]
  have hx : ∀ s d, (atB true t 1).readDirective hi = .ok (s, .ok d) → s.buf = [] ∧ s.inp.length < t.length + t'.length := by
    intro s d hd
    rcases readDirective_cases hi true t 1 with ⟨_, _, e⟩ | ⟨_, _, _, e⟩ | ⟨f', u, rest, d', l', h1, _, h2, e⟩ | ⟨_, _, _, _, _, e⟩
    · rw [e] at hd; cases hd
    · rw [e] at hd; cases hd
    · rw [e] at hd
      simp only [Res.ok.injEq, Prod.mk.injEq] at hd
      obtain ⟨rfl, _⟩ := hd
      have := (directive_shorter h2).2
      rw [h1, List.length_append]
      exact ⟨rfl, by simp only; omega⟩
    · rw [e] at hd; cases hd
  refine Sim.snd ?_
  simp only [allDirectiveFuel]
  generalize (atB true t 1).readDirective hi = x at hs hx
  generalize (atB true t' 1).readDirective hi = y at hs
  cases hs with
  | panic => exact .panic
  | fuel => exact .fuel
  | @ok s s' v h =>
    cases v with
    | error e => cases e <;> exact .ok h
    | ok d =>
      obtain ⟨hb, hk⟩ := hx s d rfl
      obtain ⟨l, rfl⟩ := h
      obtain ⟨b, inp, buf, ln⟩ := s
      simp only at hb hk
      subst hb
      simp only [Res.bind_ok']
      exact (allDirective_line hi _ _ b b inp ln l hk hk).andThen fun _ _ _ h => .ok h

theorem parse_alike (hi : Rune → Rune) {f t t' : Bytes} (hf : Filler f) (ht : ∃ c r, t = c :: r ∧ Letter c)
    (ht' : ∃ c r, t' = c :: r ∧ Letter c)
    (h : ∀ l l', Sim ((at' t l).readDirective' hi) ((at' t' l').readDirective' hi)) : parse hi (f ++ t) = parse hi (f ++ t') := by
  obtain ⟨l1, e1⟩ := readDirective_eq hi hf ht true 1
  obtain ⟨l2, e2⟩ := readDirective_eq hi hf ht' true 1
  refine parse_alike' hi ?_
  rw [e1, e2]
  refine (h l1 l2).bind fun s s' v h => ?_
  cases v with
  | ok a => exact .ok h
  | error e => cases e <;> exact .ok h

/-- Leading filler does not matter. -/
theorem parse_skip (hi : Rune → Rune) {f : Bytes} (hf : Filler f) (t : Bytes) : parse hi (f ++ t) = parse hi t := by
  rcases skipLines_cases t 1 with ⟨g, h1, h2, h3⟩
  generalize (skipLines t 1).1 = u at h2 h3
  subst h2
  have hf' : Filler (f ++ g) := by
    intro c hc
    rcases List.mem_append.1 hc with hc | hc
    · exact hf c hc
    · exact h1 c hc
  obtain ⟨l1, e1⟩ := skipLines_filler (f ++ g) hf' h3 1
  obtain ⟨l2, e2⟩ := skipLines_filler g h1 h3 1
  rw [List.append_assoc] at e1
  refine parse_alike' hi ?_
  simp only [Scan.readDirective, e1, e2]
  cases u with
  | nil => exact .ok ⟨l2, rfl⟩
  | cons c u =>
    refine (readDirective'_line hi (c :: u) l1 l2).bind fun s s' v h => ?_
    cases v with
    | ok a => exact .ok h
    | error e => cases e <;> exact .ok h

end Verif
