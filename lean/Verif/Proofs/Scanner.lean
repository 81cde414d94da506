import Verif.Spec.Syntax
/-! The scanner reads exactly the tokens of the grammar. -/
namespace Verif
open Spec

theorem isBlank_iff (c : UInt8) : isBlank c = true ↔ Sp c := by
  simp only [isBlank, Bool.or_eq_true, beq_iff_eq, Sp]; grind

theorem isNewLine_iff (c : UInt8) : isNewLine c = true ↔ Nl c := by
  simp only [isNewLine, Bool.or_eq_true, beq_iff_eq, Nl]

theorem isQuote_iff (c : UInt8) : isQuote c = true ↔ Quote c := by
  simp only [isQuote, Bool.or_eq_true, beq_iff_eq, Quote]; grind

theorem isAlphabet_iff (c : UInt8) : isAlphabet c = true ↔ Letter c := by
  simp only [isAlphabet, Bool.or_eq_true, Bool.and_eq_true, decide_eq_true_eq, UInt8.le_iff_toNat_le, Letter]
  simp only [UInt8.reduceToNat]; grind

theorem escape_iff (e x : UInt8) : escape e = some x ↔ (e, x) ∈ escapes := by
  simp only [escapes, List.mem_cons, List.not_mem_nil, or_false, Prod.mk.injEq]
  constructor
  · intro h
    simp only [escape] at h
    repeat' split at h
    all_goals first
      | cases h; done
      | (cases h; subst_vars; simp)
  · rintro (⟨rfl, rfl⟩ | ⟨rfl, rfl⟩ | ⟨rfl, rfl⟩ | ⟨rfl, rfl⟩ | ⟨rfl, rfl⟩ | ⟨rfl, rfl⟩ | ⟨rfl, rfl⟩ | ⟨rfl, rfl⟩ |
      ⟨rfl, rfl⟩ | ⟨rfl, rfl⟩) <;> rfl

theorem escape_none_iff (e : UInt8) : escape e = none ↔ ∀ x, (e, x) ∉ escapes := by
  constructor
  · intro h x hx
    rw [(escape_iff e x).2 hx] at h; cases h
  · intro h
    cases he : escape e with
    | none => rfl
    | some x => exact absurd ((escape_iff e x).1 he) (h x)

theorem nl_not_escape {e x : UInt8} (h : (e, x) ∈ escapes) : ¬ Nl e := by
  intro hn
  simp only [escapes, List.mem_cons, List.not_mem_nil, or_false, Prod.mk.injEq] at h
  rcases hn with rfl | rfl <;> grind

/-! ### SkipBlank -/

theorem skipBlanks_stop {t : Bytes} (h : ∀ c, t.head? = some c → ¬ Sp c ∧ c ≠ 92) (l : Nat) :
    skipBlanks t l = some (t, l) := by
  cases t with
  | nil => simp [skipBlanks]
  | cons c r =>
    have := h c rfl
    rw [skipBlanks.eq_def]
    simp only [mt (isBlank_iff c).1 this.1, this.2]
    simp

theorem skipBlanks_blank {c : UInt8} (h : Sp c) (r : Bytes) (l : Nat) : skipBlanks (c :: r) l = skipBlanks r l := by
  rw [skipBlanks.eq_def]; simp only [(isBlank_iff c).2 h, if_true]

theorem skipBlanks_cont2 (r : Bytes) (l : Nat) : skipBlanks (92 :: 10 :: 13 :: r) l = skipBlanks r (l + 1) := by
  rw [skipBlanks.eq_def]; simp [isBlank]

theorem skipBlanks_cont {r : Bytes} (h : r.head? ≠ some 13) (l : Nat) :
    skipBlanks (92 :: 10 :: r) l = skipBlanks r (l + 1) := by
  rw [skipBlanks.eq_def]
  simp only [isBlank]
  cases r with
  | nil => simp
  | cons c r =>
    have : c ≠ 13 := by simpa using h
    simp [this]

theorem skipBlanks_stuck {r : Bytes} (h : r.head? ≠ some 10) (l : Nat) : skipBlanks (92 :: r) l = none := by
  rw [skipBlanks.eq_def]
  simp only [isBlank]
  cases r with
  | nil => simp
  | cons c r =>
    have : c ≠ 10 := by simpa using h
    simp [this]

theorem Spec.Gap.head {g : Bytes} (h : Gap g) : g.head? ≠ some 13 := by
  cases h with
  | nil => simp
  | blank h _ => rintro ⟨⟩; simp [Sp] at h
  | cont => simp
  | cont2 => simp

theorem head_append {g t : Bytes} {c : UInt8} (h1 : g.head? ≠ some c) (h2 : t.head? ≠ some c) : (g ++ t).head? ≠ some c := by
  cases g with
  | nil => exact h2
  | cons a g => exact h1

/-- A gap is skipped. -/
theorem skipBlanks_gap {g t : Bytes} (hg : Gap g) (ht : t.head? ≠ some 13) : ∀ l, ∃ l', skipBlanks (g ++ t) l = skipBlanks t l' := by
  induction hg with
  | nil => exact fun l => ⟨l, rfl⟩
  | blank h _ ih => intro l; rw [List.cons_append, skipBlanks_blank h]; exact ih l
  | cont h ih =>
    intro l
    rw [List.cons_append, List.cons_append, skipBlanks_cont (head_append h.head ht)]
    exact ih (l + 1)
  | cont2 h ih =>
    intro l
    rw [List.cons_append, List.cons_append, List.cons_append, skipBlanks_cont2]
    exact ih (l + 1)

/-- What is skipped is a gap, up to the next character that is none; or the scanner is stuck. -/
theorem skipBlanks_cases (t : Bytes) (l : Nat) : ∃ g r, Gap g ∧ t = g ++ r ∧
    ((∃ l', skipBlanks t l = some (r, l') ∧ ∀ c, r.head? = some c → ¬ Sp c ∧ c ≠ 92) ∨
      (skipBlanks t l = none ∧ ∃ r', r = 92 :: r' ∧ r'.head? ≠ some 10)) := by
  match t with
  | [] => exact ⟨[], [], .nil, rfl, .inl ⟨l, by simp [skipBlanks], by simp⟩⟩
  | c :: r =>
    by_cases hc : Sp c
    · obtain ⟨g, r', h1, h2, h3⟩ := skipBlanks_cases r l
      refine ⟨c :: g, r', .blank hc h1, by rw [h2]; rfl, ?_⟩
      rw [skipBlanks_blank hc]; exact h3
    · by_cases hb : c = 92
      · subst hb
        by_cases hr : r.head? = some 10
        · obtain ⟨r1, rfl⟩ : ∃ r1, r = 10 :: r1 := by
            cases r with
            | nil => cases hr
            | cons a r => simp only [List.head?_cons, Option.some.injEq] at hr; subst hr; exact ⟨r, rfl⟩
          by_cases h13 : r1.head? = some 13
          · obtain ⟨r2, rfl⟩ : ∃ r2, r1 = 13 :: r2 := by
              cases r1 with
              | nil => cases h13
              | cons a r => simp only [List.head?_cons, Option.some.injEq] at h13; subst h13; exact ⟨r, rfl⟩
            obtain ⟨g, r', h1, h2, h3⟩ := skipBlanks_cases r2 (l + 1)
            refine ⟨92 :: 10 :: 13 :: g, r', .cont2 h1, by rw [h2]; rfl, ?_⟩
            rw [skipBlanks_cont2]; exact h3
          · obtain ⟨g, r', h1, h2, h3⟩ := skipBlanks_cases r1 (l + 1)
            refine ⟨92 :: 10 :: g, r', .cont h1, by rw [h2]; rfl, ?_⟩
            rw [skipBlanks_cont h13]; exact h3
        · exact ⟨[], _, .nil, rfl, .inr ⟨skipBlanks_stuck hr l, r, rfl, hr⟩⟩
      · refine ⟨[], c :: r, .nil, rfl, .inl ⟨l, skipBlanks_stop ?_ l, ?_⟩⟩
        · intro d hd; cases hd; exact ⟨hc, hb⟩
        · intro d hd; cases hd; exact ⟨hc, hb⟩
termination_by t.length

/-- The literal loop of `SkipBlank` agrees with `skipBlanks`: enough iterations
give its result, and where that is `none` no number of iterations is enough. -/
theorem skipBlankFuel_ok (inp : Bytes) : ∀ (l : Nat) (buf : Bytes) {r : Bytes} {l' : Nat}, skipBlanks inp l = some (r, l') →
    ∀ n, inp.length < n → skipBlankFuel n { bos := false, inp, buf, line := l } = .ok { bos := false, inp := r, buf, line := l' } := by
  match inp with
  | [] =>
    intro l buf r l' h n hn
    obtain ⟨n, rfl⟩ : ∃ k, n = k + 1 := ⟨n - 1, by omega⟩
    simp only [skipBlanks, Option.some.injEq, Prod.mk.injEq] at h
    obtain ⟨rfl, rfl⟩ := h
    simp [skipBlankFuel]
  | c :: t =>
    intro l buf r l' h n hn
    obtain ⟨n, rfl⟩ : ∃ k, n = k + 1 := ⟨n - 1, by omega⟩
    simp only [List.length_cons] at hn
    by_cases hc : Sp c
    · rw [skipBlanks_blank hc] at h
      simp only [skipBlankFuel, (isBlank_iff c).2 hc, if_true, Bool.false_eq_true, if_false]
      exact skipBlankFuel_ok t l buf h n (by omega)
    · have hc' : isBlank c = false := Bool.eq_false_iff.2 (mt (isBlank_iff c).1 hc)
      by_cases hb : c = 92
      · subst hb
        by_cases hr : t.head? = some 10
        · obtain ⟨r1, rfl⟩ : ∃ r1, t = 10 :: r1 := by
            cases t with
            | nil => cases hr
            | cons a r => simp only [List.head?_cons, Option.some.injEq] at hr; subst hr; exact ⟨r, rfl⟩
          simp only [List.length_cons] at hn
          by_cases h13 : r1.head? = some 13
          · obtain ⟨r2, rfl⟩ : ∃ r2, r1 = 13 :: r2 := by
              cases r1 with
              | nil => cases h13
              | cons a r => simp only [List.head?_cons, Option.some.injEq] at h13; subst h13; exact ⟨r, rfl⟩
            simp only [List.length_cons] at hn
            rw [skipBlanks_cont2] at h
            have := skipBlankFuel_ok r2 (l + 1) buf h n (by omega)
            simpa [skipBlankFuel, hc', afterNewline, isNewLine] using this
          · rw [skipBlanks_cont h13] at h
            have := skipBlankFuel_ok r1 (l + 1) buf h n (by omega)
            have ha : afterNewline 10 r1 = r1 := by
              cases r1 with
              | nil => rfl
              | cons a r1 =>
                have : a ≠ 13 := by simpa using h13
                simp only [afterNewline]
                rw [if_neg]
                simp [isNewLine, this]
            simpa [skipBlankFuel, hc', ha] using this
        · rw [skipBlanks_stuck hr] at h; cases h
      · rw [skipBlanks_stop (fun d hd => by cases hd; exact ⟨hc, hb⟩)] at h
        simp only [Option.some.injEq, Prod.mk.injEq] at h
        obtain ⟨rfl, rfl⟩ := h
        simp [skipBlankFuel, hc', hb]
termination_by inp.length

theorem skipBlankFuel_stuck (inp : Bytes) : ∀ (l : Nat) (buf : Bytes), skipBlanks inp l = none →
    ∀ n, skipBlankFuel n { bos := false, inp, buf, line := l } = .fuel := by
  match inp with
  | [] => intro l buf h; simp [skipBlanks] at h
  | c :: t =>
    intro l buf h n
    obtain _ | n := n
    · rfl
    by_cases hc : Sp c
    · rw [skipBlanks_blank hc] at h
      simp only [skipBlankFuel, (isBlank_iff c).2 hc, if_true, Bool.false_eq_true, if_false]
      exact skipBlankFuel_stuck t l buf h n
    · have hc' : isBlank c = false := Bool.eq_false_iff.2 (mt (isBlank_iff c).1 hc)
      by_cases hb : c = 92
      · subst hb
        by_cases hr : t.head? = some 10
        · obtain ⟨r1, rfl⟩ : ∃ r1, t = 10 :: r1 := by
            cases t with
            | nil => cases hr
            | cons a r => simp only [List.head?_cons, Option.some.injEq] at hr; subst hr; exact ⟨r, rfl⟩
          by_cases h13 : r1.head? = some 13
          · obtain ⟨r2, rfl⟩ : ∃ r2, r1 = 13 :: r2 := by
              cases r1 with
              | nil => cases h13
              | cons a r => simp only [List.head?_cons, Option.some.injEq] at h13; subst h13; exact ⟨r, rfl⟩
            rw [skipBlanks_cont2] at h
            have := skipBlankFuel_stuck r2 (l + 1) buf h n
            simpa [skipBlankFuel, hc', afterNewline, isNewLine] using this
          · rw [skipBlanks_cont h13] at h
            have := skipBlankFuel_stuck r1 (l + 1) buf h n
            have ha : afterNewline 10 r1 = r1 := by
              cases r1 with
              | nil => rfl
              | cons a r1 =>
                have : a ≠ 13 := by simpa using h13
                simp only [afterNewline]
                rw [if_neg]
                simp [isNewLine, this]
            simpa [skipBlankFuel, hc', ha] using this
        · have : ∀ n, skipBlankFuel n { bos := false, inp := 92 :: t, buf, line := l } = .fuel := by
            intro n
            induction n with
            | zero => rfl
            | succ n ih => simpa [skipBlankFuel, isBlank, hr] using ih
          exact this _
      · rw [skipBlanks_stop (fun d hd => by cases hd; exact ⟨hc, hb⟩)] at h; cases h
termination_by inp.length

/-- `Scan.skipBlank` is the limit of the literal loop. -/
theorem skipBlank_literal (s : Scan) :
    (∀ s', s.skipBlank = .ok s' → ∃ n, ∀ m, n ≤ m → skipBlankFuel m s = .ok s') ∧
    (s.skipBlank = .fuel → ∀ n, skipBlankFuel n s = .fuel) := by
  obtain ⟨bos, inp, buf, line⟩ := s
  simp only [Scan.skipBlank]
  cases h : skipBlanks inp line with
  | none =>
    refine ⟨by simp, fun _ n => ?_⟩
    cases bos with
    | false => exact skipBlankFuel_stuck inp line buf h n
    | true =>
      cases n with
      | zero => rfl
      | succ n => simpa [skipBlankFuel] using skipBlankFuel_stuck inp line buf h n
  | some p =>
    obtain ⟨r, l'⟩ := p
    refine ⟨?_, by simp⟩
    intro s' hs
    simp only [Res.ok.injEq] at hs
    subst hs
    refine ⟨inp.length + 2, fun m hm => ?_⟩
    cases bos with
    | false => exact skipBlankFuel_ok inp line buf h m (by omega)
    | true =>
      obtain ⟨m, rfl⟩ : ∃ k, m = k + 1 := ⟨m - 1, by omega⟩
      simpa [skipBlankFuel] using skipBlankFuel_ok inp line buf h m (by omega)

/-! ### readString -/

/-- The loop reads what the grammar says. -/
theorem readStringLoop_lex {delim : UInt8 → Bool} {stop : UInt8 → Prop} (hd : ∀ c, delim c = true ↔ stop c)
    (h92 : ¬ stop 92) {eosDelim : Bool} {t v rest : Bytes} (h : Lex stop (eosDelim = true) t v rest) :
    ∀ buf line, ∃ line', readStringLoop delim eosDelim t buf line = ({ bos := false, inp := rest, buf := [], line := line' }, .ok (buf ++ v)) := by
  have d92 : delim 92 = false := Bool.eq_false_iff.2 (mt (hd 92).1 h92)
  induction h with
  | eos he => intro buf line; exact ⟨line, by rw [readStringLoop.eq_def]; simp [he]⟩
  | stop hc => intro buf line; exact ⟨line, by rw [readStringLoop.eq_def]; simp [(hd _).2 hc]⟩
  | @plain c r v rest h1 h2 h3 _ ih =>
    intro buf line
    obtain ⟨l', ih⟩ := ih (buf ++ [c]) line
    refine ⟨l', ?_⟩
    rw [readStringLoop.eq_def]
    have h2' : ¬ (c = 10 ∨ c = 13) := h2
    simp only [mt (hd c).1 h1, h2', h3, if_false]
    rw [ih]; simp
  | @esc e x r v rest h1 _ ih =>
    intro buf line
    obtain ⟨l', ih⟩ := ih (buf ++ [x]) line
    refine ⟨l', ?_⟩
    rw [readStringLoop.eq_def]
    simp only [d92, Bool.false_eq_true, if_false, (escape_iff e x).2 h1, if_true]
    simp [ih]
  | @line2 a b r v rest ha hb hab _ ih =>
    intro buf line
    obtain ⟨l', ih⟩ := ih (buf ++ [10]) (line + 1)
    refine ⟨l', ?_⟩
    have he : escape a = none := by rcases ha with rfl | rfl <;> rfl
    rw [readStringLoop.eq_def]
    simp only [d92, Bool.false_eq_true, if_false, he, (isNewLine_iff a).2 ha, (isNewLine_iff b).2 hb, if_true]
    have : (b != a) = true := by simp [Ne.symm hab]
    simp [ih, this]
  | @line1 a r v rest ha hn _ ih =>
    intro buf line
    obtain ⟨l', ih⟩ := ih (buf ++ [10]) (line + 1)
    refine ⟨l', ?_⟩
    have he : escape a = none := by rcases ha with rfl | rfl <;> rfl
    rw [readStringLoop.eq_def]
    simp only [d92, Bool.false_eq_true, if_false, he, (isNewLine_iff a).2 ha, if_true]
    cases r with
    | nil => simp [ih]
    | cons b r =>
      have : (isNewLine b && b != a) = false := by
        cases hb : isNewLine b with
        | false => rfl
        | true => simp [hn b rfl ((isNewLine_iff b).1 hb)]
      simp [ih, this]
  | @other e r v rest h1 h2 _ ih =>
    intro buf line
    obtain ⟨l', ih⟩ := ih (buf ++ [e]) line
    refine ⟨l', ?_⟩
    rw [readStringLoop.eq_def]
    have : isNewLine e = false := Bool.eq_false_iff.2 (mt (isNewLine_iff e).1 h1)
    simp only [d92, Bool.false_eq_true, if_false, (escape_none_iff e).2 h2, if_true, this]
    simp [ih]

/-- What the loop accepts is in the grammar (except a lone quote at the end of
the text, read as the empty string). -/
theorem lex_of_readStringLoop {delim : UInt8 → Bool} {stop : UInt8 → Prop} (hd : ∀ c, delim c = true ↔ stop c)
    {eosDelim : Bool} (t : Bytes) : ∀ (buf : Bytes) (line : Nat) {s' : Scan} {w : Bytes},
    readStringLoop delim eosDelim t buf line = (s', .ok w) → (∃ v, w = buf ++ v ∧ Lex stop (eosDelim = true) t v s'.inp ∧ s'.buf = [] ∧ s'.bos = false) ∨
      (t = [] ∧ buf = [] ∧ w = [] ∧ s' = { bos := false, inp := [], buf := [], line }) := by
  match t with
  | [] =>
    intro buf line s' w h
    rw [readStringLoop.eq_def] at h
    simp only at h
    split at h
    · rename_i he
      simp only [Prod.mk.injEq, Except.ok.injEq] at h
      obtain ⟨rfl, rfl⟩ := h
      exact .inl ⟨[], by simp, .eos he, rfl, rfl⟩
    · split at h
      · cases h
      · rename_i hb
        have hb : buf = [] := by
          cases buf with
          | nil => rfl
          | cons => simp at hb
        subst hb
        simp only [Prod.mk.injEq, Except.ok.injEq] at h
        obtain ⟨rfl, rfl⟩ := h
        exact .inr ⟨rfl, rfl, rfl, rfl⟩
  | c :: r =>
    intro buf line s' w h
    rw [readStringLoop.eq_def] at h
    simp only at h
    split at h
    · rename_i hc
      simp only [Prod.mk.injEq, Except.ok.injEq] at h
      obtain ⟨rfl, rfl⟩ := h
      exact .inl ⟨[], by simp, .stop ((hd c).1 hc), rfl, rfl⟩
    rename_i hc
    split at h
    · cases h
    rename_i hn
    split at h
    · rename_i hb
      subst hb
      cases r with
      | nil => cases h
      | cons e r' =>
        simp only at h
        cases he : escape e with
        | some x =>
          rw [he] at h
          simp only at h
          rcases lex_of_readStringLoop hd r' _ _ h with ⟨v, rfl, hv, h1, h2⟩ | ⟨_, h', _⟩
          · exact .inl ⟨x :: v, by simp, .esc ((escape_iff e x).1 he) hv, h1, h2⟩
          · simp at h'
        | none =>
          rw [he] at h
          simp only at h
          split at h
          · rename_i hnl
            have hnl := (isNewLine_iff e).1 hnl
            cases r' with
            | nil =>
              simp only at h
              rcases lex_of_readStringLoop hd [] _ _ h with ⟨v, rfl, hv, h1, h2⟩ | ⟨_, h', _⟩
              · exact .inl ⟨10 :: v, by simp, .line1 hnl (by simp) hv, h1, h2⟩
              · simp at h'
            | cons c' r'' =>
              simp only at h
              split at h
              · rename_i hx
                simp only [Bool.and_eq_true, bne_iff_ne] at hx
                rcases lex_of_readStringLoop hd r'' _ _ h with ⟨v, rfl, hv, h1, h2⟩ | ⟨_, h', _⟩
                · exact .inl ⟨10 :: v, by simp, .line2 hnl ((isNewLine_iff _).1 hx.1) (Ne.symm hx.2) hv, h1, h2⟩
                · simp at h'
              · rename_i hx
                simp only [Bool.and_eq_true, bne_iff_ne, not_and, Decidable.not_not] at hx
                rcases lex_of_readStringLoop hd (c' :: r'') _ _ h with ⟨v, rfl, hv, h1, h2⟩ | ⟨_, h', _⟩
                · refine .inl ⟨10 :: v, by simp, .line1 hnl ?_ hv, h1, h2⟩
                  intro b hb hb2
                  cases hb
                  exact hx ((isNewLine_iff _).2 hb2)
                · simp at h'
          · rename_i hnl
            rcases lex_of_readStringLoop hd r' _ _ h with ⟨v, rfl, hv, h1, h2⟩ | ⟨_, h', _⟩
            · exact .inl ⟨e :: v, by simp, .other (mt (isNewLine_iff e).2 hnl) ((escape_none_iff e).1 he) hv, h1, h2⟩
            · simp at h'
    · rename_i hb
      rcases lex_of_readStringLoop hd r _ _ h with ⟨v, rfl, hv, h1, h2⟩ | ⟨_, h', _⟩
      · exact .inl ⟨c :: v, by simp, .plain (mt (hd c).2 hc) hn hb hv, h1, h2⟩
      · simp at h'
termination_by t.length

/-- Whatever the loop does, it leaves a suffix of its input. -/
theorem readStringLoop_suffix {delim : UInt8 → Bool} {eosDelim : Bool} (t : Bytes) : ∀ (buf : Bytes) (line : Nat),
    (readStringLoop delim eosDelim t buf line).1.inp <:+ t := by
  match t with
  | [] =>
    intro buf line
    rw [readStringLoop.eq_def]
    simp only
    split
    · exact List.suffix_refl _
    · split <;> exact List.suffix_refl _
  | c :: r =>
    intro buf line
    rw [readStringLoop.eq_def]
    simp only
    split
    · exact List.suffix_cons _ _
    split
    · exact List.suffix_refl _
    split
    · cases r with
      | nil => exact List.suffix_cons _ _
      | cons e r' =>
        have two : r' <:+ c :: e :: r' := (List.suffix_cons e r').trans (List.suffix_cons c _)
        simp only
        split
        · exact (readStringLoop_suffix r' _ _).trans two
        · split
          · cases r' with
            | nil => exact (readStringLoop_suffix [] _ _).trans two
            | cons c' r'' =>
              simp only
              split
              · exact (readStringLoop_suffix r'' _ _).trans ((List.suffix_cons c' r'').trans two)
              · exact (readStringLoop_suffix (c' :: r'') _ _).trans two
          · exact (readStringLoop_suffix r' _ _).trans two
    · exact (readStringLoop_suffix r _ _).trans (List.suffix_cons _ _)
termination_by t.length

/-- `ReadString` reads a token. -/
theorem readString_token {t v rest : Bytes} (h : Token t v rest) (bos : Bool) (l : Nat) : ∃ l',
    Scan.readString { bos, inp := t, buf := [], line := l } = .ok ({ bos := false, inp := rest, buf := [], line := l' }, .ok v) := by
  cases h with
  | @quoted g t v rest q hg hq ht =>
    have hq13 : (q :: t).head? ≠ some 13 := by rcases hq with rfl | rfl <;> simp
    obtain ⟨l1, h1⟩ := skipBlanks_gap hg hq13 l
    rw [skipBlanks_stop (t := q :: t) (by intro c hc; cases hc; rcases hq with rfl | rfl <;> simp [Sp])] at h1
    have hd : ∀ c : UInt8, (c == q) = true ↔ c = q := fun c => by simp
    have h92 : ¬ ((92 : UInt8) = q) := by rcases hq with rfl | rfl <;> decide
    obtain ⟨l2, h2⟩ := readStringLoop_lex (delim := (· == q)) (eosDelim := false) hd h92 (by simpa using ht) [] l1
    refine ⟨l2, ?_⟩
    simp only [Scan.readString, Scan.skipBlank, h1, Res.bind_ok']
    rcases hq with rfl | rfl
    · simp [isNewLine, Scan.readStringDelim, h2]
    · simp [isNewLine, Scan.readStringDelim, h2]
  | @bare g t v rest c hg h1 h2 h3 h4 ht =>
    have h13 : (c :: t).head? ≠ some 13 := by simp only [List.head?_cons, ne_eq, Option.some.injEq]; exact fun e => h2 (.inr e)
    obtain ⟨l1, hs⟩ := skipBlanks_gap hg h13 l
    rw [skipBlanks_stop (t := c :: t) (by intro c hc; cases hc; exact ⟨h1, h4⟩)] at hs
    have hd : ∀ c : UInt8, (isBlank c || isNewLine c) = true ↔ (Sp c ∨ Nl c) := fun c => by
      rw [Bool.or_eq_true, isBlank_iff, isNewLine_iff]
    have h92 : ¬ (Sp 92 ∨ Nl 92) := by simp [Sp, Nl]
    obtain ⟨l2, h5⟩ := readStringLoop_lex (delim := fun c => isBlank c || isNewLine c) (eosDelim := true) hd h92
      (by simpa using ht) [] l1
    refine ⟨l2, ?_⟩
    have hn : isNewLine c = false := Bool.eq_false_iff.2 (mt (isNewLine_iff c).1 h2)
    have hb : isBlank c = false := Bool.eq_false_iff.2 (mt (isBlank_iff c).1 h1)
    have q1 : c ≠ 34 := fun e => h3 (.inl e)
    have q2 : c ≠ 39 := fun e => h3 (.inr e)
    simp only [Scan.readString, Scan.skipBlank, hs, Res.bind_ok', hn, q1, q2, Bool.false_eq_true, if_false,
      Scan.readStringDelim, hb, Bool.or_false, h5, List.nil_append]

/-- A non-empty string that `ReadString` returns is a token. -/
theorem token_of_readString {s s' : Scan} {v : Bytes} (hb : s.buf = []) (h : s.readString = .ok (s', .ok v)) (hv : v ≠ []) :
    Token s.inp v s'.inp ∧ s'.buf = [] ∧ s'.bos = false := by
  obtain ⟨bos, inp, buf, line⟩ := s
  simp only at hb
  subst hb
  obtain ⟨g, r, hg, rfl, hc⟩ := skipBlanks_cases inp line
  rcases hc with ⟨l', hs, hr⟩ | ⟨hs, _⟩
  · simp only [Scan.readString, Scan.skipBlank, hs, Res.bind_ok'] at h
    cases r with
    | nil => cases h
    | cons c r =>
      obtain ⟨h1, h4⟩ := hr c rfl
      simp only at h
      split at h
      · simp only [Res.ok.injEq, Prod.mk.injEq, Except.ok.injEq] at h
        exact absurd h.2.symm hv
      rename_i hn
      have h2 := mt (isNewLine_iff c).2 hn
      have quoted : ∀ q, Quote q → (Res.ok (Scan.readStringDelim ⟨false, q :: r, [], l'⟩ (· == q) false)) = .ok (s', .ok v) →
          Token (g ++ q :: r) v s'.inp ∧ s'.buf = [] ∧ s'.bos = false := by
        intro q hq h
        simp only [Scan.readStringDelim, Res.ok.injEq, beq_self_eq_true, if_true] at h
        rcases lex_of_readStringLoop (stop := (· = q)) (by simp) r [] l' h with ⟨w, rfl, hw, e1, e2⟩ | ⟨_, _, h', _⟩
        · exact ⟨.quoted hg hq (by simpa using hw), e1, e2⟩
        · exact absurd h' hv
      split at h
      · rename_i hq; subst hq; exact quoted 34 (.inl rfl) h
      split at h
      · rename_i hq; subst hq; exact quoted 39 (.inr rfl) h
      rename_i q1 q2
      have hd : ∀ c : UInt8, (isBlank c || isNewLine c) = true ↔ (Sp c ∨ Nl c) := fun c => by
        rw [Bool.or_eq_true, isBlank_iff, isNewLine_iff]
      have hdc : (isBlank c || isNewLine c) = false := Bool.eq_false_iff.2 (mt (hd c).1 (by simp [h1, h2]))
      simp only [Scan.readStringDelim, Res.ok.injEq, hdc, Bool.false_eq_true, if_false] at h
      rcases lex_of_readStringLoop hd (c :: r) [] l' h with ⟨w, rfl, hw, e1, e2⟩ | ⟨h', _⟩
      · exact ⟨.bare hg h1 h2 (by simp [Quote, q1, q2]) h4 (by simpa using hw), e1, e2⟩
      · cases h'
  · simp only [Scan.readString, Scan.skipBlank, hs, Res.bind_fuel'] at h
    cases h

/-- `ReadString` fails to return exactly when a backslash not followed by a line feed comes after a gap. -/
theorem readString_fuel (s : Scan) : s.readString = .fuel ↔
    ∃ g r, Gap g ∧ s.inp = g ++ 92 :: r ∧ r.head? ≠ some 10 := by
  constructor
  · intro h
    obtain ⟨g, r, hg, he, hc⟩ := skipBlanks_cases s.inp s.line
    rcases hc with ⟨l', hs, _⟩ | ⟨_, r', rfl, h'⟩
    · exfalso
      revert h
      simp only [Scan.readString, Scan.skipBlank, hs, Res.bind_ok']
      cases r with
      | nil => simp
      | cons c r => simp only; (repeat' split) <;> simp
    · exact ⟨g, r', hg, he, h'⟩
  · rintro ⟨g, r, hg, he, hr⟩
    obtain ⟨l', h⟩ := skipBlanks_gap hg (t := 92 :: r) (by simp) s.line
    rw [skipBlanks_stuck hr] at h
    simp only [Scan.readString, Scan.skipBlank, he, h, Res.bind_fuel']

theorem readString_ne_panic (s : Scan) : s.readString ≠ .panic := by
  simp only [Scan.readString, Scan.skipBlank]
  cases skipBlanks s.inp s.line with
  | none => simp
  | some p =>
    simp only [Res.bind_ok']
    cases p.1 with
    | nil => simp
    | cons c r => simp only; (repeat' split) <;> simp

theorem afterNewline_suffix (c : UInt8) (r : Bytes) : afterNewline c r <:+ r := by
  cases r with
  | nil => exact List.suffix_refl _
  | cons a r => simp only [afterNewline]; split <;> first | exact List.suffix_cons _ _ | exact List.suffix_refl _

theorem readStringDelim_suffix (s : Scan) (delim : UInt8 → Bool) (eosDelim : Bool) :
    (s.readStringDelim delim eosDelim).1.inp <:+ s.inp := by
  simp only [Scan.readStringDelim]
  refine (readStringLoop_suffix _ _ _).trans ?_
  cases s.inp with
  | nil => exact List.suffix_refl _
  | cons c r => simp only; split <;> first | exact List.suffix_cons _ _ | exact List.suffix_refl _

theorem readString_suffix {s s' : Scan} {v : Except PErr Bytes} (h : s.readString = .ok (s', v)) : s'.inp <:+ s.inp := by
  obtain ⟨g, r, hg, he, hc⟩ := skipBlanks_cases s.inp s.line
  rcases hc with ⟨l', hs, _⟩ | ⟨hs, _⟩
  · simp only [Scan.readString, Scan.skipBlank, hs, Res.bind_ok'] at h
    have hr : r <:+ s.inp := ⟨g, he.symm⟩
    cases r with
    | nil =>
      simp only [Res.ok.injEq, Prod.mk.injEq] at h
      rw [← h.1]; exact hr
    | cons c r =>
      simp only at h
      have key : ∀ d e, (Scan.readStringDelim ⟨false, c :: r, s.buf, l'⟩ d e) = (s', v) → s'.inp <:+ s.inp := by
        intro d e h
        have := readStringDelim_suffix ⟨false, c :: r, s.buf, l'⟩ d e
        rw [h] at this
        exact this.trans hr
      split at h
      · simp only [Res.ok.injEq, Prod.mk.injEq] at h
        rw [← h.1]; exact ((afterNewline_suffix c r).trans (List.suffix_cons _ _)).trans hr
      · split at h
        · exact key _ _ (Res.ok.inj h)
        · split at h <;> exact key _ _ (Res.ok.inj h)
  · simp only [Scan.readString, Scan.skipBlank, hs, Res.bind_fuel'] at h
    cases h

end Verif
