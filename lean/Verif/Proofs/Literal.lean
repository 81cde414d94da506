import Verif.Model.Literal
import Verif.Proofs.Scanner
import Verif.Proofs.Parser
import Verif.Proofs.ParserDirs
/-! The scanner read character by character does what the scanner on a text does. -/
namespace Verif

/-- What is still to be read of a source is `rest`, and then nothing but errors. -/
def Ahead (l : Lit) (rest : Bytes) : Prop := ∀ i, (l.src (l.pos + i)).got = rest[i]?

/-- The current character and what follows it. -/
def Facing (l : Lit) : Bytes → Prop
  | [] => l.cur = .eos ∧ Ahead l []
  | c :: r => l.cur = .ch c ∧ Ahead l r

/-- The state of a scanner read character by character, and that of a scanner on a text. -/
structure Holds (l : Lit) (s : Scan) : Prop where
  buf : s.buf = l.buf
  line : s.line = l.line
  place : if s.bos then l.cur = .bos ∧ Ahead l s.inp else Facing l s.inp

/-- Enough turns, and there is the same result; too few, and there is none. -/
def Yields {α : Type} (f : Nat → Res (Lit × α)) : Res (Scan × α) → Prop
  | .ok (s, a) => ∃ l N, Holds l s ∧ ∀ n, f n = if n < N then .fuel else .ok (l, a)
  | .panic => ∃ N, ∀ n, f n = if n < N then .fuel else .panic
  | .fuel => ∀ n, f n = .fuel

theorem Yields.ok {α : Type} {l : Lit} {s : Scan} (h : Holds l s) (a : α) : Yields (fun _ => .ok (l, a)) (.ok (s, a)) :=
  ⟨l, 0, h, fun _ => rfl⟩

/-- One more turn. -/
theorem Yields.turn {α : Type} {f g : Nat → Res (Lit × α)} {x : Res (Scan × α)} (h : Yields f x) (h0 : g 0 = .fuel) (hs : ∀ n, g (n + 1) = f n) : Yields g x := by
  cases x with
  | ok p =>
    obtain ⟨l, N, h1, h2⟩ := h
    refine ⟨l, N + 1, h1, fun n => ?_⟩
    cases n with
    | zero => rw [h0]; rfl
    | succ n => rw [hs, h2]; simp only [Nat.add_lt_add_iff_right]
  | panic =>
    obtain ⟨N, h2⟩ := h
    refine ⟨N + 1, fun n => ?_⟩
    cases n with
    | zero => rw [h0]; rfl
    | succ n => rw [hs, h2]; simp only [Nat.add_lt_add_iff_right]
  | fuel => intro n; cases n with
    | zero => exact h0
    | succ n => rw [hs]; exact h n

/-- The last turn. -/
theorem Yields.last {α : Type} {g : Nat → Res (Lit × α)} {l : Lit} {s : Scan} {a : α} (h : Holds l s) (h0 : g 0 = .fuel) (hs : ∀ n, g (n + 1) = .ok (l, a)) :
    Yields g (.ok (s, a)) := Yields.turn (f := fun _ => .ok (l, a)) (.ok h a) h0 hs

theorem Yields.after {α β : Type} {f : Nat → Res (Lit × α)} {p : Lit × α} {N : Nat} {g : Lit × α → Nat → Res (Lit × β)} {y : Res (Scan × β)}
    (h : ∀ n, f n = if n < N then .fuel else .ok p) (hg : Yields (g p) y) : Yields (fun n => (f n).bind fun p => g p n) y := by
  have e : ∀ n, ((f n).bind fun p => g p n) = if n < N then .fuel else g p n := by
    intro n
    rw [h]
    by_cases c : n < N
    · simp only [c, if_true, Res.bind_fuel']
    · simp only [c, if_false, Res.bind_ok']
  cases y with
  | ok q =>
    obtain ⟨l', N', h3, h4⟩ := hg
    refine ⟨l', max N N', h3, fun n => ?_⟩
    simp only [e, h4]
    by_cases c : n < N
    · rw [if_pos c, if_pos (by omega)]
    · rw [if_neg c]
      by_cases c' : n < N'
      · rw [if_pos c', if_pos (by omega)]
      · rw [if_neg c', if_neg (by omega)]
  | panic =>
    obtain ⟨N', h4⟩ := hg
    refine ⟨max N N', fun n => ?_⟩
    simp only [e, h4]
    by_cases c : n < N
    · rw [if_pos c, if_pos (by omega)]
    · rw [if_neg c]
      by_cases c' : n < N'
      · rw [if_pos c', if_pos (by omega)]
      · rw [if_neg c', if_neg (by omega)]
  | fuel =>
    intro n
    simp only [e]
    rw [hg n]
    exact ite_self _

theorem Yields.bind {α β : Type} {f : Nat → Res (Lit × α)} {x : Res (Scan × α)} {g : Lit × α → Nat → Res (Lit × β)} {k : Scan × α → Res (Scan × β)}
    (h : Yields f x) (hg : ∀ l s a, Holds l s → Yields (g (l, a)) (k (s, a))) : Yields (fun n => (f n).bind fun p => g p n) (x.bind k) := by
  cases x with
  | ok p =>
    obtain ⟨s, a⟩ := p
    obtain ⟨l, N, h1, h2⟩ := h
    exact Yields.after h2 (hg l s a h1)
  | panic =>
    obtain ⟨N, h2⟩ := h
    refine ⟨N, fun n => ?_⟩
    simp only [h2]
    by_cases c : n < N
    · simp only [c, if_true, Res.bind_fuel']
    · simp only [c, if_false, Res.bind_panic']
  | fuel => intro n; simp only [h n, Res.bind_fuel']

theorem Yields.andThen {α β : Type} {f : Nat → LR α} {x : SR α} {g : α → Lit → Nat → LR β} {k : α → Scan → SR β}
    (h : Yields f x) (hg : ∀ a l s, Holds l s → Yields (g a l) (k a s)) : Yields (fun n => LR.andThen (f n) fun a l => g a l n) (SR.andThen x k) := by
  refine Yields.bind (g := fun (p : Lit × Except PErr α) n => (match p with
    | (s, .ok a) => g a s n
    | (s, .error e) => .ok (s, .error e) : LR β)) h fun l s a hl => ?_
  cases a with
  | ok a => exact hg a l s hl
  | error e => exact Yields.ok hl _

/-! ### Characters -/

theorem advance_at {l : Lit} {rest : Bytes} (h : Ahead l rest) : Facing l.advance rest ∧ l.advance.buf = l.buf ∧ l.advance.line = l.line := by
  have h0 := h 0
  simp only [Nat.add_zero] at h0
  have shift : ∀ {c : Cur} {r : Bytes}, (∀ i, rest[i + 1]? = r[i]?) → Ahead { l with pos := l.pos + 1, cur := c } r := by
    intro c r hr i
    show (l.src (l.pos + 1 + i)).got = r[i]?
    rw [← hr i, ← h (i + 1)]
    congr 2; omega
  cases rest with
  | nil =>
    simp only [Lit.advance, h0, List.getElem?_nil]
    exact ⟨⟨rfl, shift fun i => rfl⟩, trivial, trivial⟩
  | cons c r =>
    simp only [Lit.advance, h0, List.getElem?_cons_zero]
    exact ⟨⟨rfl, shift fun i => rfl⟩, trivial, trivial⟩

theorem Facing.advance {l : Lit} {inp : Bytes} (h : Facing l inp) : Facing l.advance inp.tail ∧ l.advance.buf = l.buf ∧ l.advance.line = l.line := by
  cases inp with
  | nil => exact advance_at h.2
  | cons c r => exact advance_at h.2

theorem Facing.save {l : Lit} {inp : Bytes} (h : Facing l inp) (c : UInt8) : Facing (l.save c) inp := by
  cases inp <;> exact h

theorem Facing.line {l : Lit} {inp : Bytes} (h : Facing l inp) (k : Nat) : Facing { l with line := k } inp := by
  cases inp <;> exact h

theorem Facing.buf {l : Lit} {inp : Bytes} (h : Facing l inp) (b : Bytes) : Facing { l with buf := b } inp := by
  cases inp <;> exact h

theorem Facing.among_cons {l : Lit} {c : UInt8} {r : Bytes} (h : Facing l (c :: r)) (f : UInt8 → Bool) : l.cur.among f = f c := by
  rw [h.1]; rfl

theorem Facing.among_nil {l : Lit} (h : Facing l []) (f : UInt8 → Bool) : l.cur.among f = false := by
  rw [h.1]; rfl

theorem Facing.is {l : Lit} {c : UInt8} {r : Bytes} (h : Facing l (c :: r)) (d : UInt8) : l.cur = .ch d ↔ c = d := by
  rw [h.1]; exact ⟨fun e => by cases e; rfl, fun e => by rw [e]⟩

theorem Facing.ne_bos {l : Lit} {inp : Bytes} (h : Facing l inp) : l.cur ≠ .bos := by
  cases inp with
  | nil => rw [h.1]; simp
  | cons c r => rw [h.1]; simp

theorem Facing.ne_eos {l : Lit} {c : UInt8} {r : Bytes} (h : Facing l (c :: r)) : l.cur ≠ .eos := by
  rw [h.1]; simp

theorem Facing.saveAndAdvance {l : Lit} {c : UInt8} {r : Bytes} (h : Facing l (c :: r)) :
    Facing l.saveAndAdvance r ∧ l.saveAndAdvance.buf = l.buf ++ [c] ∧ l.saveAndAdvance.line = l.line := by
  have := (h.save l.cur.byte).advance
  refine ⟨this.1, ?_, this.2.2⟩
  rw [Lit.saveAndAdvance, this.2.1, Lit.save, h.1]
  rfl

theorem Facing.newline {l : Lit} {c : UInt8} {r : Bytes} (h : Facing l (c :: r)) :
    Facing l.incrementLineNumber (afterNewline c r) ∧ l.incrementLineNumber.buf = l.buf ∧ l.incrementLineNumber.line = l.line + 1 := by
  obtain ⟨h1, h2, h3⟩ := h.advance
  have h1 : Facing l.advance r := h1
  simp only [Lit.incrementLineNumber]
  cases r with
  | nil =>
    simp only [h1.among_nil, Bool.false_eq_true, false_and, if_false]
    exact ⟨h1.line _, h2, by rw [h3]⟩
  | cons d r =>
    have e : (l.advance.cur ≠ l.cur) ↔ d ≠ c := by rw [h1.1, h.1]; simp
    simp only [h1.among_cons, e, afterNewline]
    by_cases hd : isNewLine d = true ∧ d ≠ c
    · obtain ⟨k1, k2, k3⟩ := h1.advance
      rw [if_pos hd]
      have : (isNewLine d && d != c) = true := by simp [hd]
      rw [if_pos this]
      exact ⟨k1.line _, k2.trans h2, by rw [k3, h3]⟩
    · rw [if_neg hd]
      have : ¬ (isNewLine d && d != c) = true := by simpa using hd
      rw [if_neg this]
      exact ⟨h1.line _, h2, by rw [h3]⟩

theorem Facing.holds {l : Lit} {inp : Bytes} (h : Facing l inp) : Holds l { bos := false, inp, buf := l.buf, line := l.line } := ⟨rfl, rfl, h⟩

theorem Facing.holds' {l : Lit} {inp : Bytes} (h : Facing l inp) {b : Bytes} {k : Nat} (hb : l.buf = b) (hk : l.line = k) :
    Holds l { bos := false, inp, buf := b, line := k } := ⟨hb.symm, hk.symm, h⟩

/-! ### Words, blanks, strings -/

theorem readWord_at (inp : Bytes) : ∀ {l : Lit}, Facing l inp →
    Yields (fun n => l.readWord n) (.ok ({ bos := false, inp := (readLetters inp).2, buf := [], line := l.line }, l.buf ++ (readLetters inp).1)) := by
  induction inp with
  | nil =>
    intro l h
    refine Yields.last (l := { l with buf := [] }) ((h.buf []).holds' rfl rfl) rfl fun n => ?_
    simp only [Lit.readWord, h.among_nil, Bool.false_eq_true, if_false, readLetters, List.append_nil]
  | cons c r ih =>
    intro l h
    simp only [readLetters]
    by_cases hc : isAlphabet c = true
    · simp only [hc, if_true]
      obtain ⟨h1, h2, h3⟩ := h.saveAndAdvance
      have := ih h1
      rw [h2, h3, List.append_assoc] at this
      refine Yields.turn this rfl fun n => ?_
      simp only [Lit.readWord, h.among_cons, hc, if_true]
    · simp only [hc, Bool.false_eq_true, if_false]
      refine Yields.last (l := { l with buf := [] }) ((h.buf []).holds' rfl rfl) rfl fun n => ?_
      simp only [Lit.readWord, h.among_cons, hc, Bool.false_eq_true, if_false, List.append_nil]

theorem readWord_yields {l : Lit} {s : Scan} (h : Holds l s) : Yields (fun n => l.readWord n) (.ok s.readWord) := by
  obtain ⟨bos, inp, buf, line⟩ := s
  obtain ⟨h1, h2, h3⟩ := h
  simp only at h1 h2 h3
  subst h1 h2
  cases bos with
  | true =>
    simp only [if_true] at h3
    refine Yields.last (l := { l with buf := [] }) ⟨rfl, rfl, ?_⟩ rfl fun n => ?_
    · simp only [Scan.readWord, if_true]; exact h3
    · simp only [Lit.readWord, h3.1, Cur.among, Bool.false_eq_true, if_false, Scan.readWord, if_true]
  | false => exact readWord_at inp h3

/-- The blanks of `Scan.skipBlank` with a result of no interest. -/
def Scan.skips (s : Scan) : Res (Scan × Unit) := s.skipBlank.bind fun s => .ok (s, ())

theorem skipBlank_at (inp : Bytes) (k : Nat) : ∀ {l : Lit}, Facing l inp → l.line = k →
    Yields (fun n => l.skipBlank n) (match skipBlanks inp k with | some (r, k') => .ok ({ bos := false, inp := r, buf := l.buf, line := k' }, ()) | none => .fuel) := by
  fun_induction skipBlanks inp k with
  | case1 k =>
    intro l h hk
    refine Yields.last (h.holds' rfl hk) rfl fun n => ?_
    simp only [Lit.skipBlank, h.ne_bos, h.among_nil, Bool.false_eq_true, if_false]
    rw [if_neg (by rw [h.1]; simp)]
  | case2 k c r hc ih =>
    intro l h hk
    obtain ⟨h1, h2, h3⟩ := h.advance
    have := ih h1 (h3.trans hk)
    rw [h2] at this
    refine Yields.turn this rfl fun n => ?_
    simp only [Lit.skipBlank, h.ne_bos, h.among_cons, hc, if_true, if_false]
  | case3 k r hb ih =>
    intro l h hk
    obtain ⟨h1, h2, h3⟩ := h.advance
    have h1 : Facing l.advance (10 :: 13 :: r) := h1
    obtain ⟨k1, k2, k3⟩ := h1.newline
    have := ih k1 (by rw [k3, h3, hk])
    rw [k2, h2] at this
    refine Yields.turn this rfl fun n => ?_
    have hn : (l.src l.pos).got = some 10 := by have := h.2 0; simpa using this
    rw [Lit.skipBlank, if_neg h.ne_bos, if_neg (by rw [h.among_cons]; decide), if_pos ((h.is 92).2 rfl), Lit.next, hn]; rfl
  | case4 k r hr hb ih =>
    intro l h hk
    obtain ⟨h1, h2, h3⟩ := h.advance
    have h1 : Facing l.advance (10 :: r) := h1
    obtain ⟨k1, k2, k3⟩ := h1.newline
    have e : afterNewline 10 r = r := by
      cases r with
      | nil => rfl
      | cons d r =>
        simp only [afterNewline]
        rw [if_neg]
        intro hd
        simp only [isNewLine, Bool.and_eq_true, Bool.or_eq_true, beq_iff_eq, bne_iff_ne] at hd
        rcases hd.1 with e | e
        · exact hd.2 e
        · exact hr r (by rw [e])
    rw [e] at k1
    have := ih k1 (by rw [k3, h3, hk])
    rw [k2, h2] at this
    refine Yields.turn this rfl fun n => ?_
    have hn : (l.src l.pos).got = some 10 := by have := h.2 0; simpa using this
    rw [Lit.skipBlank, if_neg h.ne_bos, if_neg (by rw [h.among_cons]; decide), if_pos ((h.is 92).2 rfl), Lit.next, hn]; rfl
  | case5 r k h1 h2 hb =>
    intro l h hk
    have key : ∀ n (l : Lit), Facing l (92 :: r) → l.skipBlank n = .fuel := by
      intro n
      induction n with
      | zero => intro l h; rfl
      | succ n ih =>
        intro l h
        rw [Lit.skipBlank, if_neg h.ne_bos, if_neg (by rw [h.among_cons]; decide), if_pos ((h.is 92).2 rfl), Lit.next]
        have hn := h.2 0
        simp only [Nat.add_zero] at hn
        rw [hn]
        cases r with
        | nil =>
          simp only [List.getElem?_nil]
          refine ih _ ⟨h.1, fun i => ?_⟩
          show (l.src (l.pos + 1 + i)).got = none
          have := h.2 (1 + i)
          rw [← Nat.add_assoc] at this
          simpa using this
        | cons d r =>
          simp only [List.getElem?_cons_zero]
          have : d ≠ 10 := fun e => by
            subst e
            cases r with
            | nil => exact h2 [] rfl
            | cons e r => exact h2 (e :: r) rfl
          split
          · rename_i e; cases e; exact absurd rfl this
          · rename_i e; cases e; exact ih _ h
    exact fun n => key n l h
  | case6 k c r hb hc =>
    intro l h hk
    refine Yields.last (h.holds' rfl hk) rfl fun n => ?_
    have : ¬ l.cur = .ch 92 := fun e => hc ((h.is 92).1 e)
    simp only [Lit.skipBlank, h.ne_bos, h.among_cons, hb, Bool.false_eq_true, if_false, this]

theorem skipBlank_yields {l : Lit} {s : Scan} (h : Holds l s) : Yields (fun n => l.skipBlank n) s.skips := by
  obtain ⟨bos, inp, buf, line⟩ := s
  obtain ⟨h1, h2, h3⟩ := h
  simp only at h1 h2 h3
  subst h1 h2
  have e : ∀ b, ({ bos := b, inp, buf := l.buf, line := l.line } : Scan).skips =
      match skipBlanks inp l.line with | some (r, k') => .ok ({ bos := false, inp := r, buf := l.buf, line := k' }, ()) | none => .fuel := by
    intro b
    simp only [Scan.skips, Scan.skipBlank]
    cases skipBlanks inp l.line <;> rfl
  rw [e]
  cases bos with
  | true =>
    simp only [if_true] at h3
    obtain ⟨k1, k2, k3⟩ := advance_at h3.2
    have := skipBlank_at inp l.line k1 k3
    rw [k2] at this
    refine Yields.turn this rfl fun n => ?_
    simp only [Lit.skipBlank, h3.1, if_true]
  | false => exact skipBlank_at inp l.line h3 rfl

/-- The delimiters of a string. -/
def delims (delim : UInt8 → Bool) (eosDelim : Bool) (c : Cur) : Bool := c.among delim || (eosDelim && c == .eos)

theorem readLoop_at (delim : UInt8 → Bool) (eosDelim : Bool) (inp buf : Bytes) (k : Nat) : ∀ {l : Lit}, Facing l inp → l.buf = buf → l.line = k →
    Yields (fun n => Lit.readLoop (delims delim eosDelim) n l) (.ok (readStringLoop delim eosDelim inp buf k)) := by
  fun_induction readStringLoop delim eosDelim inp buf k with
  | case1 buf k he =>
    intro l h hb hk
    refine Yields.last (l := { l.advance with buf := [] }) ((h.advance.1.buf []).holds' rfl (h.advance.2.2.trans hk)) rfl fun n => ?_
    simp only [Lit.readLoop, delims, h.1, Cur.among, he]
    simp [hb]
  | case2 buf k he hl =>
    intro l h hb hk
    refine Yields.last (h.holds' hb hk) rfl fun n => ?_
    simp only [Lit.readLoop, delims, h.1, Cur.among, he]
    simp [hb, List.length_pos_iff.1 hl]
  | case3 buf k he hl =>
    intro l h hb hk
    refine Yields.last (h.holds' hb hk) rfl fun n => ?_
    simp only [Lit.readLoop, delims, h.1, Cur.among, he]
    have : buf.length = 0 := by omega
    simp [hb, this]
  | case4 c r buf k hd =>
    intro l h hb hk
    refine Yields.last (l := { l.advance with buf := [] }) ((h.advance.1.buf []).holds' rfl (h.advance.2.2.trans hk)) rfl fun n => ?_
    simp only [Lit.readLoop, delims, h.1, Cur.among, hd, Bool.true_or, if_true, hb]
  | case5 c r buf k hd hc =>
    intro l h hb hk
    refine Yields.last (h.holds' hb hk) rfl fun n => ?_
    have : isNewLine c = true := by rw [isNewLine_iff]; exact hc
    simp only [Lit.readLoop, delims, h.1, Cur.among, hd, this]
    simp
  | case6 buf k hd hc =>
    intro l h hb hk
    obtain ⟨h1, h2, h3⟩ := h.advance
    refine Yields.last (h1.holds' (h2.trans hb) (h3.trans hk)) rfl fun n => ?_
    have : isNewLine 92 = false := rfl
    have h1 : l.advance.cur = .eos := h1.1
    simp only [Lit.readLoop, delims, h.1, Cur.among, hd, this, h1]
    simp
  | case7 buf k e r x hx hd hc ih =>
    intro l h hb hk
    obtain ⟨h1, h2, h3⟩ := h.advance
    have h1 : Facing l.advance (e :: r) := h1
    obtain ⟨k1, k2, k3⟩ := h1.advance
    have := ih (l := l.advance.advanceAndSave x) (k1.save x) (by rw [Lit.advanceAndSave, Lit.save, k2, h2, hb]) (by show l.advance.advance.line = k; rw [k3, h3, hk])
    refine Yields.turn this rfl fun n => ?_
    have e2 : isNewLine 92 = false := rfl
    have h1' : l.advance.cur = .ch e := h1.1
    simp only [Lit.readLoop, delims, h.1, Cur.among, hd, e2, h1', hx]
    simp
  | case8 buf k e hx hn hd hc ih =>
    intro l h hb hk
    obtain ⟨h1, h2, h3⟩ := h.advance
    have h1 : Facing l.advance [e] := h1
    obtain ⟨k1, k2, k3⟩ := h1.newline
    have := ih (l := l.advance.incrementLineNumber.save 10) (k1.save 10) (by rw [Lit.save, k2, h2, hb]) (by show l.advance.incrementLineNumber.line = _; rw [k3, h3, hk])
    refine Yields.turn this rfl fun n => ?_
    have e2 : isNewLine 92 = false := rfl
    have h1' : l.advance.cur = .ch e := h1.1
    simp only [Lit.readLoop, delims, h.1, Cur.among, hd, e2, h1', hx, hn]
    simp
  | case9 buf k e hx hn c' r'' hc' hd hc ih =>
    intro l h hb hk
    obtain ⟨h1, h2, h3⟩ := h.advance
    have h1 : Facing l.advance (e :: c' :: r'') := h1
    obtain ⟨k1, k2, k3⟩ := h1.newline
    simp only [afterNewline, hc', if_true] at k1
    have := ih (l := l.advance.incrementLineNumber.save 10) (k1.save 10) (by rw [Lit.save, k2, h2, hb]) (by show l.advance.incrementLineNumber.line = _; rw [k3, h3, hk])
    refine Yields.turn this rfl fun n => ?_
    have e2 : isNewLine 92 = false := rfl
    have h1' : l.advance.cur = .ch e := h1.1
    simp only [Lit.readLoop, delims, h.1, Cur.among, hd, e2, h1', hx, hn]
    simp
  | case10 buf k e hx hn c' r'' hc' hd hc ih =>
    intro l h hb hk
    obtain ⟨h1, h2, h3⟩ := h.advance
    have h1 : Facing l.advance (e :: c' :: r'') := h1
    obtain ⟨k1, k2, k3⟩ := h1.newline
    simp only [afterNewline, hc', if_false] at k1
    have := ih (l := l.advance.incrementLineNumber.save 10) (k1.save 10) (by rw [Lit.save, k2, h2, hb]) (by show l.advance.incrementLineNumber.line = _; rw [k3, h3, hk])
    refine Yields.turn this rfl fun n => ?_
    have e2 : isNewLine 92 = false := rfl
    have h1' : l.advance.cur = .ch e := h1.1
    simp only [Lit.readLoop, delims, h.1, Cur.among, hd, e2, h1', hx, hn]
    simp
  | case11 buf k e r hx hn hd hc ih =>
    intro l h hb hk
    obtain ⟨h1, h2, h3⟩ := h.advance
    have h1 : Facing l.advance (e :: r) := h1
    obtain ⟨k1, k2, k3⟩ := h1.saveAndAdvance
    have := ih k1 (by rw [k2, h2, hb]) (by rw [k3, h3, hk])
    refine Yields.turn this rfl fun n => ?_
    have e2 : isNewLine 92 = false := rfl
    have h1' : l.advance.cur = .ch e := h1.1
    simp only [Lit.readLoop, delims, h.1, Cur.among, hd, e2, h1', hx, hn]
    simp
  | case12 c r buf k hd hc h92 ih =>
    intro l h hb hk
    obtain ⟨k1, k2, k3⟩ := h.saveAndAdvance
    have := ih k1 (by rw [k2, hb]) (by rw [k3, hk])
    refine Yields.turn this rfl fun n => ?_
    have e2 : isNewLine c = false := by
      cases e : isNewLine c
      · rfl
      · exact absurd ((isNewLine_iff c).1 e) hc
    simp only [Lit.readLoop, delims, h.1, Cur.among, hd, e2]
    simp [h92]

theorem readDelim_at (delim : UInt8 → Bool) (eosDelim : Bool) {inp : Bytes} {l : Lit} (h : Facing l inp) (he : inp ≠ []) :
    Yields (fun n => l.readDelim (delims delim eosDelim) n) (.ok (({ bos := false, inp, buf := l.buf, line := l.line } : Scan).readStringDelim delim eosDelim)) := by
  cases inp with
  | nil => exact absurd rfl he
  | cons c r =>
    simp only [Lit.readDelim, Scan.readStringDelim]
    have hd : delims delim eosDelim l.cur = delim c := by rw [h.1]; simp [delims, Cur.among]
    rw [hd]
    by_cases hc : delim c = true
    · simp only [hc, if_true]
      exact readLoop_at delim eosDelim _ _ _ h.advance.1 h.advance.2.1 h.advance.2.2
    · simp only [hc, Bool.false_eq_true, if_false]
      exact readLoop_at delim eosDelim _ _ _ h rfl rfl

theorem readString_yields {l : Lit} {s : Scan} (h : Holds l s) : Yields (fun n => l.readString n) s.readString := by
  have hy := skipBlank_yields h
  simp only [Scan.skips, Scan.readString, Scan.skipBlank] at hy ⊢
  cases hk : skipBlanks s.inp s.line with
  | none =>
    rw [hk] at hy
    intro n
    show (l.skipBlank n).bind _ = _
    rw [show l.skipBlank n = .fuel from hy n]
    rfl
  | some q =>
    obtain ⟨r, k⟩ := q
    rw [hk] at hy
    obtain ⟨l', N, h1, h2⟩ := hy
    refine Yields.after (g := fun p n => _) h2 ?_
    obtain ⟨hb, hl, hp⟩ := h1
    simp only at hb hl hp
    simp only [Res.bind_ok', hb, hl]
    simp only [Bool.false_eq_true, if_false] at hp
    cases r with
    | nil =>
      have e : l'.cur = .eos := hp.1
      simp only [e, Cur.among, Bool.false_eq_true, if_false, if_true, reduceCtorEq]
      exact Yields.ok hp.holds _
    | cons c r =>
      simp only [hp.among_cons, hp.is, hp.ne_eos, if_false]
      by_cases c1 : isNewLine c = true
      · simp only [c1, if_true]
        exact Yields.ok (hp.newline.1.holds' hp.newline.2.1 hp.newline.2.2) _
      · simp only [c1, Bool.false_eq_true, if_false]
        have d : ∀ x : UInt8, (fun c : Cur => c == .ch x) = delims (· == x) false := fun x => funext fun c => by
          cases c with
          | ch c =>
            rw [Bool.eq_iff_iff]
            simp [delims, Cur.among]
          | _ => simp [delims, Cur.among]
        have d' : (fun c : Cur => c.among (fun c => isBlank c || isNewLine c) || c == .eos) = delims (fun c => isBlank c || isNewLine c) true := funext fun c => by
          simp [delims]
        by_cases c2 : c = 34
        · simp only [c2, if_true, d]
          exact readDelim_at _ _ (c2 ▸ hp) (by simp)
        · simp only [c2, if_false]
          by_cases c3 : c = 39
          · simp only [c3, if_true, d]
            exact readDelim_at _ _ (c3 ▸ hp) (by simp)
          · simp only [c3, if_false, d']
            exact readDelim_at _ _ hp (by simp)

/-! ### Directives -/

theorem readVariables_yields {l : Lit} {s : Scan} (h : Holds l s) : Yields (fun n => l.readVariables n) s.readVariables := by
  refine Yields.andThen (g := fun arg l _ => _) (readString_yields h) fun arg l s hl => ?_
  by_cases e : arg.length = 0
  · simp only [e, if_true]; exact Yields.ok hl _
  · simp only [e, if_false, splitMulti_ok, Res.bind_ok']; exact Yields.ok hl _

theorem readOperator_yields {l : Lit} {s : Scan} (h : Holds l s) : Yields (fun n => l.readOperator n) s.readOperator :=
  Yields.andThen (g := fun arg l _ => _) (readString_yields h) fun _ _ _ hl => Yields.ok hl _

theorem readActions_yields {l : Lit} {s : Scan} (h : Holds l s) : Yields (fun n => l.readActions n) s.readActions :=
  Yields.andThen (g := fun arg l _ => _) (readString_yields h) fun _ _ _ hl => Yields.ok hl _

theorem readRule_yields {l : Lit} {s : Scan} (h : Holds l s) : Yields (fun n => l.readRule n) s.readRule := by
  refine Yields.andThen (readVariables_yields h) fun vars l s hl => ?_
  refine Yields.andThen (readOperator_yields hl) fun op l s hl => ?_
  exact Yields.andThen (g := fun acts l _ => _) (readActions_yields hl) fun acts l s hl => Yields.ok hl _

theorem readBool_yields {l : Lit} {s : Scan} (h : Holds l s) (mk : Bool → PDir) : Yields (fun n => l.readBool n mk) (s.readBool mk) := by
  have e : ∀ n, l.readBool n mk = LR.andThen (l.readString n) fun str s => .ok (s, (parseBool str).map mk) := by
    intro n
    simp only [Lit.readBool, Lit.readValue, LR.andThen]
    cases l.readString n with
    | panic => rfl
    | fuel => rfl
    | ok p =>
      obtain ⟨l, a⟩ := p
      cases a with
      | error e => rfl
      | ok a =>
        simp only [Res.bind_ok', matchValue, valueName, parseBool]
        by_cases c1 : eqFold a b!"On" = true
        · simp only [c1, if_true]; rfl
        · simp only [c1, if_false]
          by_cases c2 : eqFold a b!"Off" = true
          · simp only [c2, if_true]; rfl
          · simp only [c2, if_false]; rfl
  simp only [e]
  exact Yields.andThen (g := fun arg l _ => _) (readString_yields h) fun _ _ _ hl => Yields.ok hl _

theorem readTri_yields {l : Lit} {s : Scan} (h : Holds l s) (mk : Int → PDir) : Yields (fun n => l.readTri n mk) (s.readTri mk) := by
  have e : ∀ n, l.readTri n mk = LR.andThen (l.readString n) fun str s => .ok (s, (parseTri str).map mk) := by
    intro n
    simp only [Lit.readTri, Lit.readValue, LR.andThen]
    cases l.readString n with
    | panic => rfl
    | fuel => rfl
    | ok p =>
      obtain ⟨l, a⟩ := p
      cases a with
      | error e => rfl
      | ok a =>
        simp only [Res.bind_ok', matchValue, valueName, parseTri]
        by_cases c1 : eqFold a b!"On" = true
        · simp only [c1, if_true]; rfl
        · simp only [c1, if_false]
          by_cases c2 : eqFold a b!"Off" = true
          · simp only [c2, if_true]; rfl
          · simp only [c2, if_false]
            by_cases c3 : eqFold a b!"DetectionOnly" = true
            · simp only [c3, if_true]; rfl
            · simp only [c3, if_false]; rfl
  simp only [e]
  exact Yields.andThen (g := fun arg l _ => _) (readString_yields h) fun _ _ _ hl => Yields.ok hl _

theorem readDirective'_yields (hi : Rune → Rune) {l : Lit} {s : Scan} (h : Holds l s) : Yields (fun n => l.readDirective' hi n) (s.readDirective' hi) := by
  refine Yields.bind (x := .ok s.readWord) (k := fun (p : Scan × Bytes) => match dirIndex.lookup (toLower hi p.2) with
    | none => .ok (p.1, .error .notDirective)
    | some .rule => p.1.readRule
    | some .ruleEng => p.1.readTri .ruleEng
    | some .reqBody => p.1.readBool .reqBody
    | some .resBody => p.1.readBool .resBody) (g := fun p n => _) (readWord_yields h) fun l s word hl => ?_
  simp only
  cases dirIndex.lookup (toLower hi word) with
  | none => exact Yields.ok hl _
  | some tk => cases tk with
    | rule => exact readRule_yields hl
    | ruleEng => exact readTri_yields hl _
    | reqBody => exact readBool_yields hl _
    | resBody => exact readBool_yields hl _

/-- The directive after the blanks. -/
def Lit.finish (hi : Rune → Rune) (m : Nat) (l : Lit) : LR PDir :=
  if l.cur = .eos then .ok (l, .error .eos) else (l.readDirective' hi m).bind fun
    | (s, .error .eos) => .ok (s, .error .unexpectedEOS)
    | x => .ok x

/-- Blanks and newlines before a directive, and the directive. -/
theorem directiveLoop_at (hi : Rune → Rune) (inp : Bytes) (k : Nat) : ∀ {l : Lit}, Facing l inp → l.line = k → ∃ l' N,
    Facing l' (skipLines inp k).1 ∧ l'.buf = l.buf ∧ l'.line = (skipLines inp k).2 ∧
    ∀ m n, Lit.directiveLoop hi m n l = if n < N then .fuel else l'.finish hi m := by
  have step : ∀ {l l₁ : Lit} {t : Bytes} {j : Nat}, l₁.buf = l.buf → (∀ m n, Lit.directiveLoop hi m (n + 1) l = Lit.directiveLoop hi m n l₁) → (∃ l' N,
      Facing l' t ∧ l'.buf = l₁.buf ∧ l'.line = j ∧
      ∀ m n, Lit.directiveLoop hi m n l₁ = if n < N then .fuel else l'.finish hi m) → ∃ l' N,
      Facing l' t ∧ l'.buf = l.buf ∧ l'.line = j ∧
      ∀ m n, Lit.directiveLoop hi m n l = if n < N then .fuel else l'.finish hi m := by
    rintro l l₁ t j hb he ⟨l', N, h1, h2, h3, h4⟩
    refine ⟨l', N + 1, h1, h2.trans hb, h3, fun m n => ?_⟩
    cases n with
    | zero => rfl
    | succ n => rw [he, h4]; simp only [Nat.add_lt_add_iff_right]
  fun_induction skipLines inp k with
  | case1 k =>
    intro l h hk
    refine ⟨l, 1, h, rfl, hk, fun m n => ?_⟩
    cases n with
    | zero => rfl
    | succ n =>
      rw [Lit.directiveLoop, h.among_nil, h.among_nil, h.1, Lit.finish, h.1]
      simp
  | case2 k c hc =>
    intro l h hk
    have e : ∀ m n, Lit.directiveLoop hi m (n + 1) l = Lit.directiveLoop hi m n l.incrementLineNumber := fun m n => by
      rw [Lit.directiveLoop, h.among_cons, hc]; rfl
    have h' := h.newline
    refine step h'.2.1 e ⟨l.incrementLineNumber, 1, h'.1, rfl, by rw [h'.2.2, hk], fun m n => ?_⟩
    have hn : Facing l.incrementLineNumber [] := h'.1
    cases n with
    | zero => rfl
    | succ n =>
      rw [Lit.directiveLoop, hn.among_nil, hn.among_nil, hn.1, Lit.finish, hn.1]
      simp
  | case3 k c hc c' r' hc' ih =>
    intro l h hk
    have e : ∀ m n, Lit.directiveLoop hi m (n + 1) l = Lit.directiveLoop hi m n l.incrementLineNumber := fun m n => by
      rw [Lit.directiveLoop, h.among_cons, hc]; rfl
    have h' := h.newline
    simp only [afterNewline, hc', if_true] at h'
    exact step h'.2.1 e (ih h'.1 (by rw [h'.2.2, hk]))
  | case4 k c hc c' r' hc' ih =>
    intro l h hk
    have e : ∀ m n, Lit.directiveLoop hi m (n + 1) l = Lit.directiveLoop hi m n l.incrementLineNumber := fun m n => by
      rw [Lit.directiveLoop, h.among_cons, hc]; rfl
    have h' := h.newline
    simp only [afterNewline, hc'] at h'
    exact step h'.2.1 e (ih h'.1 (by rw [h'.2.2, hk]))
  | case5 c r k hc hb ih =>
    intro l h hk
    have e : ∀ m n, Lit.directiveLoop hi m (n + 1) l = Lit.directiveLoop hi m n l.advance := fun m n => by
      rw [Lit.directiveLoop, h.among_cons, if_neg hc, h.among_cons]
      simp only [Bool.or_eq_true, beq_iff_eq] at hb
      by_cases hb' : isBlank c = true
      · rw [if_pos hb']
      · rw [if_neg hb', if_pos ((h.is 0).2 (hb.resolve_left hb'))]
    exact step h.advance.2.1 e (ih h.advance.1 (by rw [h.advance.2.2, hk]))
  | case6 c r k hc hb =>
    intro l h hk
    refine ⟨l, 1, h, rfl, hk, fun m n => ?_⟩
    cases n with
    | zero => rfl
    | succ n =>
      simp only [Bool.or_eq_true, beq_iff_eq, not_or] at hb
      rw [Lit.directiveLoop, h.among_cons, if_neg hc, h.among_cons, if_neg hb.1, if_neg (fun e => hb.2 ((h.is 0).1 e)), if_neg h.ne_eos, if_neg (by omega), Lit.finish, if_neg h.ne_eos]
      rfl

theorem readDirective_yields (hi : Rune → Rune) {l : Lit} {s : Scan} (h : Holds l s) : Yields (fun n => l.readDirective hi n) (s.readDirective hi) := by
  obtain ⟨bos, inp, buf, line⟩ := s
  obtain ⟨h1, h2, h3⟩ := h
  simp only at h1 h2 h3
  subst h1 h2
  have start : ∃ l₁, (∀ n, l.readDirective hi n = Lit.directiveLoop hi n n l₁) ∧ Facing l₁ inp ∧ l₁.buf = l.buf ∧ l₁.line = l.line := by
    cases bos with
    | true =>
      simp only [if_true] at h3
      refine ⟨l.advance, fun n => ?_, advance_at h3.2⟩
      rw [Lit.readDirective, if_pos h3.1]
    | false =>
      have h3 : Facing l inp := h3
      refine ⟨l, fun n => ?_, h3, rfl, rfl⟩
      rw [Lit.readDirective, if_neg h3.ne_bos]
  obtain ⟨l₁, e, k1, k2, k3⟩ := start
  obtain ⟨l', N, j1, j2, j3, j4⟩ := directiveLoop_at hi inp l.line k1 k3
  have hl := j1.holds' (j2.trans k2) j3
  simp only [Scan.readDirective]
  have body : Yields (fun n => l'.finish hi n) (match (skipLines inp l.line).1 with
      | [] => .ok (⟨false, (skipLines inp l.line).1, l.buf, (skipLines inp l.line).2⟩, .error .eos)
      | _ :: _ => ((⟨false, (skipLines inp l.line).1, l.buf, (skipLines inp l.line).2⟩ : Scan).readDirective' hi).bind fun
        | (s, .error .eos) => .ok (s, .error .unexpectedEOS)
        | x => .ok x) := by
    cases hr : (skipLines inp l.line).1 with
    | nil =>
      rw [hr] at j1 hl
      simp only [Lit.finish, j1.1, if_true]
      exact Yields.ok hl _
    | cons c r =>
      rw [hr] at j1 hl
      simp only [Lit.finish, j1.ne_eos, if_false]
      refine Yields.bind (g := fun p _ => _) (readDirective'_yields hi hl) fun l s a h => ?_
      cases a with
      | ok a => exact Yields.ok h _
      | error e => cases e <;> exact Yields.ok h _
  have := Yields.after (f := fun n => if n < N then .fuel else .ok (l', ())) (p := (l', ())) (N := N) (g := fun p n => p.1.finish hi n) (fun n => rfl) body
  refine cast (congrArg (fun f => Yields f _) (funext fun n => ?_)) this
  rw [e, j4]
  by_cases c : n < N
  · simp only [c, if_true, Res.bind_fuel']
  · simp only [c, if_false, Res.bind_ok']

open Spec in
theorem token_shorter {t v rest : Bytes} (h : Token t v rest) : rest.length < t.length := by
  cases h with
  | quoted _ _ h => have := (lex_suffix h).length_le; simp only [List.length_append, List.length_cons]; omega
  | bare _ h1 h2 _ h3 h =>
    simp only [List.length_append, List.length_cons]
    cases h with
    | stop h => exact absurd h (by simp [h1, h2])
    | plain _ _ _ h => have := (lex_suffix h).length_le; omega
    | esc => exact absurd rfl h3
    | line2 => exact absurd rfl h3
    | line1 => exact absurd rfl h3
    | other => exact absurd rfl h3

/-- A directive takes at least one character, whatever is left in the buffer. -/
theorem readDirective'_shorter (hi : Rune → Rune) {t b : Bytes} {k : Nat} {s' : Scan} {d : PDir}
    (h : ({ bos := false, inp := t, buf := b, line := k } : Scan).readDirective' hi = .ok (s', .ok d)) : s'.inp.length < t.length := by
  have hw : ∃ w r, t = w ++ r ∧ ({ bos := false, inp := t, buf := b, line := k } : Scan).readWord = (at' r k, b ++ w) :=
    ⟨_, _, (readLetters_spec t).1, rfl⟩
  obtain ⟨w, r, rfl, e⟩ := hw
  have hr : s'.inp.length < r.length := by
    simp only [Scan.readDirective', e] at h
    split at h
    · cases h
    · obtain ⟨t2, t3, rest, vs, os, as, vars, op, acts, l', h1, h2, h3, h4, h5, h6, rfl, rfl⟩ := readRule_conv h
      have := token_shorter h1; have := token_shorter h3; have := token_shorter h5
      simp only
      omega
    · rw [readTri_eq] at h
      obtain ⟨v, rest, l', h1, h2, rfl⟩ := tok_conv (by simp [parseTri, eqFold, Except.map]) h
      exact token_shorter h1
    · rw [readBool_eq] at h
      obtain ⟨v, rest, l', h1, h2, rfl⟩ := tok_conv (by simp [parseBool, eqFold, Except.map]) h
      exact token_shorter h1
    · rw [readBool_eq] at h
      obtain ⟨v, rest, l', h1, h2, rfl⟩ := tok_conv (by simp [parseBool, eqFold, Except.map]) h
      exact token_shorter h1
  rw [List.length_append]; omega

theorem readDirective_shorter (hi : Rune → Rune) {s s' : Scan} {d : PDir} (h : s.readDirective hi = .ok (s', .ok d)) :
    s'.inp.length < s.inp.length := by
  obtain ⟨f, _, hs, _⟩ := skipLines_cases s.inp s.line
  have hl : (skipLines s.inp s.line).1.length ≤ s.inp.length := by
    conv => rhs; rw [hs]
    rw [List.length_append]; omega
  simp only [Scan.readDirective] at h
  generalize skipLines s.inp s.line = q at h hl
  obtain ⟨r, j⟩ := q
  simp only at h hl
  cases r with
  | nil => cases h
  | cons c r' =>
    simp only at h
    cases e : ({ bos := false, inp := c :: r', buf := s.buf, line := j } : Scan).readDirective' hi with
    | fuel => rw [e] at h; cases h
    | panic => rw [e] at h; cases h
    | ok p =>
      obtain ⟨s1, a⟩ := p
      rw [e] at h
      cases a with
      | error x => cases x <;> cases h
      | ok a =>
        cases h
        have := readDirective'_shorter hi e
        omega

theorem Yields.shift {α : Type} {f : Nat → Res (Lit × α)} {x : Res (Scan × α)} (h : Yields f x) (d : Nat) : Yields (fun n => f (n + d)) x := by
  cases x with
  | ok p =>
    obtain ⟨l, N, h1, h2⟩ := h
    refine ⟨l, N - d, h1, fun n => ?_⟩
    simp only [h2]
    by_cases c : n + d < N
    · rw [if_pos c, if_pos (by omega)]
    · rw [if_neg c, if_neg (by omega)]
  | panic =>
    obtain ⟨N, h2⟩ := h
    refine ⟨N - d, fun n => ?_⟩
    simp only [h2]
    by_cases c : n + d < N
    · rw [if_pos c, if_pos (by omega)]
    · rw [if_neg c, if_neg (by omega)]
  | fuel => exact fun n => h (n + d)

/-- Directives one after the other. -/
theorem allLoop_yields (hi : Rune → Rune) (k : Nat) : ∀ {l : Lit} {s : Scan}, Holds l s → s.inp.length < k → ∀ d,
    Yields (fun n => Lit.allLoop hi (n + d) n l) (allDirectiveFuel hi k s) := by
  induction k with
  | zero => intro l s _ h; omega
  | succ k ih =>
    intro l s hl hs d
    refine Yields.turn (f := fun n => (l.readDirective hi (n + (d + 1))).bind fun p => (match p with
      | (s, .error .eos) => .ok (s, .ok [])
      | (s, .error e) => .ok (s, .error e)
      | (s, .ok a) => LR.andThen (Lit.allLoop hi (n + (d + 1)) n s) fun ds s => .ok (s, .ok (a :: ds)) : LR (List PDir))) ?_ rfl fun n => ?_
    · have hy := (readDirective_yields hi hl).shift (d + 1)
      rw [allDirectiveFuel]
      cases e : s.readDirective hi with
      | fuel =>
        rw [e] at hy
        intro n
        simp only [hy n, Res.bind_fuel']
      | panic =>
        rw [e] at hy
        obtain ⟨N, hN⟩ := hy
        refine ⟨N, fun n => ?_⟩
        simp only [hN]
        by_cases c : n < N
        · simp only [c, if_true, Res.bind_fuel']
        · simp only [c, if_false, Res.bind_panic']
      | ok p =>
        obtain ⟨s1, a⟩ := p
        rw [e] at hy
        obtain ⟨l1, N, h1, hN⟩ := hy
        refine Yields.after (g := fun p n => _) hN ?_
        simp only [Res.bind_ok']
        cases a with
        | error x => cases x <;> exact Yields.ok h1 _
        | ok a =>
          have := readDirective_shorter hi e
          exact Yields.andThen (g := fun ds l _ => _) (ih h1 (by omega) (d + 1)) fun ds l s hl => Yields.ok hl _
    · rw [Lit.allLoop, show n + 1 + d = n + (d + 1) by omega]
      rfl

theorem allDirective_yields (hi : Rune → Rune) {l : Lit} {s : Scan} (h : Holds l s) : Yields (fun n => l.allDirective hi n) (s.allDirective hi) :=
  allLoop_yields hi _ h (Nat.lt_succ_self _) 0

theorem startsWith_holds (hi : Rune → Rune) (str : List Rune) : ∀ {l : Lit} {s : Scan}, Holds l s →
    Holds (l.startsWith hi str).1 (s.startsWith hi str).1 ∧ (l.startsWith hi str).2 = (s.startsWith hi str).2 := by
  induction str with
  | nil => intro l s h; exact ⟨h, rfl⟩
  | cons r rs ih =>
    intro l s h
    obtain ⟨bos, inp, buf, line⟩ := s
    obtain ⟨h1, h2, h3⟩ := h
    simp only at h1 h2 h3
    subst h1 h2
    cases bos with
    | true =>
      simp only [if_true] at h3
      simp only [Lit.startsWith, Scan.startsWith, h3.1, if_true]
      exact ⟨⟨rfl, rfl, h3⟩, trivial⟩
    | false =>
      have h3 : Facing l inp := h3
      cases inp with
      | nil =>
        have e : l.cur = .eos := h3.1
        simp only [Lit.startsWith, Scan.startsWith, e, Bool.false_eq_true, if_false]
        exact ⟨h3.holds, trivial⟩
      | cons c t =>
        have e : l.cur = .ch c := h3.1
        simp only [Lit.startsWith, Scan.startsWith, e, Bool.false_eq_true, if_false]
        by_cases q : lowerRune hi c.toNat = lowerRune hi r
        · simp only [q, if_true]
          obtain ⟨k1, k2, k3⟩ := h3.saveAndAdvance
          exact ih (k1.holds' k2 k3)
        · simp only [q, if_false]
          exact ⟨h3.holds, trivial⟩

theorem Yields.outAs {α : Type} {f : Nat → Res (Lit × α)} {x : Res (Scan × α)} (h : Yields f x) (k : α → ScanOut) :
    Yields (fun n => Verif.outAs k (f n)) (Verif.outAs k x) :=
  Yields.bind (g := fun p _ => .ok (p.1, k p.2)) h fun _ _ _ hl => Yields.ok hl _

theorem call_yields (hi : Rune → Rune) {l : Lit} {s : Scan} (h : Holds l s) (c : ScanCall) :
    Yields (fun n => l.call hi n c) (s.call hi c) := by
  cases c with
  | word => exact (readWord_yields h).outAs _
  | string => exact (readString_yields h).outAs _
  | directive => exact (readDirective_yields hi h).outAs _
  | all => exact (allDirective_yields hi h).outAs _
  | variables => exact (readVariables_yields h).outAs _
  | operator => exact (readOperator_yields h).outAs _
  | actions => exact (readActions_yields h).outAs _
  | value tks => exact Yields.outAs (Yields.andThen (g := fun str l _ => .ok (l, matchValue str tks)) (readString_yields h) fun _ _ _ hl => Yields.ok hl _) _
  | skipBlank =>
    have := (skipBlank_yields h).outAs (fun _ => .nothing)
    simp only [Scan.call]
    simp only [Scan.skips, outAs] at this
    cases e : s.skipBlank with
    | ok q => rw [e] at this; exact this
    | panic => rw [e] at this; exact this
    | fuel => rw [e] at this; exact this
  | startsWith str =>
    obtain ⟨h1, h2⟩ := startsWith_holds hi str h
    simp only [Lit.call, Scan.call, outAs, Res.bind_ok', h2]
    exact Yields.ok h1 _
  | lineNumber =>
    simp only [Lit.call, Scan.call, h.line]
    exact Yields.ok h _
  | stringArg =>
    have e : ∀ n, l.readArg n = l.readString n := fun n => by
      rw [Lit.readArg]
      cases l.readString n with
      | ok p =>
        obtain ⟨l, a⟩ := p
        cases a <;> rfl
      | panic => rfl
      | fuel => rfl
    simp only [Lit.call, Scan.call, e]
    exact (readString_yields h).outAs _
  | boolArg mk => exact (readBool_yields h mk).outAs _
  | triArg mk => exact (readTri_yields h mk).outAs _
  | rule => exact (readRule_yields h).outAs _

theorem calls_yields (hi : Rune → Rune) (cs : List ScanCall) : ∀ {l : Lit} {s : Scan}, Holds l s →
    Yields (fun n => Lit.calls hi n cs l) (Scan.calls hi cs s) := by
  induction cs with
  | nil => intro l s h; exact Yields.ok h _
  | cons c cs ih =>
    intro l s h
    refine Yields.bind (g := fun p n => (Lit.calls hi n cs p.1).bind fun q => .ok (q.1, p.2 :: q.2)) (call_yields hi h c) fun l s a hl => ?_
    exact Yields.bind (g := fun q _ => .ok (q.1, a :: q.2)) (ih hl) fun _ _ _ hl => Yields.ok hl _

end Verif
