import Verif.Proofs.Literal
import Verif.Props.Syntax
import Verif.Spec.Source
/-! Rule texts from any reader, and the methods of the scanner in any order. -/
namespace Verif
open Spec

theorem Spec.Delivers.got {src : Nat → Read} {t : Bytes} (h : Delivers src t) (i : Nat) : (src i).got = t[i]? := by
  cases e : t[i]? with
  | some c => rw [h.bytes i c e]; rfl
  | none =>
    have := h.ends i (by simpa using e)
    cases k : src i with
    | byte c => exact absurd k (this c)
    | eof => rfl
    | failed => rfl

theorem Spec.Delivers.holds {src : Nat → Read} {t : Bytes} (h : Delivers src t) : Holds (newLit src) (newScanner t) :=
  ⟨rfl, rfl, rfl, fun i => by simp only [newLit, Nat.zero_add]; exact h.got i⟩

theorem Yields.ok_iff {α : Type} {f : Nat → Res (Lit × α)} {x : Res (Scan × α)} (h : Yields f x) (a : α) :
    (∃ n l, f n = .ok (l, a)) ↔ ∃ s, x = .ok (s, a) := by
  cases x with
  | fuel =>
    have h : ∀ n, f n = .fuel := h
    simp [h]
  | panic =>
    obtain ⟨N, h⟩ := h
    constructor
    · rintro ⟨n, l, e⟩
      rw [h] at e
      by_cases c : n < N
      · rw [if_pos c] at e; cases e
      · rw [if_neg c] at e; cases e
    · rintro ⟨s, e⟩; cases e
  | ok p =>
    obtain ⟨s, b⟩ := p
    obtain ⟨l', N, _, h⟩ := h
    constructor
    · rintro ⟨n, l, e⟩
      rw [h] at e
      by_cases c : n < N
      · rw [if_pos c] at e; cases e
      · rw [if_neg c] at e; cases e; exact ⟨s, rfl⟩
    · rintro ⟨s', e⟩
      cases e
      exact ⟨N, l', by rw [h, if_neg (Nat.lt_irrefl _)]⟩

theorem Yields.fuel_iff {α : Type} {f : Nat → Res (Lit × α)} {x : Res (Scan × α)} (h : Yields f x) :
    (∀ n, f n = .fuel) ↔ x = .fuel := by
  cases x with
  | fuel => exact ⟨fun _ => rfl, fun _ => h⟩
  | panic =>
    obtain ⟨N, h⟩ := h
    refine ⟨fun k => ?_, fun k => by cases k⟩
    have := k N
    rw [h, if_neg (Nat.lt_irrefl _)] at this
    cases this
  | ok p =>
    obtain ⟨l', N, _, h⟩ := h
    refine ⟨fun k => ?_, fun k => by cases k⟩
    have := k N
    rw [h, if_neg (Nat.lt_irrefl _)] at this
    cases this

/-! ### C100 -/

/-- A rule text that cannot be read to its end is refused. -/
def C100_statement : Prop := ∀ (hi : Rune → Rune) (src : Nat → Read) (t : Bytes), Broken src t →
  ∀ n l ds, (newLit src).allDirective hi n ≠ .ok (l, .ok ds)

/-- What is accepted is what the source gave before it failed, if that is a rule text; where a
failure is in the middle of a directive, the text is refused.  (`C100_statement` would have
it refused always.) -/
theorem C100_accepts_partial (hi : Rune → Rune) {src : Nat → Read} {t : Bytes} (h : Delivers src t) (ds : List PDir) :
    (∃ n l, (newLit src).allDirective hi n = .ok (l, .ok ds)) ↔ Program t ds := by
  rw [Yields.ok_iff (allDirective_yields hi h.holds)]
  constructor
  · rintro ⟨s, e⟩
    rcases allDirective_cases hi (t.length + 1) true t 1 (Nat.lt_succ_self _) with ⟨s', ds', e1, h1⟩ | ⟨s', er, e1⟩ | ⟨e1, _⟩
    · rw [show (newScanner t).allDirective hi = _ from e1] at e; cases e; exact h1
    · rw [show (newScanner t).allDirective hi = _ from e1] at e; cases e
    · rw [show (newScanner t).allDirective hi = _ from e1] at e; cases e
  · intro hp
    exact allDirective_ok hi hp (t.length + 1) true 1 (Nat.lt_succ_self _)

/-- A scanner on a source answers every sequence of calls of its methods as the scanner on the
string of the bytes that the source gives before its first failure: nothing it answers tells
a failure from the end of the text. -/
theorem C100_calls (hi : Rune → Rune) {src : Nat → Read} {t : Bytes} (h : Delivers src t) (cs : List ScanCall) :
    (∀ outs, (∃ n l, Lit.calls hi n cs (newLit src) = .ok (l, outs)) ↔ ∃ s, Scan.calls hi cs (newScanner t) = .ok (s, outs)) ∧
    ((∀ n, Lit.calls hi n cs (newLit src) = .fuel) ↔ Scan.calls hi cs (newScanner t) = .fuel) :=
  ⟨fun _ => (calls_yields hi cs h.holds).ok_iff _, (calls_yields hi cs h.holds).fuel_iff⟩

theorem scan_calls_append (hi : Rune → Rune) (cs cs' : List ScanCall) : ∀ s : Scan, Scan.calls hi (cs ++ cs') s =
    (Scan.calls hi cs s).bind fun p => (Scan.calls hi cs' p.1).bind fun q => .ok (q.1, p.2 ++ q.2) := by
  induction cs with
  | nil =>
    intro s
    simp only [List.nil_append, Scan.calls, Res.bind_ok']
    cases Scan.calls hi cs' s <;> rfl
  | cons c cs ih =>
    intro s
    simp only [List.cons_append, Scan.calls]
    cases s.call hi c with
    | panic => rfl
    | fuel => rfl
    | ok p =>
      simp only [Res.bind_ok', ih]
      cases Scan.calls hi cs p.1 with
      | panic => rfl
      | fuel => rfl
      | ok q =>
        simp only [Res.bind_ok']
        cases Scan.calls hi cs' q.1 with
        | panic => rfl
        | fuel => rfl
        | ok r => rfl

theorem scan_calls_length (hi : Rune → Rune) (cs : List ScanCall) : ∀ {s s' : Scan} {outs : List ScanOut},
    Scan.calls hi cs s = .ok (s', outs) → outs.length = cs.length := by
  induction cs with
  | nil => intro s s' outs h; cases h; rfl
  | cons c cs ih =>
    intro s s' outs h
    simp only [Scan.calls] at h
    cases e : s.call hi c with
    | panic => rw [e] at h; cases h
    | fuel => rw [e] at h; cases h
    | ok p =>
      rw [e] at h
      simp only [Res.bind_ok'] at h
      cases e2 : Scan.calls hi cs p.1 with
      | panic => rw [e2] at h; cases h
      | fuel => rw [e2] at h; cases h
      | ok q =>
        rw [e2] at h
        cases h
        rw [List.length_cons, List.length_cons, ih e2]

/-- After the end there is nothing but the end. -/
theorem readDirective_eos (hi : Rune → Rune) {s s' : Scan} (h : s.readDirective hi = .ok (s', .error .eos)) : s'.inp = [] := by
  simp only [Scan.readDirective] at h
  generalize skipLines s.inp s.line = q at h
  obtain ⟨r, j⟩ := q
  simp only at h
  cases r with
  | nil => cases h; rfl
  | cons c r =>
    simp only at h
    cases e : ({ bos := false, inp := c :: r, buf := s.buf, line := j } : Scan).readDirective' hi with
    | fuel => rw [e] at h; cases h
    | panic => rw [e] at h; cases h
    | ok p =>
      obtain ⟨s1, a⟩ := p
      rw [e] at h
      cases a with
      | error x => cases x <;> cases h
      | ok a => cases h

theorem readDirective_nil (hi : Rune → Rune) {s : Scan} (h : s.inp = []) :
    ∃ s', s'.inp = [] ∧ s.readDirective hi = .ok (s', .error .eos) := by
  simp only [Scan.readDirective, h, skipLines]
  exact ⟨_, rfl, rfl⟩

theorem directives_nil (hi : Rune → Rune) (k : Nat) : ∀ {s : Scan}, s.inp = [] → ∃ s',
    Scan.calls hi (List.replicate k .directive) s = .ok (s', List.replicate k (.directive (.error .eos))) := by
  induction k with
  | zero => intro s _; exact ⟨s, rfl⟩
  | succ k ih =>
    intro s h
    obtain ⟨s1, h1, e1⟩ := readDirective_nil hi h
    obtain ⟨s2, e2⟩ := ih h1
    exact ⟨s2, by simp only [List.replicate_succ, Scan.calls, Scan.call, outAs, e1, Res.bind_ok', e2]⟩

/-- Once `ReadDirective` has reported the end, it reports the end each time it is called
again, as long as the source gives no further byte. -/
theorem C100_end_is_final (hi : Rune → Rune) {src : Nat → Read} {t : Bytes} (h : Delivers src t) {cs : List ScanCall} {n : Nat} {l : Lit} {outs : List ScanOut}
    (hc : Lit.calls hi n (cs ++ [.directive]) (newLit src) = .ok (l, outs ++ [.directive (.error .eos)])) (k : Nat) :
    ∃ n l, Lit.calls hi n (cs ++ .directive :: List.replicate k .directive) (newLit src) =
      .ok (l, outs ++ .directive (.error .eos) :: List.replicate k (.directive (.error .eos))) := by
  obtain ⟨s, e⟩ := ((C100_calls hi h _).1 _).1 ⟨n, l, hc⟩
  refine ((C100_calls hi h _).1 _).2 ?_
  rw [scan_calls_append] at e
  cases e1 : Scan.calls hi cs (newScanner t) with
  | panic => rw [e1] at e; cases e
  | fuel => rw [e1] at e; cases e
  | ok p =>
    obtain ⟨s1, o1⟩ := p
    rw [e1] at e
    simp only [Res.bind_ok', Scan.calls, Scan.call, outAs] at e
    cases e2 : s1.readDirective hi with
    | panic => rw [e2] at e; cases e
    | fuel => rw [e2] at e; cases e
    | ok q =>
      obtain ⟨s2, o2⟩ := q
      rw [e2] at e
      simp only [Res.bind_ok', Res.ok.injEq, Prod.mk.injEq] at e
      obtain ⟨e3, e4⟩ := List.append_inj' e.2 rfl
      simp only [List.cons.injEq, and_true, ScanOut.directive.injEq] at e4
      subst e3 e4
      obtain ⟨s3, e5⟩ := directives_nil hi k (readDirective_eos hi e2)
      refine ⟨s3, ?_⟩
      rw [scan_calls_append, e1]
      simp only [Res.bind_ok', Scan.calls, Scan.call, outAs, e2, e5]

/-- A source that gives the bytes `t` and then fails. -/
def brokenAfter (t : Bytes) (i : Nat) : Read := match t[i]? with
  | some c => .byte c
  | none => .failed

theorem broken_after (t : Bytes) : Broken (brokenAfter t) t := by
  refine ⟨⟨fun i c h => by simp only [brokenAfter, h], fun i h c => ?_⟩, ?_⟩
  · simp only [brokenAfter, List.getElem?_eq_none h]; exact fun h => by cases h
  · simp only [brokenAfter, List.getElem?_eq_none (Nat.le_refl _)]

/-- The source fails after a first line that turns the engine off: this is the whole text. -/
theorem C100_refuted : ¬ C100_statement := by
  intro h
  have hp : Program b!"SecRuleEngine Off\n" [.ruleEng 0] := by
    have : parse id b!"SecRuleEngine Off\n" = .ok (.ok [.ruleEng 0]) := by decide +kernel
    rcases allDirective_cases id _ true b!"SecRuleEngine Off\n" 1 (Nat.lt_succ_self _) with ⟨s', ds', e1, h1⟩ | ⟨s', er, e1⟩ | ⟨e1, _⟩
    · rw [parse, show (newScanner b!"SecRuleEngine Off\n").allDirective id = _ from e1] at this
      cases this; exact h1
    · rw [parse, show (newScanner b!"SecRuleEngine Off\n").allDirective id = _ from e1] at this
      cases this
    · rw [parse, show (newScanner b!"SecRuleEngine Off\n").allDirective id = _ from e1] at this
      cases this
  obtain ⟨n, l, e⟩ := (C100_accepts_partial id (broken_after b!"SecRuleEngine Off\n").1 _).2 hp
  exact h id _ _ (broken_after _) n l _ e

/-- A source that fails for a moment: `a`, an error, `b`, and errors. -/
def hiccup (a b : Bytes) (i : Nat) : Read := if i < a.length then brokenAfter a i else if i = a.length then .failed else brokenAfter b (i - a.length - 1)

/-- A failure in the middle of a word that is no more than an argument ends it, and reading
goes on after it: the text reads `SecRuleEngine Off`, a failure, and what is a directive of
its own. -/
theorem C100_reads_on : ((newLit (hiccup b!"SecRuleEngine Off" b!"SecRuleEngine On\n")).allDirective id 100).bind (fun p => .ok p.2) =
    .ok (.ok [.ruleEng 0, .ruleEng 1]) := by decide +kernel

/-- The same failure between the quotes of an argument: refused. -/
example : ((newLit (brokenAfter b!"SecRuleEngine \"Off")).allDirective id 100).bind (fun p => .ok p.2) =
    .ok (.error .unexpectedEOS) := by decide +kernel

/-- `C100_end_is_final`: a directive, the end, and the end. -/
example : (Lit.calls id 100 ([.directive] ++ [.directive]) (newLit (brokenAfter b!"SecRuleEngine Off\n"))).bind (fun p => .ok p.2.length) = .ok 2 := by decide +kernel

/-! ### C101 -/

/-- A `StartsWith` that answers no changes no later answer. -/
def C101_statement : Prop := ∀ (hi : Rune → Rune) (t : Bytes) (cs cs' : List ScanCall) (str : List Rune) (s : Scan) (outs outs' : List ScanOut),
  outs.length = cs.length → Scan.calls hi (cs ++ .startsWith str :: cs') (newScanner t) = .ok (s, outs ++ .answer false :: outs') →
  ∃ s', Scan.calls hi (cs ++ cs') (newScanner t) = .ok (s', outs ++ outs')

/-- The text goes on with the directive `SecRuleEngine On`; whether it goes on with
`SecRuleEngines` is asked, and denied; and `SecRuleEngine` has become a part of a word
`SecRuleEngineOn`. -/
theorem C101_refuted : ¬ C101_statement := by
  intro h
  obtain ⟨s', e⟩ := h id b!"SecRuleEngine On" [.skipBlank] [.directive] (b!"SecRuleEngines".map UInt8.toNat) _
    [.nothing] [.directive (.error .notDirective)] rfl (show _ = Res.ok (⟨false, [], [], 1⟩, _) from rfl)
  have : Scan.calls id ([.skipBlank] ++ [.directive]) (newScanner b!"SecRuleEngine On") =
    .ok (⟨false, [], [], 1⟩, [.nothing, .directive (.ok (.ruleEng 1))]) := rfl
  rw [this] at e
  cases e

/-- What `StartsWith` does in the middle of a text: it takes the longest run of bytes that
agrees with the beginning of `str`, whether this is all of `str` or not, and leaves it in the
buffer, in front of what is read next. -/
theorem C101_takes (hi : Rune → Rune) (str : List Rune) : ∀ (s : Scan), s.bos = false → ∃ p rest, s.inp = p ++ rest ∧ p.length ≤ str.length ∧
    p.map (fun c => lowerRune hi c.toNat) = (str.take p.length).map (lowerRune hi) ∧
    (∀ c r, rest.head? = some c → str[p.length]? = some r → lowerRune hi c.toNat ≠ lowerRune hi r) ∧
    s.startsWith hi str = ({ s with inp := rest, buf := s.buf ++ p }, decide (p.length = str.length)) := by
  induction str with
  | nil =>
    intro s _
    refine ⟨[], s.inp, rfl, Nat.le_refl _, rfl, by simp, ?_⟩
    simp [Scan.startsWith]
  | cons r rs ih =>
    intro s hb
    obtain ⟨bos, inp, buf, line⟩ := s
    simp only at hb
    subst hb
    cases inp with
    | nil => exact ⟨[], [], rfl, by simp, rfl, by simp, by simp [Scan.startsWith]⟩
    | cons c t =>
      by_cases e : lowerRune hi c.toNat = lowerRune hi r
      · obtain ⟨p, rest, h1, h2, h3, h4, h5⟩ := ih ⟨false, t, buf ++ [c], line⟩ rfl
        simp only at h1
        subst h1
        refine ⟨c :: p, rest, rfl, by simp only [List.length_cons]; omega, ?_, ?_, ?_⟩
        · simp only [List.map_cons, List.length_cons, List.take_succ_cons, e, h3]
        · simpa only [List.length_cons, List.getElem?_cons_succ] using h4
        · simp only [Scan.startsWith, Bool.false_eq_true, if_false, e, if_true, h5]
          simp
      · refine ⟨[], c :: t, rfl, by simp, rfl, ?_, ?_⟩
        · intro c' r' h1 h2
          simp only [List.head?_cons, Option.some.injEq] at h1
          simp only [List.length_nil, List.getElem?_cons_zero, Option.some.injEq] at h2
          subst h1 h2
          exact e
        · simp [Scan.startsWith, e]

theorem letter_of_lower (hi : Nat → Nat) (hh : ∀ r, 128 ≤ r → r < 256 → 128 ≤ hi r) {c r : Nat} (hc : c < 256)
    (hr : AsciiLetter r) (e : lowerRune hi c = lowerRune hi r) : AsciiLetter c := by
  have lo : ∀ x : Nat, @Eq Nat (lowerRune hi x) (if x < 128 then (if 65 ≤ x ∧ x ≤ 90 then x + 32 else x) else hi x) := fun _ => rfl
  have e : @Eq Nat (lowerRune hi c) (lowerRune hi r) := e
  rw [lo, lo] at e
  simp only [AsciiLetter] at hr ⊢
  have hr' : r < 128 := by omega
  rw [if_pos hr'] at e
  by_cases q : c < 128
  · rw [if_pos q] at e
    split at e <;> split at e <;> omega
  · rw [if_neg q] at e
    have := hh c (by omega) (by omega)
    split at e <;> omega

/-- For letters nothing is lost, so long as a word is read next: it is the word, and the
scanner is left, as if `StartsWith` had not been called.  (`unicode.ToLower` takes no
character from 128 to 255 to one below.) -/
theorem C101_before_word_partial (hi : Rune → Rune) (hh : ∀ r, 128 ≤ r → r < 256 → 128 ≤ hi r) {str : List Rune} (hs : ∀ r ∈ str, AsciiLetter r) :
    ∀ s : Scan, (s.startsWith hi str).1.readWord = s.readWord := by
  induction str with
  | nil => intro s; rfl
  | cons r rs ih =>
    intro s
    obtain ⟨bos, inp, buf, line⟩ := s
    cases bos with
    | true => rfl
    | false =>
      cases inp with
      | nil => rfl
      | cons c t =>
        by_cases e : lowerRune hi c.toNat = lowerRune hi r
        · have hr : AsciiLetter r := hs r (by simp)
          have hc : isAlphabet c = true := by
            have hlt := c.toNat_lt
            have h1 : AsciiLetter c.toNat := letter_of_lower hi hh hlt hr e
            simp only [isAlphabet, Bool.or_eq_true, Bool.and_eq_true, decide_eq_true_eq, UInt8.le_iff_toNat_le]
            rcases h1 with h1 | h1
            · exact .inr ⟨h1.1, h1.2⟩
            · exact .inl ⟨h1.1, h1.2⟩
          have := ih (fun r h => hs r (List.mem_cons_of_mem _ h)) ⟨false, t, buf ++ [c], line⟩
          simp only [Scan.startsWith, Bool.false_eq_true, if_false, e, if_true, this]
          simp only [Scan.readWord, Bool.false_eq_true, if_false, readLetters, hc, if_true]
          simp
        · simp [Scan.startsWith, e]

/-- `C101_before_word_partial`: three letters agree and the fourth does not; the word is whole. -/
example : (Scan.startsWith id ⟨false, b!"SecRule x", [], 1⟩ (b!"sector".map UInt8.toNat)) = (⟨false, b!"Rule x", b!"Sec", 1⟩, false) ∧
    (Scan.startsWith id ⟨false, b!"SecRule x", [], 1⟩ (b!"sector".map UInt8.toNat)).1.readWord = (⟨false, b!" x", [], 1⟩, b!"SecRule") := by decide +kernel

end Verif
