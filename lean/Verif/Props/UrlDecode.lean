import Verif.Proofs.UrlDecode
/-! C01-C05: URL decoding (utils/urlencode.go). -/
namespace Verif
open Spec

/-- C01: every encoding of some raw bytes decodes to exactly these bytes, without errors. -/
theorem C01_decode_inverts_encoding {enc raw : Bytes} (h : Encodes enc raw) : urlDecode enc = (raw, 0) := by
  unfold urlDecode
  induction h with
  | nil => exact ud_nil _
  | lit h1 h2 _ ih => rw [ud_lit _ _ h1 h2, ih]; rfl
  | plus _ ih => rw [ud_plus, ih]; rfl
  | @hex a b x va vb enc raw ha hb hx _ ih =>
    rw [ud_hex _ _ ((isHex_iff a).2 ⟨_, ha⟩) ((isHex_iff b).2 ⟨_, hb⟩), ih]
    have : (unHex a <<< 4) ||| unHex b = x := by
      apply UInt8.toNat_inj.1
      rw [nibbles _ _ (unHex_lt _) (unHex_lt _), unHex_eq ha, unHex_eq hb, hx]
    simp [emit, this]

/-- C01: every byte string has the encoding that escapes every byte, so the
theorem above covers every string of raw bytes. -/
theorem C01_every_string_has_encoding (raw : Bytes) : ∃ enc, enc.length = 3 * raw.length ∧ Encodes enc raw := by
  induction raw with
  | nil => exact ⟨[], rfl, .nil⟩
  | cons x raw ih =>
    obtain ⟨enc, hl, he⟩ := ih
    have hx := x.toNat_lt
    have hex : ∀ v, v < 16 → ∃ c, HexVal c v := fun v hv => by
      by_cases h : v < 10
      · exact ⟨UInt8.ofNat (48 + v), .inl ⟨h, by simp; omega⟩⟩
      · exact ⟨UInt8.ofNat (65 + (v - 10)), .inr ⟨by omega, hv, .inl (by simp; omega)⟩⟩
    obtain ⟨a, ha⟩ := hex (x.toNat / 16) (by omega)
    obtain ⟨b, hb⟩ := hex (x.toNat % 16) (by omega)
    exact ⟨37 :: a :: b :: enc, by simp [hl]; omega, .hex ha hb (by omega) he⟩

example : Encodes b!"%3C+a%2b" b!"< a+" :=
  .hex (va := 3) (vb := 12) (.inl ⟨by decide, rfl⟩) (.inr ⟨by decide, by decide, .inl rfl⟩) rfl
    (.plus (.lit (by decide) (by decide)
      (.hex (va := 2) (vb := 11) (.inl ⟨by decide, rfl⟩) (.inr ⟨by decide, by decide, .inr rfl⟩) rfl .nil)))

/-- C02: decoding never makes a string longer. -/
theorem C02_length_le (s : Bytes) :
    (urlDecode s).1.length ≤ s.length ∧ (urlDecodeUni s).1.length ≤ s.length := by
  have key : ∀ (u : Bool) (n : Nat) (s : Bytes), s.length = n → (urldecode u s).1.length ≤ s.length := by
    intro u n
    induction n using Nat.strongRecOn with
    | _ n ih =>
      intro s hn
      refine ud_cases u s ?_ ?_ ?_ ?_ ?_ ?_
      · rintro rfl; simp [ud_nil]
      · rintro a b r rfl ha hb
        have := ih r.length (by simp at hn; omega) r rfl
        rw [ud_hex u r ha hb]; simp [emit]; omega
      · rintro a b d e f r rfl rfl h
        have := ih r.length (by simp at hn; omega) r rfl
        have := encodeRune_length (uniRune b d e f)
        rw [ud_uni r h]; simp [emit]; omega
      · rintro r rfl h1 h2
        have := ih r.length (by simp at hn; omega) r rfl
        rw [ud_bad u r h1 h2]; simp [emit]; omega
      · rintro r rfl
        have := ih r.length (by simp at hn; omega) r rfl
        rw [ud_plus]; simp [emit]; omega
      · rintro c r rfl h1 h2
        have := ih r.length (by simp at hn; omega) r rfl
        rw [ud_lit u r h1 h2]; simp [emit]; omega
  exact ⟨key false _ s rfl, key true _ s rfl⟩

-- the bound is attained, and undershot
example : (urlDecodeUni b!"ab%").1.length = 3 ∧ (urlDecodeUni b!"%u4F60%u597D").1.length = 6 := by decide

/-- C03: the error count is the number of '%' that do not start an escape. -/
theorem C03_error_count (s : Bytes) : (urlDecode s).2 = malformedCount s := by
  have key : ∀ (n : Nat) (s : Bytes), s.length = n → (urldecode false s).2 = malformedCount s := by
    intro n
    induction n using Nat.strongRecOn with
    | _ n ih =>
      intro s hn
      refine ud_cases false s ?_ ?_ ?_ ?_ ?_ ?_
      · rintro rfl; simp [ud_nil, malformedCount]
      · rintro a b r rfl ha hb
        have h1 := ih r.length (by simp at hn; omega) r rfl
        rw [ud_hex false r ha hb, malformedCount_cons, malformedCount_cons, malformedCount_cons]
        have ha' : a ≠ 37 := fun h => by subst h; exact absurd ha (by decide)
        have hb' : b ≠ 37 := fun h => by subst h; exact absurd hb (by decide)
        have : WellFormedEscape (37 :: a :: b :: r) := ⟨a, b, r, rfl, (isHex_iff a).1 ha, (isHex_iff b).1 hb⟩
        simp [emit, h1, ha', hb', this]
      · rintro a b d e f r rfl h; cases h
      · rintro r rfl h1 _
        have h2 := ih r.length (by simp at hn; omega) r rfl
        rw [ud_bad false r h1 rfl, malformedCount_cons]
        have : ¬ WellFormedEscape (37 :: r) := by
          rintro ⟨a, b, r', h, ha, hb⟩
          cases h
          simp [startsHex, (isHex_iff a).2 ha, (isHex_iff b).2 hb] at h1
        simp [emit, h2, this]
      · rintro r rfl
        have := ih r.length (by simp at hn; omega) r rfl
        rw [ud_plus, malformedCount_cons]; simp [emit, this]
      · rintro c r rfl h1 h2
        have := ih r.length (by simp at hn; omega) r rfl
        rw [ud_lit false r h1 h2, malformedCount_cons]; simp [emit, this, h1]
  exact key _ s rfl

/-- C03: text without '%' and '+' is returned unchanged (also by the %u decoder). -/
theorem C03_plain_unchanged (s : Bytes) (h1 : 37 ∉ s) (h2 : 43 ∉ s) :
    urlDecode s = (s, 0) ∧ urlDecodeUni s = (s, 0) := by
  have key : ∀ u, urldecode u s = (s, 0) := by
    intro u
    induction s with
    | nil => exact ud_nil u
    | cons c r ih =>
      simp only [List.mem_cons, not_or] at h1 h2
      rw [ud_lit u r (Ne.symm h1.1) (Ne.symm h2.1), ih h1.2 h2.2]; rfl
  exact ⟨key _, key _⟩

/-- C03: a malformed '%' stays in the output, and the rest is decoded as on its own. -/
theorem C03_malformed_kept (r : Bytes) (h : ¬ WellFormedEscape (37 :: r)) :
    urlDecode (37 :: r) = (37 :: (urlDecode r).1, 1 + (urlDecode r).2) := by
  have h1 : startsHex r = false := by
    rcases r with _ | ⟨a, _ | ⟨b, r⟩⟩
    · rfl
    · rfl
    · refine Bool.eq_false_iff.2 fun hc => ?_
      simp [startsHex] at hc
      exact h ⟨a, b, r, rfl, (isHex_iff a).1 hc.1, (isHex_iff b).1 hc.2⟩
  exact ud_bad false r h1 rfl

example : urlDecode b!"%%3e%zz" = (b!"%>%zz", 2) := by decide
example : ¬ WellFormedEscape b!"%zz" := by
  rintro ⟨a, b, r, h, ha, _⟩
  cases h
  exact absurd ((isHex_iff 122).2 ha) (by decide)

/-- C04: `%uHHHH` outside FFxx is the UTF-8 encoding of its code point, and the
rest of the text is decoded independently. -/
theorem C04_uni_escape {u h0 h1 h2 h3 : UInt8} {v0 v1 v2 v3 : Nat} (hu : u = 117 ∨ u = 85)
    (e0 : HexVal h0 v0) (e1 : HexVal h1 v1) (e2 : HexVal h2 v2) (e3 : HexVal h3 v3)
    (hff : ¬ (v0 = 15 ∧ v1 = 15)) (r : Bytes) :
    urlDecodeUni (37 :: u :: h0 :: h1 :: h2 :: h3 :: r) =
      (utf8 (4096 * v0 + 256 * v1 + 16 * v2 + v3) ++ (urlDecodeUni r).1, (urlDecodeUni r).2) := by
  have hs : startsUni (u :: h0 :: h1 :: h2 :: h3 :: r) = true := by
    simp [startsUni, hu, (isHex_iff _).2 ⟨_, e0⟩, (isHex_iff _).2 ⟨_, e1⟩, (isHex_iff _).2 ⟨_, e2⟩,
      (isHex_iff _).2 ⟨_, e3⟩]
  have hb : ∀ {c v}, HexVal c v → v < 16 := fun h => by rcases h with h | h <;> omega
  have := hb e0; have := hb e1; have := hb e2; have := hb e3
  have hr : uniRune h0 h1 h2 h3 = 4096 * v0 + 256 * v1 + 16 * v2 + v3 := by
    simp only [uniRune, unHex_eq e0, unHex_eq e1, unHex_eq e2, unHex_eq e3]
    show @Eq Nat _ _
    split <;> omega
  unfold urlDecodeUni
  rw [ud_uni r hs, hr]
  generalize hcp : 4096 * v0 + 256 * v1 + 16 * v2 + v3 = cp
  have : encodeRune cp = utf8 cp := by
    unfold utf8
    split
    · rename_i hsur
      simp only [encodeRune]
      rw [if_neg (show ¬ cp ≤ 0x7F by omega), if_neg (show ¬ cp ≤ 0x7FF by omega),
        if_pos (show cp > 0x10FFFF ∨ (0xD800 ≤ cp ∧ cp ≤ 0xDFFF) by omega)]
      decide
    · rename_i hsur
      exact encodeRune_utf8 cp (by simp only [Nat.isValidChar]; omega)
  simp [emit, this]

/-- C04: a text without `%u`/`%U` is decoded as by the plain decoder. -/
theorem C04_agrees_without_percent_u (s : Bytes) (h : ¬ HasPercentU s) : urlDecodeUni s = urlDecode s := by
  have tail : ∀ {p r : Bytes}, ¬ HasPercentU (p ++ r) → ¬ HasPercentU r := by
    rintro p r h ⟨q, t, u, rfl, hu⟩
    exact h ⟨p ++ q, t, u, by simp, hu⟩
  have key : ∀ (n : Nat) (s : Bytes), s.length = n → ¬ HasPercentU s → urldecode true s = urldecode false s := by
    intro n
    induction n using Nat.strongRecOn with
    | _ n ih =>
      intro s hn hs
      refine ud_cases true s ?_ ?_ ?_ ?_ ?_ ?_
      · rintro rfl; simp [ud_nil]
      · rintro a b r rfl ha hb
        rw [ud_hex true r ha hb, ud_hex false r ha hb,
          ih r.length (by simp at hn; omega) r rfl (tail (p := [37, a, b]) hs)]
      · rintro a b d e f r rfl _ h
        simp only [startsUni, Bool.and_eq_true, Bool.or_eq_true, beq_iff_eq] at h
        exact absurd ⟨[], _, a, rfl, h.1.1.1.1⟩ hs
      · rintro r rfl h1 h2
        rw [ud_bad true r h1 h2, ud_bad false r h1 rfl,
          ih r.length (by simp at hn; omega) r rfl (tail (p := [37]) hs)]
      · rintro r rfl
        rw [ud_plus, ud_plus, ih r.length (by simp at hn; omega) r rfl (tail (p := [43]) hs)]
      · rintro c r rfl h1 h2
        rw [ud_lit true r h1 h2, ud_lit false r h1 h2,
          ih r.length (by simp at hn; omega) r rfl (tail (p := [c]) hs)]
  exact key _ s rfl h

example : urlDecodeUni b!"%u4f60%U597Dx" = (b!"你好x", 0) := by decide
example : ¬ HasPercentU b!"a%20b" := by
  rintro ⟨p, r, u, h, hu⟩
  rcases p with _ | ⟨p0, _ | ⟨p1, _ | ⟨p2, p⟩⟩⟩ <;> simp_all
  · obtain ⟨_, h, _⟩ := h; subst h; simp at hu
  · rcases p with _ | ⟨p3, _ | ⟨p4, p⟩⟩ <;> simp_all

/-- The full claim C05: `%uFFxx` is decoded to the ASCII twin for xx in 01..5E
and to the code point's own encoding otherwise. -/
def C05_statement : Prop :=
  ∀ (u h2 h3 : UInt8) (v2 v3 : Nat), (u = 117 ∨ u = 85) → HexVal h2 v2 → HexVal h3 v3 → ∀ r,
    urlDecodeUni (37 :: u :: 70 :: 70 :: h2 :: h3 :: r) =
      ((if 1 ≤ 16 * v2 + v3 ∧ 16 * v2 + v3 ≤ 0x5E then [UInt8.ofNat (0x20 + (16 * v2 + v3))]
        else utf8 (0xFF00 + (16 * v2 + v3))) ++ (urlDecodeUni r).1, (urlDecodeUni r).2)

/-- C05, the proved half: full-width forms become their ASCII twins, in every context. -/
theorem C05_fullwidth_partial {u f0 f1 h2 h3 : UInt8} {v2 v3 : Nat} (hu : u = 117 ∨ u = 85)
    (e0 : HexVal f0 15) (e1 : HexVal f1 15) (e2 : HexVal h2 v2) (e3 : HexVal h3 v3)
    (hlo : 1 ≤ 16 * v2 + v3) (hhi : 16 * v2 + v3 ≤ 0x5E) (r : Bytes) :
    urlDecodeUni (37 :: u :: f0 :: f1 :: h2 :: h3 :: r) =
      (UInt8.ofNat (0x20 + (16 * v2 + v3)) :: (urlDecodeUni r).1, (urlDecodeUni r).2) := by
  have hs : startsUni (u :: f0 :: f1 :: h2 :: h3 :: r) = true := by
    simp [startsUni, hu, (isHex_iff _).2 ⟨_, e0⟩, (isHex_iff _).2 ⟨_, e1⟩, (isHex_iff _).2 ⟨_, e2⟩,
      (isHex_iff _).2 ⟨_, e3⟩]
  have hr : uniRune f0 f1 h2 h3 = 0x20 + (16 * v2 + v3) := by
    simp only [uniRune, unHex_eq e0, unHex_eq e1, unHex_eq e2, unHex_eq e3]
    show @Eq Nat _ _
    rw [if_pos trivial]; omega
  unfold urlDecodeUni
  rw [ud_uni r hs, hr]
  simp only [encodeRune, if_pos (show 0x20 + (16 * v2 + v3) ≤ 0x7F by omega)]
  simp [emit]

/-- C05, what the code does with every code `%uFFxx`: it gives the character `xx + 0x20`. -/
theorem C05_all_codes {u f0 f1 h2 h3 : UInt8} {v2 v3 : Nat} (hu : u = 117 ∨ u = 85)
    (e0 : HexVal f0 15) (e1 : HexVal f1 15) (e2 : HexVal h2 v2) (e3 : HexVal h3 v3) (r : Bytes) :
    urlDecodeUni (37 :: u :: f0 :: f1 :: h2 :: h3 :: r) =
      (utf8 (0x20 + (16 * v2 + v3)) ++ (urlDecodeUni r).1, (urlDecodeUni r).2) := by
  have hs : startsUni (u :: f0 :: f1 :: h2 :: h3 :: r) = true := by
    simp [startsUni, hu, (isHex_iff _).2 ⟨_, e0⟩, (isHex_iff _).2 ⟨_, e1⟩, (isHex_iff _).2 ⟨_, e2⟩,
      (isHex_iff _).2 ⟨_, e3⟩]
  have hr : uniRune f0 f1 h2 h3 = 0x20 + (16 * v2 + v3) := by
    simp only [uniRune, unHex_eq e0, unHex_eq e1, unHex_eq e2, unHex_eq e3]
    show @Eq Nat _ _
    rw [if_pos trivial]; omega
  have hb : ∀ {c v}, HexVal c v → v < 16 := fun h => by rcases h with h | h <;> omega
  have := hb e2; have := hb e3
  unfold urlDecodeUni
  rw [ud_uni r hs, hr]
  generalize hcp : 0x20 + (16 * v2 + v3) = cp
  have : encodeRune cp = utf8 cp := by
    unfold utf8
    rw [if_neg (by omega)]
    exact encodeRune_utf8 cp (by simp only [Nat.isValidChar]; omega)
  simp [emit, this]

-- `%uFF1c` (full-width '<')
example : urlDecodeUni b!"%uFF1cscript" = (b!"<script", 0) := by decide

/-- C05 is false of the code outside 01..5E: `%uFF61` (half-width ideographic
full stop) becomes the control character U+0081, `%uFF00` a space. -/
theorem C05_refuted : ¬ C05_statement := by
  intro h
  have := h 117 54 49 6 1 (.inl rfl) (.inl ⟨by decide, rfl⟩) (.inl ⟨by decide, rfl⟩) []
  revert this
  decide

end Verif
