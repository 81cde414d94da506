import Verif.Model.Compare
import Verif.Proofs.Transforms
namespace Verif
open Spec

theorem isSpace_iff (r : Nat) : isSpace r = true ↔ r ∈ whiteSpace := by
  simp only [isSpace, whiteSpace, Bool.or_eq_true, Bool.and_eq_true, decide_eq_true_eq, beq_iff_eq,
    List.mem_cons, List.not_mem_nil, or_false]
  show (((((((((((9 ≤ r ∧ r ≤ 13) ∨ r = 0x20) ∨ r = 0x85) ∨ r = 0xA0) ∨ r = 0x1680) ∨ (0x2000 ≤ r ∧ r ≤ 0x200A)) ∨ r = 0x2028) ∨ r = 0x2029) ∨ r = 0x202F) ∨ r = 0x205F) ∨ r = 0x3000) ↔ _
  omega

theorem blank_iff (s : Bytes) : Blank s ↔ ∃ rs : List Nat,
    (∀ r ∈ rs, r.isValidChar ∧ isSpace r = true) ∧ s = rs.flatMap encodeRune := by
  constructor
  · rintro ⟨cs, h, rfl⟩
    refine ⟨cs.map Char.toNat, ?_, ?_⟩
    · intro r hr
      obtain ⟨c, hc, rfl⟩ := List.mem_map.1 hr
      exact ⟨char_valid c, (isSpace_iff _).2 (h c hc)⟩
    · rw [List.flatMap_map]; simp only [encodeRune_char]
  · rintro ⟨rs, h, rfl⟩
    refine ⟨rs.map Char.ofNat, ?_, ?_⟩
    · intro c hc
      obtain ⟨r, hr, rfl⟩ := List.mem_map.1 hc
      have e : (Char.ofNat r).toNat = r := by
        have hv := (h r hr).1
        simp [Char.ofNat, hv, Char.toNat, Char.ofNatAux]
      rw [e]; exact (isSpace_iff r).1 (h r hr).2
    · rw [List.flatMap_map]
      induction rs with
      | nil => rfl
      | cons r rs ih =>
        simp only [List.mem_cons, forall_eq_or_imp] at h
        rw [List.flatMap_cons, List.flatMap_cons, ih h.2, encodeRune_utf8 _ h.1.1]

theorem segs_encodes {rs : List Nat} (h : ∀ r ∈ rs, r.isValidChar) (t : Bytes) :
    segs (rs.flatMap encodeRune ++ t) = rs.map (fun r => ⟨r, encodeRune r⟩) ++ segs t := by
  induction rs with
  | nil => rfl
  | cons r rs ih =>
    simp only [List.mem_cons, forall_eq_or_imp] at h
    rw [List.flatMap_cons, List.append_assoc, segs_encode h.1, ih h.2]; rfl

theorem dropWhile_append_all {α : Type} {p : α → Bool} {l r : List α} (h : ∀ x ∈ l, p x = true) :
    (l ++ r).dropWhile p = r.dropWhile p := by
  induction l with
  | nil => rfl
  | cons x l ih =>
    simp only [List.mem_cons, forall_eq_or_imp] at h
    simp [h.1, ih h.2]

theorem dropWhile_split {α : Type} (p : α → Bool) (l : List α) :
    ∃ u, l = u ++ l.dropWhile p ∧ ∀ x ∈ u, p x = true := by
  induction l with
  | nil => exact ⟨[], rfl, by simp⟩
  | cons x l ih =>
    obtain ⟨u, h1, h2⟩ := ih
    by_cases hx : p x = true
    · refine ⟨x :: u, ?_, ?_⟩
      · simp only [List.dropWhile_cons, hx, if_true, List.cons_append]; rw [← h1]
      · simpa [hx] using h2
    · exact ⟨[], by simp [hx], by simp⟩

/-- Every string is its trimmed form between white space. -/
theorem trimSpace_split (s : Bytes) : ∃ l r, s = l ++ trimSpace s ++ r ∧ Blank l ∧ Blank r := by
  obtain ⟨u, h1, h2⟩ := dropWhile_split (fun c : Seg => isSpace c.rune) (segs s)
  obtain ⟨w, h3, h4⟩ := dropWhile_split (fun c : Seg => isSpace c.rune)
    ((segs s).dropWhile (fun c => isSpace c.rune)).reverse
  have good : ∀ c ∈ segs s, isSpace c.rune = true → c.rune.isValidChar ∧ c.bytes = encodeRune c.rune := by
    refine segs_induction (P := fun s => ∀ c ∈ segs s, isSpace c.rune = true → c.rune.isValidChar ∧ c.bytes = encodeRune c.rune)
      (by simp [segs_nil]) ?_ s
    intro c t _ hc h ih d hd hs
    rw [h] at hd
    rcases List.mem_cons.1 hd with rfl | hd
    · rcases hc with hc | hc
      · exact hc
      · rw [hc.1] at hs; exact absurd hs (by decide)
    · exact ih d hd hs
  have blank : ∀ cs : List Seg, (∀ c ∈ cs, c ∈ segs s ∧ isSpace c.rune = true) → Blank (cs.flatMap Seg.bytes) := by
    intro cs h
    refine (blank_iff _).2 ⟨cs.map Seg.rune, ?_, ?_⟩
    · intro r hr
      obtain ⟨c, hc, rfl⟩ := List.mem_map.1 hr
      exact ⟨(good c (h c hc).1 (h c hc).2).1, (h c hc).2⟩
    · induction cs with
      | nil => rfl
      | cons c cs ih =>
        simp only [List.mem_cons, forall_eq_or_imp] at h
        rw [List.flatMap_cons, List.map_cons, List.flatMap_cons, ih h.2, (good c h.1.1 h.1.2).2]
  have h3' : (segs s).dropWhile (fun c => isSpace c.rune) =
      (((segs s).dropWhile (fun c => isSpace c.rune)).reverse.dropWhile (fun c => isSpace c.rune)).reverse ++ w.reverse := by
    have := congrArg List.reverse h3
    simpa using this
  refine ⟨u.flatMap Seg.bytes, w.reverse.flatMap Seg.bytes, ?_, blank u ?_, blank _ ?_⟩
  · conv => lhs; rw [← segs_bytes s, h1, h3']
    simp only [List.flatMap_append, trimSpace, List.append_assoc]
  · intro c hc; exact ⟨by rw [h1]; exact List.mem_append_left _ hc, h2 c hc⟩
  · intro c hc
    refine ⟨?_, h4 c (List.mem_reverse.1 hc)⟩
    rw [h1]
    refine List.mem_append_right _ ?_
    rw [h3']; exact List.mem_append_right _ hc

/-- Trimming removes surrounding white space from text with solid ASCII ends. -/
theorem trimSpace_blank {l r a : Bytes} (hl : Blank l) (hr : Blank r) (ha : Ascii a)
    (h : ∀ b ∈ a, isSpace b.toNat = false) : trimSpace (l ++ a ++ r) = a := by
  obtain ⟨ls, hls, rfl⟩ := (blank_iff l).1 hl
  obtain ⟨rs, hrs, rfl⟩ := (blank_iff r).1 hr
  have ea : a = (a.map UInt8.toNat).flatMap encodeRune := by
    clear h
    induction a with
    | nil => rfl
    | cons b a ih =>
      have hb : b.toNat < 128 := ha b (by simp)
      rw [List.map_cons, List.flatMap_cons, ← ih (fun c hc => ha c (by simp [hc])), encodeRune_ascii hb]
      simp
  have va : ∀ x ∈ a.map UInt8.toNat, x.isValidChar := by
    intro x hx
    obtain ⟨b, hb, rfl⟩ := List.mem_map.1 hx
    have := ha b hb
    simp only [Nat.isValidChar]; omega
  have es : segs (ls.flatMap encodeRune ++ a ++ rs.flatMap encodeRune) =
      ls.map (fun r => ⟨r, encodeRune r⟩) ++ ((a.map UInt8.toNat).map (fun r => ⟨r, encodeRune r⟩) ++
        rs.map (fun r => ⟨r, encodeRune r⟩)) := by
    conv => lhs; rw [ea]
    rw [List.append_assoc, segs_encodes (fun r hr => (hls r hr).1), segs_encodes va]
    have := segs_encodes (fun r hr => (hrs r hr).1) []
    rw [List.append_nil, segs_nil, List.append_nil] at this
    rw [this]
  have d0 : ∀ {xs : List Nat}, (∀ x ∈ xs, x.isValidChar ∧ isSpace x = true) →
      ∀ c ∈ xs.map (fun r => (⟨r, encodeRune r⟩ : Seg)), isSpace c.rune = true := by
    intro xs hx c hc
    obtain ⟨x, hx', rfl⟩ := List.mem_map.1 hc
    exact (hx x hx').2
  simp only [trimSpace]
  rw [es, dropWhile_append_all (d0 hls)]
  by_cases hnil : a = []
  · subst hnil
    have : List.dropWhile (fun c : Seg => isSpace c.rune) (rs.map (fun r => (⟨r, encodeRune r⟩ : Seg))) = [] := by
      have := dropWhile_append_all (r := []) (d0 hrs)
      simpa using this
    simp [this]
  have keep : ∀ {cs : List Seg} {t : List Seg}, cs ≠ [] → (∀ c ∈ cs, isSpace c.rune = false) →
      (cs ++ t).dropWhile (fun c => isSpace c.rune) = cs ++ t := by
    intro cs t hne hc
    rcases cs with _ | ⟨c, cs⟩
    · exact absurd rfl hne
    · simp [hc c (by simp)]
  have hA : ∀ c ∈ (a.map UInt8.toNat).map (fun r => (⟨r, encodeRune r⟩ : Seg)), isSpace c.rune = false := by
    intro c hc
    simp only [List.map_map, List.mem_map, Function.comp] at hc
    obtain ⟨b, hb, rfl⟩ := hc
    exact h b hb
  have hAne : (a.map UInt8.toNat).map (fun r => (⟨r, encodeRune r⟩ : Seg)) ≠ [] := by simpa using hnil
  rw [keep hAne hA, List.reverse_append,
    dropWhile_append_all (fun c hc => d0 hrs c (List.mem_reverse.1 hc))]
  have := keep (t := []) (cs := ((a.map UInt8.toNat).map (fun r => (⟨r, encodeRune r⟩ : Seg))).reverse)
    (by simpa using hnil) (fun c hc => hA c (List.mem_reverse.1 hc))
  rw [List.append_nil] at this
  rw [this, List.reverse_reverse, List.flatMap_map]
  exact ea.symm

/-! numerals -/

theorem isDigit_iff (b : UInt8) : isDigit b = true ↔ 48 ≤ b.toNat ∧ b.toNat ≤ 57 := by
  simp [isDigit, UInt8.le_iff_toNat_le]

theorem digitsVal_eq (acc : Nat) (s : Bytes) (h : ∀ d ∈ s, 48 ≤ d.toNat ∧ d.toNat ≤ 57) :
    digitsVal acc s = some (acc * 10 ^ s.length + digitSum s) := by
  induction s generalizing acc with
  | nil => simp [digitsVal, digitSum]
  | cons d s ih =>
    simp only [List.mem_cons, forall_eq_or_imp] at h
    rw [digitsVal, if_pos ((isDigit_iff d).2 h.1), ih _ h.2]
    simp only [digitSum, List.length_cons, Nat.pow_succ]
    congr 1
    rw [Nat.add_mul, Nat.mul_assoc, Nat.mul_comm 10, Nat.add_assoc]

theorem digitsVal_some {acc v : Nat} {s : Bytes} (h : digitsVal acc s = some v) :
    ∀ d ∈ s, 48 ≤ d.toNat ∧ d.toNat ≤ 57 := by
  induction s generalizing acc with
  | nil => simp
  | cons d s ih =>
    rw [digitsVal] at h
    split at h
    · rename_i hd
      simpa [(isDigit_iff d).1 hd] using ih h
    · cases h

theorem parseNat_iff (s : Bytes) (v : Nat) : parseNat s = some v ↔ Digits s ∧ v = digitSum s := by
  rcases s with _ | ⟨d, s⟩
  · simp [parseNat, Digits]
  · constructor
    · intro h
      simp only [parseNat] at h
      have hd := digitsVal_some h
      rw [digitsVal_eq 0 _ hd] at h
      refine ⟨⟨by simp, hd⟩, ?_⟩
      have := Option.some.inj h
      omega
    · rintro ⟨⟨_, hd⟩, rfl⟩
      simp only [parseNat]
      rw [digitsVal_eq 0 _ hd]; simp

theorem parseInt_iff (s : Bytes) (v : Int) : parseInt s = some v ↔ Decimal s v ∧ InInt64 v := by
  have pos : ∀ (ds : Bytes), ((parseNat ds).bind posRange = some v ↔ Digits ds ∧ v = digitSum ds ∧ InInt64 v) := by
    intro ds
    rw [Option.bind_eq_some_iff]
    constructor
    · rintro ⟨n, h1, h2⟩
      obtain ⟨hd, rfl⟩ := (parseNat_iff _ _).1 h1
      simp only [posRange] at h2
      split at h2
      · cases h2
        refine ⟨hd, rfl, ?_⟩
        unfold InInt64; omega
      · cases h2
    · rintro ⟨hd, rfl, hi⟩
      refine ⟨_, (parseNat_iff _ _).2 ⟨hd, rfl⟩, ?_⟩
      simp only [posRange]
      unfold InInt64 at hi
      rw [if_pos (by omega)]
  have neg : ∀ (ds : Bytes), ((parseNat ds).bind negRange = some v ↔ Digits ds ∧ v = -(digitSum ds : Int) ∧ InInt64 v) := by
    intro ds
    rw [Option.bind_eq_some_iff]
    constructor
    · rintro ⟨n, h1, h2⟩
      obtain ⟨hd, rfl⟩ := (parseNat_iff _ _).1 h1
      simp only [negRange] at h2
      split at h2
      · cases h2
        refine ⟨hd, rfl, ?_⟩
        unfold InInt64; omega
      · cases h2
    · rintro ⟨hd, rfl, hi⟩
      refine ⟨_, (parseNat_iff _ _).2 ⟨hd, rfl⟩, ?_⟩
      simp only [negRange]
      unfold InInt64 at hi
      rw [if_pos (by omega)]
  rcases s with _ | ⟨c, r⟩
  · simp only [parseInt, Decimal]
    constructor
    · rintro ⟨⟩
    · rintro ⟨⟨ds, ⟨hne, _⟩, h⟩, _⟩
      rcases h with ⟨h, _⟩ | ⟨h, _⟩ | ⟨h, _⟩
      · exact absurd h.symm hne
      · cases h
      · cases h
  simp only [parseInt]
  by_cases h1 : c = 43
  · subst h1
    simp only [beq_self_eq_true, if_true]
    rw [pos]
    constructor
    · rintro ⟨a, b, d⟩; exact ⟨⟨r, a, .inr (.inl ⟨rfl, b⟩)⟩, d⟩
    · rintro ⟨⟨ds, a, h⟩, d⟩
      rcases h with ⟨rfl, _⟩ | ⟨h, hv⟩ | ⟨h, _⟩
      · have := a.2 43 (by simp); simp at this
      · cases h; exact ⟨a, hv, d⟩
      · cases h
  by_cases h2 : c = 45
  · subst h2
    rw [if_neg (by decide), if_pos (by decide), neg]
    constructor
    · rintro ⟨a, b, d⟩; exact ⟨⟨r, a, .inr (.inr ⟨rfl, b⟩)⟩, d⟩
    · rintro ⟨⟨ds, a, h⟩, d⟩
      rcases h with ⟨rfl, _⟩ | ⟨h, _⟩ | ⟨h, hv⟩
      · have := a.2 45 (by simp); simp at this
      · cases h
      · cases h; exact ⟨a, hv, d⟩
  rw [if_neg (by simpa using h1), if_neg (by simpa using h2), pos]
  constructor
  · rintro ⟨a, b, d⟩; exact ⟨⟨_, a, .inl ⟨rfl, b⟩⟩, d⟩
  · rintro ⟨⟨ds, a, h⟩, d⟩
    rcases h with ⟨rfl, hv⟩ | ⟨h, _⟩ | ⟨h, _⟩
    · exact ⟨a, hv, d⟩
    · cases h; exact absurd rfl h1
    · cases h; exact absurd rfl h2

theorem decimal_bytes {a : Bytes} {v : Int} (h : Decimal a v) : ∀ b ∈ a, 43 ≤ b.toNat ∧ b.toNat ≤ 57 := by
  obtain ⟨ds, ⟨_, hd⟩, h⟩ := h
  intro b hb
  rcases h with ⟨rfl, _⟩ | ⟨rfl, _⟩ | ⟨rfl, _⟩
  · have := hd b hb; omega
  · rcases List.mem_cons.1 hb with rfl | hb
    · decide
    · have := hd b hb; omega
  · rcases List.mem_cons.1 hb with rfl | hb
    · decide
    · have := hd b hb; omega

/-- Trim and parse: exactly the numerals of the specification. -/
theorem parse_trim_iff (s : Bytes) (v : Int) : parseInt (trimSpace s) = some v ↔ Numeral s v := by
  constructor
  · intro h
    obtain ⟨hd, hi⟩ := (parseInt_iff _ _).1 h
    obtain ⟨l, r, e, hl, hr⟩ := trimSpace_split s
    exact ⟨l, _, r, e, hl, hr, hd, hi⟩
  · rintro ⟨l, a, r, rfl, hl, hr, hd, hi⟩
    have hb := decimal_bytes hd
    rw [trimSpace_blank hl hr]
    · exact (parseInt_iff _ _).2 ⟨hd, hi⟩
    · intro b h; have := hb b h; omega
    · intro b h
      have := hb b h
      refine Bool.eq_false_iff.2 fun hs => ?_
      have := (isSpace_iff _).1 hs
      simp only [whiteSpace, List.mem_cons, List.not_mem_nil, or_false] at this
      omega

theorem digitSum_append (a : Bytes) (d : UInt8) : digitSum (a ++ [d]) = digitSum a * 10 + (d.toNat - 48) := by
  induction a with
  | nil => simp [digitSum]
  | cons x a ih =>
    simp only [List.cons_append, digitSum, ih, List.length_append, List.length_cons, List.length_nil, Nat.pow_succ,
      Nat.zero_add]
    simp only [Nat.add_mul, Nat.mul_assoc]
    omega

theorem natDigits_spec (n : Nat) : Digits (natDigits n) ∧ digitSum (natDigits n) = n := by
  induction n using Nat.strongRecOn with
  | _ n ih =>
    rw [natDigits]
    split
    · rename_i h
      refine ⟨⟨by simp, ?_⟩, ?_⟩
      · intro d hd
        simp only [List.mem_cons, List.not_mem_nil, or_false] at hd
        subst hd; rw [u8_toNat_ofNat (by omega)]; omega
      · simp only [digitSum]; rw [u8_toNat_ofNat (by omega)]; simp
    · rename_i h
      obtain ⟨⟨h1, h2⟩, h3⟩ := ih (n / 10) (by omega)
      refine ⟨⟨by simp, ?_⟩, ?_⟩
      · intro d hd
        rcases List.mem_append.1 hd with hd | hd
        · exact h2 d hd
        · simp only [List.mem_cons, List.not_mem_nil, or_false] at hd
          subst hd; rw [u8_toNat_ofNat (by omega)]; omega
      · rw [digitSum_append, h3, u8_toNat_ofNat (by omega)]; omega

theorem itoa_decimal (n : Int) : Decimal (itoa n) n := by
  obtain ⟨h1, h2⟩ := natDigits_spec n.natAbs
  refine ⟨_, h1, ?_⟩
  simp only [itoa, h2]
  split
  · exact .inr (.inr ⟨rfl, by omega⟩)
  · exact .inl ⟨rfl, by omega⟩

theorem blank_nil : Blank [] := ⟨[], by simp, rfl⟩

theorem itoa_numeral {n : Int} (h : InInt64 n) : Numeral (itoa n) n :=
  ⟨[], _, [], by simp, blank_nil, blank_nil, itoa_decimal n, h⟩

end Verif
