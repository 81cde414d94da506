import Verif.Model.Media
import Verif.Spec.Media
import Verif.Proofs.Trim
import Verif.Proofs.Transforms
/-! `mime.ParseMediaType` reads what RFC 2045 says. -/
namespace Verif
open Spec

theorem small_eq (c : UInt8) : small c = lowerByte c := by
  simp only [small, lowerByte, Bool.and_eq_true, decide_eq_true_eq, UInt8.le_iff_toNat_le]
  rfl

theorem special_iff (c : UInt8) : isTSpecial c = true ↔ Special c := by
  simp only [isTSpecial, Special, List.contains_iff_mem]

instance (c : UInt8) : Decidable (Special c) := inferInstanceAs (Decidable (c ∈ b!"()<>@,;:\\\"/[]?="))

theorem token_iff (c : UInt8) : isTokenByte c = true ↔ TokenChar c := by
  have e : isTokenByte c = true ↔ (0x20 < c ∧ c < 0x7F) ∧ ¬ isTSpecial c = true := by
    simp only [isTokenByte, Bool.and_eq_true, decide_eq_true_eq, Bool.not_eq_true', Bool.not_eq_true]
  rw [e, special_iff, TokenChar, UInt8.lt_iff_toNat_lt, UInt8.lt_iff_toNat_lt]
  show (32 < c.toNat ∧ c.toNat < 127) ∧ _ ↔ _
  constructor
  · rintro ⟨⟨h1, h2⟩, h3⟩; exact ⟨by omega, by omega, h3⟩
  · rintro ⟨h1, h2, h3⟩; exact ⟨⟨by omega, by omega⟩, h3⟩

theorem token_solid {c : UInt8} (h : TokenChar c) : c < 0x80 ∧ isSpace c.toNat = false := by
  obtain ⟨h1, h2, _⟩ := h
  refine ⟨UInt8.lt_iff_toNat_lt.2 (show c.toNat < 128 by omega), ?_⟩
  cases hs : isSpace c.toNat with
  | false => rfl
  | true =>
    rw [isSpace_iff] at hs
    have : ∀ r ∈ whiteSpace, r ≤ 32 ∨ 127 ≤ r := by decide
    have := this _ hs
    omega

/-! ### White space -/

theorem trimLeft_nil : trimLeftSpace [] = [] := by simp [trimLeftSpace, segs_nil]

theorem trimLeft_blank {l : Bytes} (hl : Blank l) (x : Bytes) : trimLeftSpace (l ++ x) = trimLeftSpace x := by
  obtain ⟨ls, hls, rfl⟩ := (blank_iff l).1 hl
  simp only [trimLeftSpace]
  rw [segs_encodes (fun r hr => (hls r hr).1), dropWhile_append_all]
  intro c hc
  obtain ⟨r, hr, rfl⟩ := List.mem_map.1 hc
  exact (hls r hr).2

theorem trimLeft_solid {c : UInt8} (h : c < 0x80) (hs : isSpace c.toNat = false) (x : Bytes) : trimLeftSpace (c :: x) = c :: x := by
  simp only [trimLeftSpace, segs_ascii h, List.dropWhile_cons, hs, Bool.false_eq_true, if_false, List.flatMap_cons, segs_bytes]
  rfl

theorem trimLeft_split (s : Bytes) : ∃ l, Blank l ∧ s = l ++ trimLeftSpace s ∧ trimLeftSpace (trimLeftSpace s) = trimLeftSpace s := by
  refine segs_induction (P := fun s => ∃ l, Blank l ∧ s = l ++ trimLeftSpace s ∧ trimLeftSpace (trimLeftSpace s) = trimLeftSpace s)
    ⟨[], Blank.nil, by simp [trimLeft_nil], by simp [trimLeft_nil]⟩ ?_ s
  rintro c t _ hc e ⟨l, h1, h2, h3⟩
  by_cases hs : isSpace c.rune = true
  · have et : trimLeftSpace (c.bytes ++ t) = trimLeftSpace t := by
      simp only [trimLeftSpace, e, List.dropWhile_cons, hs, if_true]
    have hb : Blank c.bytes := by
      rcases hc with hc | hc
      · refine (blank_iff _).2 ⟨[c.rune], ?_, ?_⟩
        · intro r hr; rw [List.mem_singleton.1 hr]; exact ⟨hc.1, hs⟩
        · simp [hc.2]
      · rw [hc.1] at hs; exact absurd hs (by decide)
    refine ⟨c.bytes ++ l, Blank.append hb h1, ?_, by rw [et, h3]⟩
    rw [et, List.append_assoc, ← h2]
  · have et : trimLeftSpace (c.bytes ++ t) = c.bytes ++ t := by
      simp only [trimLeftSpace, e, List.dropWhile_cons, hs, Bool.false_eq_true, if_false, List.flatMap_cons, segs_bytes]
    exact ⟨[], Blank.nil, by rw [et]; rfl, by rw [et, et]⟩

theorem trimLeft_idem (s : Bytes) : trimLeftSpace (trimLeftSpace s) = trimLeftSpace s := by
  obtain ⟨_, _, _, h⟩ := trimLeft_split s; exact h

/-! ### Tokens and values -/

theorem takeWhile_token {s rest : Bytes} (hs : ∀ c ∈ s, TokenChar c) (hr : ∀ c ∈ rest.head?, ¬ TokenChar c) :
    consumeToken (s ++ rest) = (s, rest) := by
  induction s with
  | nil =>
    cases rest with
    | nil => rfl
    | cons c r =>
      have : isTokenByte c = false := by
        have := hr c rfl
        rw [← token_iff] at this
        simpa using this
      simp [consumeToken, this]
  | cons c s ih =>
    have hc := (token_iff c).2 (hs c List.mem_cons_self)
    have := ih fun d hd => hs d (List.mem_cons_of_mem _ hd)
    simp only [consumeToken, Prod.mk.injEq] at this
    simp only [consumeToken, List.cons_append, List.takeWhile_cons, List.dropWhile_cons, hc, if_true, this.1, this.2]

theorem consumeToken_split (s : Bytes) : s = (consumeToken s).1 ++ (consumeToken s).2 ∧ (∀ c ∈ (consumeToken s).1, TokenChar c) ∧
    ∀ c ∈ (consumeToken s).2.head?, ¬ TokenChar c := by
  refine ⟨(List.takeWhile_append_dropWhile).symm, fun c hc => ?_, fun c hc => ?_⟩
  · have := List.all_takeWhile (p := isTokenByte) (l := s)
    rw [List.all_eq_true] at this
    exact (token_iff c).1 (this c hc)
  · have h := List.head?_dropWhile_not isTokenByte s
    simp only [consumeToken] at hc
    rw [Option.mem_def] at hc
    rw [hc] at h
    rw [← token_iff]
    simpa using h

theorem consumeQuoted_iff (s v rest : Bytes) : consumeQuoted s = some (v, rest) ↔ ∃ b, Quoted b v ∧ s = b ++ 34 :: rest := by
  constructor
  · intro h
    fun_induction consumeQuoted s generalizing v rest with
    | case1 => cases h
    | case2 r => simp only [Option.some.injEq, Prod.mk.injEq] at h; exact ⟨[], by rw [← h.1]; exact .nil, by rw [h.2]; rfl⟩
    | case3 d r' hd h34 ih =>
      cases hq : consumeQuoted r' with
      | none => rw [hq] at h; cases h
      | some p =>
        rw [hq] at h
        simp only [Option.map_some, Option.some.injEq, Prod.mk.injEq] at h
        obtain ⟨b, h1, h2⟩ := ih p.1 p.2 hq
        exact ⟨92 :: d :: b, by rw [← h.1]; exact .escape ((special_iff d).1 hd) h1, by rw [h2, h.2]; rfl⟩
    | case4 d r' hd h34 ih =>
      cases hq : consumeQuoted (d :: r') with
      | none => rw [hq] at h; cases h
      | some p =>
        rw [hq] at h
        simp only [Option.map_some, Option.some.injEq, Prod.mk.injEq] at h
        obtain ⟨b, h1, h2⟩ := ih p.1 p.2 hq
        have hns : ¬ Special d := by rw [← special_iff]; exact hd
        cases b with
        | nil =>
          simp only [List.nil_append, List.cons.injEq] at h2
          rw [h2.1] at hns
          exact absurd (by decide) hns
        | cons e b =>
          simp only [List.cons_append, List.cons.injEq] at h2
          obtain ⟨rfl, h2⟩ := h2
          exact ⟨92 :: d :: b, by rw [← h.1]; exact .backslash hns h1, by rw [h2, h.2]; rfl⟩
    | case5 => cases h
    | case6 => cases h
    | case7 c r h1 h2 h3 ih =>
      cases hq : consumeQuoted r with
      | none => rw [hq] at h; cases h
      | some p =>
        rw [hq] at h
        simp only [Option.map_some, Option.some.injEq, Prod.mk.injEq] at h
        obtain ⟨b, h4, h5⟩ := ih p.1 p.2 hq
        simp only [Bool.or_eq_true, decide_eq_true_eq, not_or] at h3
        exact ⟨c :: b, by rw [← h.1]; exact .char h1 h2 h3.1 h3.2 h4, by rw [h5, h.2]; rfl⟩
  · rintro ⟨b, hb, rfl⟩
    induction hb with
    | nil => rw [List.nil_append, consumeQuoted.eq_def]; simp only [if_true]
    | char h1 h2 h3 h4 _ ih =>
      rw [List.cons_append, consumeQuoted.eq_def]
      simp only [h1, h2, h3, h4, if_false, decide_false, Bool.or_self, Bool.false_eq_true, ih, Option.map_some]
    | escape hc _ ih =>
      rw [List.cons_append, List.cons_append, consumeQuoted.eq_def]
      simp only [(special_iff _).2 hc, if_true, ih, Option.map_some, show (92 : UInt8) ≠ 34 by decide, if_false]
    | @backslash c b v hc _ ih =>
      have : isTSpecial c = false := by rw [← special_iff] at hc; simpa using hc
      rw [List.cons_append, List.cons_append, consumeQuoted.eq_def]
      rw [List.cons_append] at ih
      simp only [this, if_true, ih, Option.map_some, show (92 : UInt8) ≠ 34 by decide, if_false, Bool.false_eq_true]

/-- A quote is no token character. -/
theorem quote_special : ¬ TokenChar 34 := fun h => h.2.2 (by decide)

theorem consumeValue_iff (s v rest : Bytes) : (consumeValue s = (v, rest) ∧ ¬ (v = [] ∧ rest = s)) ↔ ∃ text, ParamVal text v rest ∧ s = text ++ rest := by
  by_cases hq : ∃ r, s = 34 :: r
  · obtain ⟨r, rfl⟩ := hq
    simp only [consumeValue]
    constructor
    · rintro ⟨h1, h2⟩
      cases hc : consumeQuoted r with
      | none =>
        rw [hc] at h1
        simp only [Option.getD_none, Prod.mk.injEq] at h1
        exact absurd ⟨h1.1.symm, h1.2.symm⟩ h2
      | some p =>
        rw [hc] at h1
        simp only [Option.getD_some] at h1
        subst h1
        obtain ⟨b, h3, h4⟩ := (consumeQuoted_iff r v rest).1 hc
        exact ⟨34 :: b ++ [34], .quoted h3, by simp [h4]⟩
    · rintro ⟨text, h1, h2⟩
      cases h1 with
      | token h3 h4 =>
        obtain ⟨h5, h6⟩ := h3
        cases v with
        | nil => exact absurd rfl h5
        | cons c v =>
          simp only [List.cons_append, List.cons.injEq] at h2
          have := h6 c List.mem_cons_self
          rw [← h2.1] at this
          exact absurd this quote_special
      | @quoted b _ _ h3 =>
        simp only [List.cons_append, List.append_assoc, List.cons.injEq, true_and, List.nil_append] at h2
        subst h2
        have := (consumeQuoted_iff (b ++ 34 :: rest) v rest).2 ⟨b, h3, rfl⟩
        simp only [this, Option.getD_some, true_and]
        rintro ⟨_, h⟩
        have := congrArg List.length h
        simp at this
        omega
  · have e : consumeValue s = consumeToken s := by
      simp only [consumeValue]
      split
      · exact absurd ⟨_, rfl⟩ hq
      · rfl
    rw [e]
    constructor
    · rintro ⟨h1, h2⟩
      obtain ⟨h3, h4, h5⟩ := consumeToken_split s
      rw [h1] at h3 h4 h5
      refine ⟨v, .token ⟨?_, h4⟩ h5, h3⟩
      rintro rfl
      exact h2 ⟨rfl, h3.symm⟩
    · rintro ⟨text, h1, rfl⟩
      cases h1 with
      | token h3 h4 =>
        refine ⟨takeWhile_token h3.2 h4, ?_⟩
        rintro ⟨rfl, _⟩
        exact h3.1 rfl
      | quoted h3 => exact absurd ⟨_, rfl⟩ hq

/-- The first character of a value. -/
theorem ParamVal.head {text v rest : Bytes} (h : ParamVal text v rest) : ∃ c r, text = c :: r ∧ c < 0x80 ∧ isSpace c.toNat = false := by
  cases h with
  | token h1 _ =>
    obtain ⟨h1, h2⟩ := h1
    cases text with
    | nil => exact absurd rfl h1
    | cons c r => exact ⟨c, r, rfl, token_solid (h2 c List.mem_cons_self)⟩
  | quoted => exact ⟨34, _, rfl, by decide, by decide⟩

theorem MimeToken.head {s : Bytes} (h : MimeToken s) : ∃ c r, s = c :: r ∧ c < 0x80 ∧ isSpace c.toNat = false := by
  obtain ⟨h1, h2⟩ := h
  cases s with
  | nil => exact absurd rfl h1
  | cons c r => exact ⟨c, r, rfl, token_solid (h2 c List.mem_cons_self)⟩

theorem not_token {c : UInt8} (h : c.toNat < 33 ∨ 126 < c.toNat ∨ Special c) : ¬ TokenChar c := by
  rintro ⟨h1, h2, h3⟩
  rcases h with h | h | h
  · omega
  · omega
  · exact h3 h

/-- White space, or what follows it. -/
theorem blank_head {w x : Bytes} (hw : Blank w) (hx : ∀ c ∈ x.head?, ¬ TokenChar c) : ∀ c ∈ (w ++ x).head?, ¬ TokenChar c := by
  obtain ⟨rs, hrs, rfl⟩ := (blank_iff w).1 hw
  cases rs with
  | nil => exact hx
  | cons r rs =>
    have hr := (hrs r List.mem_cons_self).2
    rw [isSpace_iff] at hr
    have key : ∀ r ∈ whiteSpace, ∀ c ∈ (encodeRune r).head?, c.toNat < 33 ∨ 126 < c.toNat := by decide
    have ne : ∀ r ∈ whiteSpace, (encodeRune r).isEmpty = false := by decide
    have n := ne r hr
    have k := key r hr
    intro c hc
    cases he : encodeRune r with
    | nil => rw [he] at n; cases n
    | cons d u =>
      simp only [List.flatMap_cons, he, List.cons_append, List.head?_cons] at hc k
      have := k d rfl
      cases hc
      exact not_token (this.imp id .inl)

theorem consume_iff (s n v rest : Bytes) : consumeMediaParam s = some (n, v, rest) ↔ ∃ text, Param n v text rest ∧ s = text ++ rest := by
  constructor
  · intro h
    obtain ⟨w1, hw1, e1, _⟩ := trimLeft_split s
    simp only [consumeMediaParam] at h
    split at h
    · rename_i r1 hr1
      obtain ⟨w2, hw2, e2, _⟩ := trimLeft_split r1
      obtain ⟨t1, t2, _⟩ := consumeToken_split (trimLeftSpace r1)
      rcases hc : consumeToken (trimLeftSpace r1) with ⟨name, r2⟩
      rw [hc] at t1 t2 h
      simp only at h
      split at h
      · cases h
      · rename_i hne
        obtain ⟨w3, hw3, e3, _⟩ := trimLeft_split r2
        split at h
        · rename_i r3 hr3
          obtain ⟨w4, hw4, e4, _⟩ := trimLeft_split r3
          rcases hv : consumeValue (trimLeftSpace r3) with ⟨value, r4⟩
          rw [hv] at h
          simp only at h
          split at h
          · cases h
          · rename_i hval
            simp only [Option.some.injEq, Prod.mk.injEq] at h
            obtain ⟨rfl, rfl, rfl⟩ := h
            obtain ⟨text, ht, et⟩ := (consumeValue_iff _ _ _).1 ⟨hv, hval⟩
            have hn : name.map lowerByte = name.map small := by
              apply List.map_congr_left; intro c _; rw [small_eq]
            rw [hn]
            refine ⟨_, .mk hw1 hw2 hw3 hw4 ⟨?_, t2⟩ ht, ?_⟩
            · rintro rfl; exact hne rfl
            · rw [e1, hr1, e2, t1, e3, hr3, e4, et]
              simp
        · cases h
    · cases h
  · rintro ⟨text, h, rfl⟩
    cases h with
    | @mk w1 w2 w3 w4 name text value rest hw1 hw2 hw3 hw4 hn hv =>
    obtain ⟨c, r, rfl, hc1, hc2⟩ := MimeToken.head hn
    obtain ⟨d, u, rfl, hd1, hd2⟩ := ParamVal.head hv
    have f1 : trimLeftSpace (w1 ++ 59 :: (w2 ++ (c :: r ++ (w3 ++ 61 :: (w4 ++ d :: u)))) ++ rest) =
        59 :: (w2 ++ (c :: r ++ (w3 ++ 61 :: (w4 ++ (d :: u ++ rest))))) := by
      rw [List.append_assoc, trimLeft_blank hw1, List.cons_append, trimLeft_solid (by decide) (by decide)]
      simp
    have f2 : trimLeftSpace (w2 ++ (c :: r ++ (w3 ++ 61 :: (w4 ++ (d :: u ++ rest))))) = c :: r ++ (w3 ++ 61 :: (w4 ++ (d :: u ++ rest))) := by
      rw [trimLeft_blank hw2, List.cons_append, trimLeft_solid hc1 hc2]
    have f3 : consumeToken (c :: r ++ (w3 ++ 61 :: (w4 ++ (d :: u ++ rest)))) = (c :: r, w3 ++ 61 :: (w4 ++ (d :: u ++ rest))) := by
      refine takeWhile_token hn.2 (blank_head hw3 ?_)
      intro e he
      cases he
      exact not_token (.inr (.inr (by decide)))
    have f4 : trimLeftSpace (w3 ++ 61 :: (w4 ++ (d :: u ++ rest))) = 61 :: (w4 ++ (d :: u ++ rest)) := by
      rw [trimLeft_blank hw3, trimLeft_solid (by decide) (by decide)]
    have f5 : trimLeftSpace (w4 ++ (d :: u ++ rest)) = d :: u ++ rest := by
      rw [trimLeft_blank hw4, List.cons_append, trimLeft_solid hd1 hd2]
    obtain ⟨f6, f7⟩ := (consumeValue_iff (d :: u ++ rest) v rest).2 ⟨_, hv, rfl⟩
    simp only [consumeMediaParam, f1, f2, f3, f4, f5, f6, if_neg f7]
    rw [if_neg (by simp)]
    have hn : (c :: r).map lowerByte = (c :: r).map small := by
      apply List.map_congr_left; intro c _; rw [small_eq]
    rw [hn]

/-! ### All parameters -/

theorem trimLeft_empty (v : Bytes) : trimLeftSpace v = [] ↔ Blank v := by
  constructor
  · intro h
    obtain ⟨l, h1, h2, _⟩ := trimLeft_split v
    rw [h, List.append_nil] at h2
    rw [h2]; exact h1
  · intro h
    have := trimLeft_blank h []
    rwa [List.append_nil, trimLeft_nil] at this

theorem consume_trim (v : Bytes) : consumeMediaParam (trimLeftSpace v) = consumeMediaParam v := by
  simp only [consumeMediaParam, trimLeft_idem]

theorem trimSpace_trimLeft (v : Bytes) : trimSpace (trimLeftSpace v) = trimSpace v := by
  obtain ⟨l, h1, h2, _⟩ := trimLeft_split v
  have := trimSpace_blank_left h1 (trimLeftSpace v)
  rw [← h2] at this
  exact this.symm

theorem lookup_isSome {ps : List (Bytes × Bytes)} {k : Bytes} : (ps.lookup k).isSome = true ↔ k ∈ ps.map (·.1) := by
  induction ps with
  | nil => simp
  | cons p ps ih =>
    rcases p with ⟨a, b⟩
    rw [List.lookup_cons]
    by_cases h : k = a
    · subst h; simp
    · have : (k == a) = false := by simpa using h
      simp only [this, List.map_cons, List.mem_cons, h, false_or]
      exact ih

theorem Param.shorter {n v text rest : Bytes} (h : Param n v text rest) : 0 < text.length := by
  cases h; simp; omega

theorem lone_iff (v : Bytes) : trimSpace v = [59] ↔ LoneSemicolon v := by
  constructor
  · intro h
    obtain ⟨l, r, h1, h2, h3⟩ := trimSpace_split v
    rw [h] at h1
    exact ⟨l, r, h2, h3, by rw [h1]; simp⟩
  · rintro ⟨l, r, h1, h2, rfl⟩
    rw [trimSpace_blank_left h1, show (59 :: r : Bytes) = [59] ++ r from rfl, trimSpace_blank_right h2]
    decide

instance (v : Bytes) : Decidable (Blank v) := decidable_of_iff _ (trimLeft_empty v)

instance (v : Bytes) : Decidable (LoneSemicolon v) := decidable_of_iff _ (lone_iff v)

theorem lone_no_param {v : Bytes} (h : LoneSemicolon v) : consumeMediaParam v = none := by
  obtain ⟨l, r, h1, h2, rfl⟩ := h
  simp only [consumeMediaParam, trimLeft_blank h1, trimLeft_solid (c := 59) (by decide) (by decide), (trimLeft_empty r).2 h2]
  rfl

theorem blank_no_param {v : Bytes} (h : Blank v) : consumeMediaParam v = none := by
  simp only [consumeMediaParam, (trimLeft_empty v).2 h]

theorem paramLoop_step {n : Nat} {v : Bytes} {ps : List (Bytes × Bytes)} (hn : v.length ≤ n) : paramLoop n v ps =
    if Blank v then .all ps else match consumeMediaParam v with
      | none => if LoneSemicolon v then .semicolon ps else .invalid
      | some (key, value, rest) => if key ∈ ps.map (·.1) then .duplicate else paramLoop (n - 1) rest (ps ++ [(key, value)]) := by
  cases n with
  | zero =>
    have : v = [] := List.length_eq_zero_iff.1 (by omega)
    subst this
    rw [if_pos Blank.nil]; rfl
  | succ n =>
    rw [paramLoop]
    by_cases hb : Blank v
    · rw [if_pos hb]; simp only [(trimLeft_empty v).2 hb, if_true]
    · have : trimLeftSpace v ≠ [] := fun h => hb ((trimLeft_empty v).1 h)
      rw [if_neg hb]
      simp only [this, if_false, consume_trim, trimSpace_trimLeft, lone_iff]
      cases consumeMediaParam v with
      | none => rfl
      | some p => simp only [lookup_isSome]; rfl

/-- The loop reads parameters with names of their own. -/
theorem paramLoop_params {qs : List (Bytes × Bytes)} {v w : Bytes} (h : Params qs v w) : ∀ {n : Nat} {ps : List (Bytes × Bytes)}, v.length ≤ n → Distinct (ps ++ qs) →
    ∃ m, w.length ≤ m ∧ paramLoop n v ps = paramLoop m w (ps ++ qs) := by
  induction h with
  | nil => intro n ps hn _; exact ⟨n, hn, by rw [List.append_nil]⟩
  | @cons k x text s rest qs hp _ ih =>
    intro n ps hn hd
    have hc := (consume_iff (text ++ s) k x s).2 ⟨text, hp, rfl⟩
    have hb : ¬ Blank (text ++ s) := fun h => by rw [blank_no_param h] at hc; cases hc
    have h0 := Param.shorter hp
    rw [List.length_append] at hn
    have e : ps ++ (k, x) :: qs = (ps ++ [(k, x)]) ++ qs := by simp
    have hk : k ∉ ps.map (·.1) := by
      intro hk
      simp only [Distinct, List.map_append, List.map_cons, List.nodup_append] at hd
      exact hd.2.2 k hk k List.mem_cons_self rfl
    obtain ⟨m, h1, h2⟩ := ih (n := n - 1) (ps := ps ++ [(k, x)]) (by omega) (by rw [← e]; exact hd)
    refine ⟨m, h1, ?_⟩
    rw [paramLoop_step (by rw [List.length_append]; exact hn), if_neg hb, hc]
    simp only [if_neg hk]
    rw [h2, e]

/-- How the loop ends says what the text is. -/
theorem paramLoop_sound {n : Nat} : ∀ {v : Bytes} {ps : List (Bytes × Bytes)}, v.length ≤ n → Distinct ps →
    ∃ qs w, Params qs v w ∧ Distinct (ps ++ qs) ∧ match paramLoop n v ps with
      | .all rs => rs = ps ++ qs ∧ Blank w
      | .semicolon rs => rs = ps ++ qs ∧ LoneSemicolon w
      | .invalid => ¬ Blank w ∧ ¬ LoneSemicolon w ∧ consumeMediaParam w = none
      | .duplicate => ∃ k x text rest, w = text ++ rest ∧ Param k x text rest ∧ k ∈ (ps ++ qs).map (·.1) := by
  induction n with
  | zero =>
    intro v ps hn hd
    have : v = [] := List.length_eq_zero_iff.1 (by omega)
    subst this
    exact ⟨[], [], .nil, by rwa [List.append_nil], by rw [paramLoop]; exact ⟨by simp, Blank.nil⟩⟩
  | succ n ih =>
    intro v ps hn hd
    rw [paramLoop_step hn]
    by_cases hb : Blank v
    · rw [if_pos hb]; exact ⟨[], v, .nil, by rwa [List.append_nil], by simp, hb⟩
    · rw [if_neg hb]
      cases hc : consumeMediaParam v with
      | none =>
        refine ⟨[], v, .nil, by rwa [List.append_nil], ?_⟩
        by_cases hl : LoneSemicolon v
        · simp only [if_pos hl]; exact ⟨by simp, hl⟩
        · simp only [if_neg hl]; exact ⟨hb, hl, hc⟩
      | some p =>
        rcases p with ⟨k, x, rest⟩
        obtain ⟨text, hp, rfl⟩ := (consume_iff v k x rest).1 hc
        simp only
        by_cases hk : k ∈ ps.map (·.1)
        · rw [if_pos hk]
          exact ⟨[], _, .nil, by rwa [List.append_nil], k, x, text, rest, rfl, hp, by rwa [List.append_nil]⟩
        · rw [if_neg hk]
          have h0 := Param.shorter hp
          rw [List.length_append] at hn
          obtain ⟨qs, w, h1, h2, h3⟩ := ih (v := rest) (ps := ps ++ [(k, x)]) (by omega) (by
            simp only [Distinct, List.map_append, List.map_cons, List.map_nil, List.nodup_append]
            refine ⟨hd, by simp, ?_⟩
            rintro a ha b hb rfl
            rw [List.mem_singleton.1 hb] at ha
            exact hk ha)
          have e : ps ++ (k, x) :: qs = (ps ++ [(k, x)]) ++ qs := by simp
          refine ⟨(k, x) :: qs, w, .cons hp h1, by rw [e]; exact h2, ?_⟩
          rw [Nat.add_sub_cancel, e]
          exact h3

theorem paramLoop_all {qs : List (Bytes × Bytes)} {v w : Bytes} (h : Params qs v w) (hd : Distinct qs) (hw : Blank w) : paramLoop v.length v [] = .all qs := by
  obtain ⟨m, h1, h2⟩ := paramLoop_params h (n := v.length) (ps := []) (Nat.le_refl _) hd
  rw [h2, paramLoop_step h1, if_pos hw]; rfl

theorem lone_not_blank {w : Bytes} (h : LoneSemicolon w) : ¬ Blank w := by
  obtain ⟨l, r, _, _, rfl⟩ := h
  exact fun hb => Blank.not_mem hb (b := 59) (by decide) (by decide) (by simp)

theorem paramLoop_semicolon {qs : List (Bytes × Bytes)} {v w : Bytes} (h : Params qs v w) (hd : Distinct qs) (hw : LoneSemicolon w) : paramLoop v.length v [] = .semicolon qs := by
  obtain ⟨m, h1, h2⟩ := paramLoop_params h (n := v.length) (ps := []) (Nat.le_refl _) hd
  rw [h2, paramLoop_step h1, if_neg (lone_not_blank hw), lone_no_param hw]
  simp only [if_pos hw]; rfl

theorem paramLoop_duplicate (v : Bytes) : paramLoop v.length v [] = .duplicate ↔ Repeats v := by
  constructor
  · intro h
    obtain ⟨qs, w, h1, h2, h3⟩ := paramLoop_sound (v := v) (ps := []) (Nat.le_refl _) (by simp [Distinct])
    rw [h] at h3
    obtain ⟨k, x, text, rest, rfl, h4, h5⟩ := h3
    exact ⟨qs, k, x, text, rest, h1, h2, h4, h5⟩
  · rintro ⟨qs, k, x, text, rest, h1, h2, h3, h4⟩
    obtain ⟨m, h5, h6⟩ := paramLoop_params h1 (n := v.length) (ps := []) (Nat.le_refl _) h2
    have hc := (consume_iff (text ++ rest) k x rest).2 ⟨text, h3, rfl⟩
    have hb : ¬ Blank (text ++ rest) := fun h => by rw [blank_no_param h] at hc; cases hc
    rw [h6, paramLoop_step h5, if_neg hb, hc]
    simp only [List.nil_append, if_pos h4]

/-! ### The media type -/

theorem mediaType_chars {m : Bytes} (h : MediaType m) : ∀ c ∈ m, 33 ≤ c.toNat ∧ c.toNat ≤ 126 ∧ c ≠ 59 := by
  have tok : ∀ {s : Bytes}, MimeToken s → ∀ c ∈ s, 33 ≤ c.toNat ∧ c.toNat ≤ 126 ∧ c ≠ 59 := by
    rintro s ⟨_, h⟩ c hc
    obtain ⟨h1, h2, h3⟩ := h c hc
    exact ⟨h1, h2, fun e => h3 (by rw [e]; decide)⟩
  rcases h with h | ⟨a, b, ha, hb, rfl⟩
  · exact tok h
  · intro c hc
    rw [List.mem_append, List.mem_cons] at hc
    rcases hc with hc | rfl | hc
    · exact tok ha c hc
    · decide
    · exact tok hb c hc

theorem mediaType_trimmed {m : Bytes} (h : MediaType m) : Trimmed m := by
  intro w u hw hm
  cases w with
  | nil => rfl
  | cons c w =>
    have : c ∈ m := by rcases hm with rfl | rfl <;> simp
    obtain ⟨h1, h2, _⟩ := mediaType_chars h c this
    exact absurd List.mem_cons_self (Blank.not_mem hw (b := c) (by omega) (by omega))

theorem isMediaType_iff (m : Bytes) : isMediaType m = true ↔ MediaType m := by
  have slash : ¬ TokenChar 47 := fun h => h.2.2 (by decide)
  constructor
  · intro h
    obtain ⟨h1, h2, _⟩ := consumeToken_split m
    rcases hc : consumeToken m with ⟨a, r⟩
    rw [hc] at h1 h2
    simp only [isMediaType, hc, Bool.and_eq_true, decide_eq_true_eq] at h
    obtain ⟨h3, h4⟩ := h
    cases r with
    | nil => rw [List.append_nil] at h1; rw [h1]; exact .inl ⟨h3, h2⟩
    | cons c r =>
      simp only [Bool.and_eq_true, decide_eq_true_eq] at h4
      obtain ⟨rfl, h5, h6⟩ := h4
      obtain ⟨k1, k2, _⟩ := consumeToken_split r
      rw [h6, List.append_nil] at k1
      rw [← k1] at h5 k2
      exact .inr ⟨a, r, ⟨h3, h2⟩, ⟨h5, k2⟩, h1⟩
  · rintro (h | ⟨a, b, ha, hb, rfl⟩)
    · have := takeWhile_token (rest := []) h.2 (by simp)
      rw [List.append_nil] at this
      simp [isMediaType, this, h.1]
    · have h1 := takeWhile_token (rest := 47 :: b) ha.2 (by intro c hc; cases hc; exact slash)
      have h2 := takeWhile_token (rest := []) hb.2 (by simp)
      rw [List.append_nil] at h2
      simp [isMediaType, h1, h2, ha.1, hb.1]

theorem takeWhile_stop {p : UInt8 → Bool} {s t : Bytes} (hs : ∀ c ∈ s, p c = true) (ht : ∀ c ∈ t.head?, p c = false) :
    (s ++ t).takeWhile p = s ∧ (s ++ t).dropWhile p = t := by
  induction s with
  | nil =>
    cases t with
    | nil => exact ⟨rfl, rfl⟩
    | cons c t => simp [ht c rfl]
  | cons c s ih =>
    have := ih fun d hd => hs d (List.mem_cons_of_mem _ hd)
    simp only [List.cons_append, List.takeWhile_cons, List.dropWhile_cons, hs c List.mem_cons_self, if_true, this.1, this.2, and_self]

theorem AsciiBlank.blank {w : Bytes} (h : AsciiBlank w) : Blank w := by
  have small : ∀ n : Nat, (9 ≤ n ∧ n ≤ 13) ∨ n = 32 → n ∈ whiteSpace := by
    intro n hn
    have : n = 9 ∨ n = 10 ∨ n = 11 ∨ n = 12 ∨ n = 13 ∨ n = 32 := by omega
    rcases this with rfl | rfl | rfl | rfl | rfl | rfl <;> decide
  induction w with
  | nil => exact Blank.nil
  | cons c w ih =>
    have hc := h c List.mem_cons_self
    have := ih fun d hd => h d (List.mem_cons_of_mem _ hd)
    have h1 : Blank [c] := by
      have hc' : (9 ≤ c.toNat ∧ c.toNat ≤ 13) ∨ c.toNat = 32 := hc.imp id fun h => by rw [h]; rfl
      refine ⟨[Char.ofNat c.toNat], ?_, ?_⟩
      · intro d hd
        rw [List.mem_singleton.1 hd]
        have e : (Char.ofNat c.toNat).toNat = c.toNat := by
          have : c.toNat = 9 ∨ c.toNat = 10 ∨ c.toNat = 11 ∨ c.toNat = 12 ∨ c.toNat = 13 ∨ c.toNat = 32 := by omega
          rcases this with e | e | e | e | e | e <;> rw [e] <;> rfl
        rw [e]
        exact small _ hc'
      · have : c.toNat = 9 ∨ c.toNat = 10 ∨ c.toNat = 11 ∨ c.toNat = 12 ∨ c.toNat = 13 ∨ c.toNat = 32 := by omega
        have ec : c = UInt8.ofNat c.toNat := by simp
        rcases this with e | e | e | e | e | e <;> rw [e] at ec <;> rw [ec] <;> decide
    exact Blank.append h1 this

theorem AsciiBlank.lower {w : Bytes} (h : AsciiBlank w) : w.map lowerByte = w := by
  have : w.map lowerByte = w.map id := by
    apply List.map_congr_left
    intro c hc
    have := h c hc
    rw [← small_eq, small, if_neg]
    · rfl
    · rcases this with h | rfl
      · omega
      · decide
  rw [this, List.map_id]

/-- The head of the header is the media type it names. -/
theorem names_head {ct m params : Bytes} (hi : Rune → Rune) (h : NamesType ct m params) (hm : MediaType m) :
    mediaHead hi ct = m ∧ ct.dropWhile (· != 59) = params := by
  obtain ⟨l, a, r, rfl, hl, hr, ha, hp⟩ := h
  have blank59 : ∀ {w : Bytes}, AsciiBlank w → ∀ c ∈ w, c.toNat < 128 ∧ c ≠ 59 := by
    intro w hw c hc
    rcases hw c hc with h | rfl
    · exact ⟨by omega, fun e => by rw [e] at h; revert h; decide⟩
    · decide
  have a59 : ∀ c ∈ a, c.toNat < 128 ∧ c ≠ 59 := by
    intro c hc
    have h1 : small c ∈ m := by rw [← ha]; exact List.mem_map_of_mem hc
    obtain ⟨_, h2, h3⟩ := mediaType_chars hm _ h1
    rw [small_eq] at h2 h3
    rw [lower_byte_toNat] at h2
    refine ⟨by split at h2 <;> omega, ?_⟩
    rintro rfl
    exact h3 (by decide)
  have all59 : ∀ c ∈ l ++ a ++ r, c.toNat < 128 ∧ c ≠ 59 := by
    intro c hc
    rw [List.mem_append, List.mem_append] at hc
    rcases hc with (hc | hc) | hc
    · exact blank59 hl c hc
    · exact a59 c hc
    · exact blank59 hr c hc
  obtain ⟨t1, t2⟩ := takeWhile_stop (p := (· != 59)) (s := l ++ a ++ r) (t := params)
    (fun c hc => by simpa using (all59 c hc).2) (by
      rcases hp with rfl | ⟨p, rfl⟩
      · simp
      · intro c hc; cases hc; rfl)
  refine ⟨?_, t2⟩
  have ea : a.map lowerByte = m := by
    rw [← ha]; apply List.map_congr_left; intro c _; rw [small_eq]
  have lw : toLower hi (l ++ a ++ r) = l ++ m ++ r := by
    have := lower_ascii hi (s := l ++ a ++ r) (fun c hc => (all59 c hc).1)
    simp only [transLowercase] at this
    rw [this, List.map_append, List.map_append, AsciiBlank.lower hl, AsciiBlank.lower hr, ea]
  rw [mediaHead, t1, lw]
  exact trimSpace_of_trimmed (AsciiBlank.blank hl) (AsciiBlank.blank hr) (mediaType_trimmed hm)

/-- The media type, as `ParseMediaType` gives it. -/
theorem parseMediaType_type (hi : Rune → Rune) {ct m params : Bytes} (h : NamesType ct m params) (hm : MediaType m) :
    (¬ Repeats params → (parseMediaType hi ct).1 = m) ∧ (Repeats params → parseMediaType hi ct = ([], [])) := by
  obtain ⟨h1, h2⟩ := names_head hi h hm
  have h3 := (isMediaType_iff m).2 hm
  simp only [parseMediaType, h1, h2, h3, Bool.not_true, Bool.false_eq_true, if_false]
  rw [← paramLoop_duplicate]
  constructor
  · intro h
    cases hl : paramLoop params.length params [] with
    | duplicate => exact absurd hl h
    | _ => rfl
  · intro h; rw [h]

/-- The boundary, as `ParseMediaType` gives it, when the header is well-formed and has no
parameter with a star. -/
theorem parseMediaType_boundary (hi : Rune → Rune) {ct m params w : Bytes} {ps : List (Bytes × Bytes)} (h : NamesType ct m params) (hm : MediaType m)
    (hp : Params ps params w) (hd : Distinct ps) (hw : Blank w ∨ LoneSemicolon w) (hs : ∀ p ∈ ps, 42 ∉ p.1) :
    parseMediaType hi ct = (m, (ps.lookup b!"boundary").getD []) := by
  obtain ⟨h1, h2⟩ := names_head hi h hm
  have h3 := (isMediaType_iff m).2 hm
  simp only [parseMediaType, h1, h2, h3, Bool.not_true, Bool.false_eq_true, if_false]
  rcases hw with hw | hw
  · have star : ∀ k : Bytes, 42 ∈ k → ps.lookup k = none := by
      intro k hk
      cases hl : ps.lookup k with
      | none => rfl
      | some v =>
        have : (ps.lookup k).isSome = true := by rw [hl]; rfl
        obtain ⟨p, hp, rfl⟩ := List.mem_map.1 (lookup_isSome.1 this)
        exact absurd hk (hs p hp)
    have hst : (stitch hi ps b!"boundary" ps.length 0).2 = false := by
      cases ps.length with
      | zero => rfl
      | succ n =>
        rw [stitch, star _ (by simp)]
        simp only
        rw [star _ (by simp)]
    rw [paramLoop_all hp hd hw]
    simp only [paramValue, star (b!"boundary" ++ [42]) (by simp)]
    rcases hst' : stitch hi ps b!"boundary" ps.length 0 with ⟨v, b⟩
    rw [hst'] at hst
    simp only at hst
    subst hst
    rfl
  · rw [paramLoop_semicolon hp hd hw]

/-- Parameters up to something that is none: the boundary is lost. -/
theorem parseMediaType_malformed (hi : Rune → Rune) {ct m params w : Bytes} {ps : List (Bytes × Bytes)} (h : NamesType ct m params) (hm : MediaType m)
    (hp : Params ps params w) (hd : Distinct ps) (hb : ¬ Blank w) (hl : ¬ LoneSemicolon w) (hn : ∀ n v text rest, Param n v text rest → w ≠ text ++ rest) :
    parseMediaType hi ct = (m, []) := by
  obtain ⟨h1, h2⟩ := names_head hi h hm
  have h3 := (isMediaType_iff m).2 hm
  simp only [parseMediaType, h1, h2, h3, Bool.not_true, Bool.false_eq_true, if_false]
  obtain ⟨k, h4, h5⟩ := paramLoop_params hp (n := params.length) (ps := []) (Nat.le_refl _) hd
  have hc : consumeMediaParam w = none := by
    cases hc : consumeMediaParam w with
    | none => rfl
    | some p =>
      obtain ⟨text, h6, h7⟩ := (consume_iff w p.1 p.2.1 p.2.2).1 hc
      exact absurd h7 (hn _ _ _ _ h6)
  rw [h5, paramLoop_step h4, if_neg hb, hc]
  simp only [if_neg hl]

end Verif
