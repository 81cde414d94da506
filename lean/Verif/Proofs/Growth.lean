import Verif.Proofs.Utf8
import Verif.Proofs.UrlDecode
import Verif.Model.Rule
/-! How long the result of transformations can be: each UTF-8 unit is given a weight
that no transformation increases. -/
namespace Verif

/-- The weight of a string: `m` for each unit, or its length if it is longer. -/
def weight (m : Nat) (s : Bytes) : Nat := ((segs s).map fun c => max m c.bytes.length).sum

theorem weight_nil (m : Nat) : weight m [] = 0 := by simp [weight, segs_nil]

theorem weight_seg {m : Nat} {c : Seg} {t : Bytes} (h : segs (c.bytes ++ t) = c :: segs t) :
    weight m (c.bytes ++ t) = max m c.bytes.length + weight m t := by
  simp [weight, h]

theorem weight_encode {r : Nat} (h : r.isValidChar) (m : Nat) (t : Bytes) :
    weight m (encodeRune r ++ t) = max m (encodeRune r).length + weight m t := by
  have := segs_encode h t
  exact weight_seg (c := ⟨r, encodeRune r⟩) this

theorem weight_ascii (m : Nat) (hm : 0 < m) {b : UInt8} (h : b < 0x80) (t : Bytes) : weight m (b :: t) = m + weight m t := by
  simp [weight, segs_ascii h]; omega

/-- The string is no longer than its weight. -/
theorem length_le_weight (m : Nat) (s : Bytes) : s.length ≤ weight m s := by
  refine segs_induction (P := fun s => s.length ≤ weight m s) (by simp) ?_ s
  intro c t _ _ h ih
  rw [weight_seg h, List.length_append]; omega

/-- Each byte weighs at most `m`. -/
theorem weight_le {m : Nat} (hm : 3 ≤ m) (s : Bytes) : weight m s ≤ m * s.length := by
  refine segs_induction (P := fun s => weight m s ≤ m * s.length) (by simp [weight_nil]) ?_ s
  intro c t hne hc h ih
  rw [weight_seg h, List.length_append, Nat.mul_add]
  have h0 := List.length_pos_iff.2 hne
  have : max m c.bytes.length ≤ m * c.bytes.length := by
    rw [Nat.max_le]
    exact ⟨Nat.le_mul_of_pos_right m h0, Nat.le_mul_of_pos_left _ (by omega)⟩
  omega

/-- A continuation byte stands for itself. -/
theorem segs_cont {b : UInt8} (h : isCont b = true) (t : Bytes) : segs (b :: t) = ⟨runeError, [b]⟩ :: segs t := by
  have hb : ¬ b < 0x80 := by simp [isCont, UInt8.le_iff_toNat_le, UInt8.lt_iff_toNat_lt] at *; omega
  have h2 : isLead2 b = false := by simp [isCont, isLead2, UInt8.le_iff_toNat_le] at *; omega
  have h3 : ∀ c, isLead3 b c = false := by
    intro c; simp [isCont, isLead3, UInt8.le_iff_toNat_le, ← UInt8.toNat_inj] at *; omega
  have h4 : ∀ c, isLead4 b c = false := by
    intro c; simp [isCont, isLead4, UInt8.le_iff_toNat_le, ← UInt8.toNat_inj] at *; omega
  rw [segs.eq_def]
  simp only [hb, if_false, h2, h3, h4, Bool.false_and, Bool.false_eq_true]
  repeat' split
  all_goals simp_all [segs_nil]

theorem lead3_cont {a b : UInt8} (h : isLead3 a b = true) : isCont b = true := by
  simp [isLead3, isCont, UInt8.le_iff_toNat_le, ← UInt8.toNat_inj] at *; omega

theorem lead4_cont {a b : UInt8} (h : isLead4 a b = true) : isCont b = true := by
  simp [isLead4, isCont, UInt8.le_iff_toNat_le, ← UInt8.toNat_inj] at *; omega

/-- One more byte in front adds at most `m`. -/
theorem weight_cons {m : Nat} (hm : 3 ≤ m) (b : UInt8) (t : Bytes) : weight m (b :: t) ≤ m + weight m t := by
  rw [weight, segs.eq_def]
  simp only
  split
  · simp [weight]; omega
  split
  · simp [weight, segs_nil]; omega
  rename_i b1 r1
  split
  · rename_i h
    rw [Bool.and_eq_true] at h
    simp [weight, segs_cont h.2]; omega
  split
  · simp [weight]; omega
  rename_i b2 r2
  split
  · rename_i h
    rw [Bool.and_eq_true] at h
    simp [weight, segs_cont (lead3_cont h.1), segs_cont h.2]; omega
  split
  · simp [weight]; omega
  rename_i b3 r3
  split
  · rename_i h
    simp only [Bool.and_eq_true] at h
    simp [weight, segs_cont (lead4_cont h.1.1), segs_cont h.1.2, segs_cont h.2]; omega
  · simp [weight]; omega

/-- Putting strings together adds no weight. -/
theorem weight_append {m : Nat} (hm : 3 ≤ m) (s t : Bytes) : weight m (s ++ t) ≤ weight m s + weight m t := by
  refine segs_induction (P := fun s => weight m (s ++ t) ≤ weight m s + weight m t) (by simp [weight_nil]) ?_ s
  intro c u _ hc h ih
  rw [weight_seg h, List.append_assoc]
  rcases hc with hc | ⟨_, b, hb, _⟩
  · have := weight_encode hc.1 m (u ++ t)
    rw [← hc.2] at this
    omega
  · rw [hb, List.singleton_append]
    have := weight_cons hm b (u ++ t)
    have : m ≤ max m [b].length := Nat.le_max_left ..
    omega

/-- What is encoded is a scalar value. -/
theorem encodeRune_valid (r : Nat) : ∃ q : Nat, q.isValidChar ∧ encodeRune r = encodeRune q := by
  by_cases hv : r.isValidChar
  · exact ⟨r, hv, rfl⟩
  · refine ⟨runeError, runeError_valid, ?_⟩
    simp only [Nat.isValidChar] at hv
    have h1 : ¬ r ≤ 0x7F := by omega
    have h2 : ¬ r ≤ 0x7FF := by omega
    have h3 : r > 0x10FFFF ∨ (0xD800 ≤ r ∧ r ≤ 0xDFFF) := by omega
    rw [encodeRune, if_neg h1, if_neg h2, if_pos h3]; decide

/-- `strings.Map` adds no weight if no rune becomes heavier. -/
theorem weight_mapState {σ : Type} {m : Nat} (hm : 3 ≤ m) (f : σ → Rune → σ × Option Rune)
    (hf : ∀ st r r', r.isValidChar → (f st r).2 = some r' → (encodeRune r').length ≤ max m (encodeRune r).length) (s : Bytes) :
    ∀ st, weight m (stringsMapState f st (segs s)) ≤ weight m s := by
  refine segs_induction (P := fun s => ∀ st, weight m (stringsMapState f st (segs s)) ≤ weight m s) ?_ ?_ s
  · intro st; simp [segs_nil, stringsMapState]
  intro c t _ hc h ih st
  rw [weight_seg h, h, stringsMapState]
  have i := ih (f st c.rune).1
  cases hr : (f st c.rune).2 with
  | none => simp only [hr, List.nil_append]; omega
  | some r' =>
    simp only [hr]
    have hv : (encodeRune r').length ≤ max m c.bytes.length := by
      rcases hc with hc | ⟨hc, b, hb, _⟩
      · have := hf st c.rune r' hc.1 hr
        rw [← hc.2] at this; exact this
      · have := hf st c.rune r' (hc ▸ runeError_valid) hr
        rw [hc, show (encodeRune runeError).length = 3 by decide] at this
        have := Nat.le_max_left m c.bytes.length
        omega
    have hw : weight m (encodeRune r') ≤ max m (encodeRune r').length := by
      obtain ⟨q, hq, e⟩ := encodeRune_valid r'
      have := weight_encode hq m []
      rw [List.append_nil, weight_nil] at this
      rw [e]; omega
    have := weight_append hm (encodeRune r') (stringsMapState f (f st c.rune).1 (segs t))
    omega

/-- Bytes that are not ASCII are left alone by URL decoding. -/
theorem ud_high (u : Bool) (t : Bytes) : ∀ {x : Bytes}, (∀ b ∈ x, 0x80 ≤ b.toNat) → (urldecode u (x ++ t)).1 = x ++ (urldecode u t).1
  | [], _ => rfl
  | c :: x, h => by
    have hc := h c (by simp)
    rw [List.cons_append, ud_lit u (x ++ t) (by rintro rfl; revert hc; decide) (by rintro rfl; revert hc; decide)]
    simp only [emit, List.cons_append, List.nil_append]
    rw [ud_high u t (fun b hb => h b (List.mem_cons_of_mem _ hb))]

theorem weight_le_cons {m : Nat} (hm : 3 ≤ m) {b : UInt8} (hb : b.toNat < 128) (t : Bytes) : weight m t ≤ weight m (b :: t) := by
  have : b < 0x80 := by simpa [UInt8.lt_iff_toNat_lt] using hb
  rw [weight_ascii m (by omega) this]; omega

theorem isHex_ascii {a : UInt8} (h : isHex a = true) : a.toNat < 128 := by
  simp only [isHex, UInt8.le_iff_toNat_le, Bool.and_eq_true, decide_eq_true_eq] at h
  repeat' split at h
  all_goals first | cases h | skip
  all_goals simp_all <;> omega

/-- URL decoding adds no weight. -/
theorem weight_urldecode {m : Nat} (hm : 3 ≤ m) (u : Bool) (s : Bytes) : weight m (urldecode u s).1 ≤ weight m s := by
  have one : ∀ (b : UInt8) (t : Bytes), weight m ([b] ++ t) ≤ m + weight m t := fun b t => weight_cons hm b t
  have asc : ∀ {c : UInt8} (t : Bytes), c.toNat < 128 → weight m (c :: t) = m + weight m t := fun t h =>
    weight_ascii m (by omega) (by simpa [UInt8.lt_iff_toNat_lt] using h) t
  induction hn : s.length using Nat.strongRecOn generalizing s with
  | _ n ih =>
    refine ud_cases u s ?_ ?_ ?_ ?_ ?_ ?_
    · rintro rfl; simp [ud_nil]
    · rintro a b r rfl ha hb
      have := ih r.length (by simp at hn; omega) r rfl
      rw [ud_hex u r ha hb, asc _ (by decide), asc _ (isHex_ascii ha), asc _ (isHex_ascii hb)]
      have := one ((unHex a <<< 4) ||| unHex b) (urldecode u r).1
      simp only [emit]; omega
    · rintro a b d e f r rfl rfl h
      have := ih r.length (by simp at hn; omega) r rfl
      rw [ud_uni r h]
      simp only [startsUni, Bool.and_eq_true, Bool.or_eq_true, beq_iff_eq] at h
      have ha : a.toNat < 128 := by rcases h.1.1.1.1 with h | h <;> subst h <;> decide
      rw [asc _ (by decide), asc _ ha, asc _ (isHex_ascii h.1.1.1.2), asc _ (isHex_ascii h.1.1.2), asc _ (isHex_ascii h.1.2), asc _ (isHex_ascii h.2)]
      obtain ⟨q, hq, e1⟩ := encodeRune_valid (uniRune b d e f)
      have h1 := weight_encode hq m (urldecode true r).1
      have h2 := encodeRune_length q
      simp only [emit]; rw [e1]; omega
    · rintro r rfl h1 h2
      have := ih r.length (by simp at hn; omega) r rfl
      rw [ud_bad u r h1 h2, asc _ (by decide)]
      have := one 37 (urldecode u r).1
      simp only [emit]; omega
    · rintro r rfl
      have := ih r.length (by simp at hn; omega) r rfl
      rw [ud_plus, asc _ (by decide)]
      have := one 32 (urldecode u r).1
      simp only [emit]; omega
    · rintro c r rfl h1 h2
      by_cases hc : c.toNat < 128
      · have := ih r.length (by simp at hn; omega) r rfl
        rw [ud_lit u r h1 h2, asc _ hc]
        have := one c (urldecode u r).1
        simp only [emit]; omega
      · obtain ⟨d, t, e1, e2, hne, hd⟩ := segs_step (s := c :: r) (by simp)
        have hl : ∀ b ∈ d.bytes, 0x80 ≤ b.toNat := by
          rcases hd with hd | ⟨_, b, hb, hb'⟩
          · have hr : 0x80 ≤ d.rune := by
              rcases Nat.lt_or_ge d.rune 0x80 with hlt | hge
              · exfalso
                rw [hd.2, encodeRune_ascii hlt] at e2
                have := (List.cons.inj e2).1
                rw [this, u8_toNat_ofNat (by have : d.rune < 128 := hlt; omega)] at hc
                exact hc hlt
              · exact hge
            rw [hd.2]; exact encodeRune_hi hr
          · rw [hb]; intro x hx; rw [List.mem_singleton.1 hx]; simpa [UInt8.le_iff_toNat_le] using hb'
        have hlen := List.length_pos_iff.2 hne
        have hlen2 := congrArg List.length e2
        rw [List.length_append] at hlen2
        rw [e2] at e1 ⊢
        rw [ud_high u t hl, weight_seg e1]
        have := ih t.length (by omega) t rfl
        have hap := weight_append hm d.bytes (urldecode u t).1
        have hw : weight m d.bytes ≤ max m d.bytes.length := by
          rcases hd with hd | ⟨_, b, hb, _⟩
          · have := weight_encode hd.1 m []
            rw [← hd.2, List.append_nil, weight_nil] at this
            omega
          · have := one b []
            rw [weight_nil, List.append_nil] at this
            rw [hb]; omega
        omega

/-- The letters that `unicode.ToLower` makes of those written with at most three bytes
can be written with three bytes. -/
def LowerShort (hi : Rune → Rune) : Prop := ∀ r, r < 0x10000 → hi r < 0x10000

theorem encodeRune_short {r : Nat} (h : r < 0x10000) : (encodeRune r).length ≤ 3 := by
  unfold encodeRune
  repeat' split
  all_goals first | (simp; done) | (exfalso; unfold Rune at *; omega)

theorem encodeRune_long {r : Nat} (h : r.isValidChar) (h2 : 0x10000 ≤ r) : (encodeRune r).length = 4 := by
  simp only [Nat.isValidChar] at h
  unfold encodeRune
  repeat' split
  all_goals first | rfl | (exfalso; unfold Rune at *; omega)

theorem weight_lower {m : Nat} (hm : 3 ≤ m) {hi : Rune → Rune} (h : 4 ≤ m ∨ LowerShort hi) (s : Bytes) :
    weight m (toLower hi s) ≤ weight m s := by
  unfold toLower
  split
  · rename_i ha
    simp only [List.all_eq_true, decide_eq_true_eq] at ha
    induction s with
    | nil => simp [weight_nil]
    | cons b s ih =>
      have hb := ha b (by simp)
      have := ih (fun x hx => ha x (by simp [hx]))
      rw [weight_ascii m (by omega) hb, List.map_cons]
      have := weight_cons hm (lowerByte b) (s.map lowerByte)
      omega
  · unfold stringsMap
    refine weight_mapState hm _ ?_ s ()
    intro _ r r' hv hr
    simp only [Option.some.injEq] at hr
    have h4 := encodeRune_length r'
    rcases h with h | h
    · have := Nat.le_max_left m (encodeRune r).length; omega
    · rcases Nat.lt_or_ge r 0x10000 with hlt | hge
      · have : (encodeRune r').length ≤ 3 := by
          apply encodeRune_short
          rw [← hr, lowerRune]
          split
          · rename_i h80
            have h80 : r < 128 := h80
            split
            all_goals (unfold Rune at *; omega)
          · exact h r hlt
        have := Nat.le_max_left m (encodeRune r).length; omega
      · have := encodeRune_long hv hge
        have := Nat.le_max_right m (encodeRune r).length; omega

theorem weight_replace {m : Nat} (hm : 3 ≤ m) (src : Rune) (to : Option Rune) (hto : ∀ r, to = some r → r < 0x80) (s : Bytes) :
    weight m (stringsMap (replaceRune src to) s) ≤ weight m s := by
  unfold stringsMap
  refine weight_mapState hm _ ?_ s ()
  intro _ r r' _ hr
  simp only [replaceRune] at hr
  split at hr
  · have := hto r' hr
    have := encodeRune_short (r := r') (by unfold Rune at *; omega)
    have := Nat.le_max_left m (encodeRune r).length; omega
  · cases hr; exact Nat.le_max_right ..

theorem weight_compress {m : Nat} (hm : 3 ≤ m) (s : Bytes) : weight m (transCompressWhitespace s) ≤ weight m s := by
  refine weight_mapState hm _ ?_ s false
  intro st r r' _ hr
  simp only [compressStep] at hr
  repeat' split at hr
  all_goals (cases hr; try exact Nat.le_max_right ..)

/-- No transformation of the library adds weight. -/
theorem weight_trans {m : Nat} (hm : 3 ≤ m) {lib : Lib} (h : 4 ≤ m ∨ LowerShort lib.lowerHi) {tr : Trans}
    (htr : ∀ f, tr ≠ .custom f) (t : Tx) (s : Bytes) : weight m (tr.run lib t s) ≤ weight m s := by
  cases tr with
  | lowercase => exact weight_lower hm h s
  | urlDecode => exact weight_urldecode hm false s
  | urlDecodeUni => exact weight_urldecode hm true s
  | none => exact Nat.le_refl _
  | compressWhitespace => exact weight_compress hm s
  | removeWhitespace => exact weight_replace hm 32 none (by simp) s
  | replaceNulls => exact weight_replace hm 0 (some 32) (by intro r hr; cases hr; decide) s
  | removeNulls => exact weight_replace hm 0 none (by simp) s
  | custom f => exact absurd rfl (htr f)

theorem weight_all {m : Nat} (hm : 3 ≤ m) {lib : Lib} (h : 4 ≤ m ∨ LowerShort lib.lowerHi) (t : Tx) :
    ∀ (trs : List Trans) (s : Bytes), (∀ tr ∈ trs, ∀ f, tr ≠ .custom f) →
      weight m (trs.foldl (fun s tr => tr.run lib t s) s) ≤ weight m s
  | [], _, _ => Nat.le_refl _
  | tr :: trs, s, htr => by
    have h1 := weight_all hm h t trs (tr.run lib t s) (fun x hx => htr x (List.mem_cons_of_mem _ hx))
    have h2 := weight_trans hm h (htr tr List.mem_cons_self) t s
    exact Nat.le_trans h1 h2

end Verif
