import Verif.Proofs.Form
/-! `ReadForm` on bytes that end within a part, given again and again. -/
namespace Verif
open Spec

section
variable {bnd : Bytes}

theorem Spec.PlainPart.part {ls : List (Bytes × Bytes)} {n : Option Bytes} (h : PlainPart ls n) : PartIs ls n := by
  cases h with
  | field h => exact .field h
  | skipped h => exact .skipped h

theorem Spec.PlainParts.parts {ps : List (Option Bytes × Bytes)} {text : Bytes} (h : PlainParts bnd ps text) : Parts bnd ps text := by
  induction h with
  | nil => exact .nil
  | cons h1 h2 h3 _ h4 _ ih => exact .cons h1 h2.part h3 h4 ih

theorem fieldBytes_cons (n : Option Bytes) (c : Bytes) (ps : List (Option Bytes × Bytes)) :
    fieldBytes ((n, c) :: ps) = (if n = none then 0 else c.length) + fieldBytes ps := by
  cases n <;> simp [fieldBytes, fieldsOf]

theorem fieldBytes_append (ps qs : List (Option Bytes × Bytes)) : fieldBytes (ps ++ qs) = fieldBytes ps + fieldBytes qs := by
  simp [fieldBytes, fieldsOf]

/-- Parts that are no files: the values are taken as long as they fit. -/
theorem readParts_plain (hi : Rune → Rune) (hb : Boundary bnd) (hs : bnd.length + 4 ≤ 4096) {ps : List (Option Bytes × Bytes)} {parts : Bytes} (h : PlainParts bnd ps parts)
    {c : UInt8} (hc : endsBoundary c = true) (tail : Bytes) :
    ∀ (n : Nat) (first : Bool) {mm mv : Int} (m : GoMap), 0 ≤ mv →
    readParts hi bnd (ps.length + n) [13, 10] first mm mv m (lead first ++ (parts ++ (dashed bnd ++ c :: tail))) =
      if mv < fieldBytes ps then .tooLarge else
      readParts hi bnd n [13, 10] (first && ps.isEmpty) mm (mv - fieldBytes ps) (addPairs m (fieldsOf ps)) (lead (first && ps.isEmpty) ++ (dashed bnd ++ c :: tail)) := by
  induction h with
  | nil =>
    intro n first mm mv m h0
    have : ¬ (mv < (fieldBytes [] : Nat)) := by simp [fieldBytes, fieldsOf]; omega
    rw [if_neg this]
    simp [fieldsOf, addPairs, fieldBytes]
  | @cons ls nm head content more ps hh hp he _ hcont hr ih =>
    intro n first mm mv m h0
    obtain ⟨d, r, e, hcr⟩ := parts_start (hr.parts) hc tail
    have hlen : ((nm, content) :: ps).length + n = (ps.length + n) + 1 := by simp only [List.length_cons]; omega
    have hbody := partBody_content hb hcont hcr r
    rw [← e] at hbody
    rw [part_text, hlen, fieldBytes_cons]
    cases hp with
    | @field x hp =>
      rw [readParts_field hi hb hs hh he hp]
      simp only [hbody, List.isEmpty_cons, Bool.and_false, reduceCtorEq, if_false]
      by_cases hlt : mv < content.length
      · rw [if_pos hlt, if_pos (by omega)]
      · rw [if_neg hlt]
        refine (ih n false (mm := mm) (mv := mv - content.length) (m.append x [content]) (by omega)).trans ?_
        by_cases h2 : mv < ((content.length + fieldBytes ps : Nat) : Int)
        · rw [if_pos h2, if_pos (by omega)]
        · rw [if_neg h2, if_neg (by omega)]
          have : mv - content.length - (fieldBytes ps : Int) = mv - ((content.length + fieldBytes ps : Nat) : Int) := by omega
          rw [this]
          rfl
    | skipped hp =>
      rw [readParts_skipped hi hb hs hh he hp]
      simp only [hbody, List.isEmpty_cons, Bool.and_false, if_true, Nat.zero_add]
      exact ih n false (mm := mm) (mv := mv) m h0

/-! ### A part that is not ended -/

theorem cutAt_none {s : Bytes} (hs : s ≠ []) : ∀ {v : Bytes}, ¬ s <:+: v → cutAt s v = none
  | [], _ => by simp [cutAt, hs]
  | c :: r, h => by
    have h1 : ¬ s.isPrefixOf (c :: r) = true := by
      rw [List.isPrefixOf_iff_prefix]
      exact fun hp => h hp.isInfix
    rw [cutAt, if_neg h1, cutAt_none hs fun hi => h (hi.trans (List.infix_cons (List.infix_refl r)))]
    rfl

theorem keptBack_none {d : Bytes} : ∀ {v : Bytes}, (∀ s, s ≠ [] → s <:+ v → ¬ s <+: d) → keptBack d v = 0
  | [], _ => rfl
  | c :: r, h => by
    have h1 : ¬ (c :: r).isPrefixOf d = true := by
      rw [List.isPrefixOf_iff_prefix]
      exact h _ (by simp) (List.suffix_refl _)
    rw [keptBack, if_neg h1]
    exact keptBack_none fun s h1 h2 => h s h1 (h2.trans (List.suffix_cons c r))

theorem cutAt_some {s : Bytes} : ∀ {v a b : Bytes}, cutAt s v = some (a, b) → v = a ++ s ++ b
  | [], a, b, h => by
    simp only [cutAt] at h
    split at h
    · rename_i hs; cases h; simp [hs]
    · cases h
  | c :: r, a, b, h => by
    simp only [cutAt] at h
    split at h
    · rename_i hs
      obtain ⟨z, hz⟩ := List.isPrefixOf_iff_prefix.1 hs
      cases h
      rw [← hz]; simp
    · cases hc : cutAt s r with
      | none => rw [hc] at h; cases h
      | some p =>
        rw [hc] at h
        cases h
        have := cutAt_some hc
        simp [this]

/-- Nothing is kept back of the rest of a part in which no delimiter is begun, whatever looks like one. -/
theorem partRest_runs {d : Bytes} (hd : d ≠ []) (n : Nat) : ∀ {v : Bytes}, v.length < n → (∀ e, endsBoundary e = true → ¬ (d ++ [e]) <:+: v) →
    (∀ s, s ≠ [] → s <:+ v → ¬ s <+: d) → partRest d n v = .runs v.length 0 := by
  induction n with
  | zero => intro v h; omega
  | succ n ih =>
    intro v hn h1 h2
    rw [partRest]
    cases hc : cutAt d v with
    | none => simp only [keptBack_none h2]; rfl
    | some p =>
      obtain ⟨a, b⟩ := p
      have hv := cutAt_some hc
      cases b with
      | nil => exact absurd (List.prefix_refl d) (h2 d hd ⟨a, by simpa using hv.symm⟩)
      | cons c r =>
        have hc' : endsBoundary c = false := by
          cases he : endsBoundary c with
          | false => rfl
          | true => exact absurd ⟨a, r, by rw [hv]; simp⟩ (h1 c he)
        have hd' : 0 < d.length := List.length_pos_iff.2 hd
        have hs : c :: r <:+ v := ⟨a ++ d, hv.symm⟩
        have hl : (c :: r).length < n := by
          have := congrArg List.length hv
          simp only [List.length_append] at this
          omega
        simp only [hc', Bool.false_eq_true, if_false]
        rw [ih hl (fun e he hi => h1 e he (hi.trans hs.isInfix)) fun s h3 h4 => h2 s h3 (h4.trans hs)]
        simp only [PartText.after, PartText.runs.injEq, and_true]
        rw [hv]
        simp only [List.length_append]

/-- Nothing is kept back of a part in which no delimiter is begun. -/
theorem partBody_runs {v : Bytes} (h : NoneBegun bnd v) : partBody bnd [13, 10] v = .runs v.length 0 := by
  have hin : ∀ e, endsBoundary e = true → ¬ ([13, 10] ++ dashed bnd ++ [e]) <:+: 13 :: 10 :: (v ++ [13]) :=
    fun e he => h.inside e (endsBoundary_mem.1 he)
  have h2 : ¬ v.isPrefixOf (dashed bnd) = true := by
    rw [List.isPrefixOf_iff_prefix]
    exact h.start
  have hin' : ∀ e, endsBoundary e = true → ¬ ([13, 10] ++ dashed bnd ++ [e]) <:+: v :=
    fun e he hi => hin e he (hi.trans ⟨[13, 10], [13], by simp⟩)
  by_cases h1 : dashed bnd <+: v
  · obtain ⟨z, rfl⟩ := h1
    rw [partBody, afterPrefix_append]
    cases z with
    | nil => exact absurd (by rw [List.append_nil]; exact List.prefix_refl _) h.start
    | cons c r =>
      have hc' : endsBoundary c = false := by
        cases he : endsBoundary c with
        | false => rfl
        | true => exact absurd ⟨[], r ++ [13], by simp⟩ (hin c he)
      have hs : c :: r <:+ dashed bnd ++ c :: r := ⟨_, rfl⟩
      simp only [hc', Bool.false_eq_true, if_false]
      rw [partRest_runs (by simp) _ (by simp only [List.length_append]; omega) (fun e he hi => hin' e he (hi.trans hs.isInfix)) fun s h3 h4 => h.seam s h3 (h4.trans hs)]
      simp [PartText.after]
  · rw [partBody, afterPrefix_none h1]
    simp only [if_neg h2]
    exact partRest_runs (by simp) _ (by omega) hin' h.seam

/-! ### Bytes in which no delimiter begins -/

theorem infix_append {d a b : Bytes} (h : d <:+: a ++ b) : d <:+: a ∨ d <:+: b ∨ ∃ s t, s ≠ [] ∧ t ≠ [] ∧ d = s ++ t ∧ s <:+ a ∧ t <+: b := by
  obtain ⟨x, y, h⟩ := h
  rcases List.append_eq_append_iff.1 h with ⟨z, h1, h2⟩ | ⟨z, h1, h2⟩
  · left
    exact ⟨x, z, h1.symm⟩
  · rcases List.append_eq_append_iff.1 h1 with ⟨w, h3, h4⟩ | ⟨w, h3, h4⟩
    · by_cases hw : w = []
      · subst hw
        right; left
        exact ⟨[], y, by rw [h2, h4]; simp⟩
      · by_cases hz : z = []
        · subst hz
          left
          exact ⟨x, [], by rw [h3, h4]; simp⟩
        · right; right
          exact ⟨w, z, hw, hz, h4, ⟨x, h3.symm⟩, ⟨y, h2.symm⟩⟩
    · right; left
      exact ⟨w, y, by rw [h2, h4]⟩

theorem suffix_append {s a b : Bytes} (h : s <:+ a ++ b) : s <:+ b ∨ ∃ y, y ≠ [] ∧ y <:+ a ∧ s = y ++ b := by
  obtain ⟨x, h⟩ := h
  rcases List.append_eq_append_iff.1 h with ⟨z, h1, h2⟩ | ⟨z, h1, h2⟩
  · by_cases hz : z = []
    · subst hz
      left
      exact ⟨[], by rw [h2]; simp⟩
    · right
      exact ⟨z, hz, ⟨x, h1.symm⟩, h2⟩
  · left
    exact ⟨z, h2.symm⟩

/-- A delimiter with its line end. -/
abbrev delim (bnd : Bytes) : Bytes := 13 :: 10 :: dashed bnd

theorem delim_tail (hb : Boundary bnd) : (13 : UInt8) ∉ 10 :: dashed bnd ∧ (10 : UInt8) ∉ dashed bnd := by
  constructor
  · simp only [dashed, List.mem_cons, not_or]
    exact ⟨by decide, by decide, by decide, fun h => (hb.2 _ h).1 rfl⟩
  · simp only [dashed, List.mem_cons, not_or]
    exact ⟨by decide, by decide, fun h => (hb.2 _ h).2 rfl⟩

/-- No delimiter begins in the bytes, not even at the end. -/
structure Clean (bnd v : Bytes) : Prop where
  inside : ∀ e, endsBoundary e = true → ¬ (delim bnd ++ [e]) <:+: v
  seam : ∀ s, s ≠ [] → s <:+ v → ¬ s <+: delim bnd

theorem Clean.nil : Clean bnd [] :=
  ⟨by rintro e _ ⟨x, y, h⟩; simp at h, fun s hs h => absurd (List.suffix_nil.1 h) hs⟩

theorem prefix_of_split {d s t : Bytes} {e : UInt8} (ht : t ≠ []) (h : d ++ [e] = s ++ t) : s <+: d := by
  rcases List.append_eq_append_iff.1 h with ⟨z, h1, h2⟩ | ⟨z, h1, _⟩
  · cases z with
    | nil => exact ⟨[], by simpa using h1⟩
    | cons x z =>
      have := congrArg List.length h2
      have : 0 < t.length := List.length_pos_iff.2 ht
      simp only [List.length_cons, List.length_nil, List.length_append] at *
      omega
  · exact ⟨z, h1.symm⟩

theorem Clean.append {a b : Bytes} (ha : Clean bnd a) (hb : Clean bnd b) : Clean bnd (a ++ b) where
  inside := fun e he h => by
    rcases infix_append h with h | h | ⟨s, t, h1, h2, h3, h4, _⟩
    · exact ha.inside e he h
    · exact hb.inside e he h
    · exact ha.seam s h1 h4 (prefix_of_split h2 h3)
  seam := fun s hs h hp => by
    rcases suffix_append h with h | ⟨y, h1, h2, rfl⟩
    · exact hb.seam s hs h hp
    · exact ha.seam y h1 h2 ((List.prefix_append _ _).trans hp)

/-- The same bytes again and again. -/
def again (n : Nat) (b : Bytes) : Bytes := (List.replicate n b).flatten

theorem again_succ (n : Nat) (b : Bytes) : again (n + 1) b = b ++ again n b := by simp [again, List.replicate_succ]

theorem again_length (n : Nat) (b : Bytes) : (again n b).length = n * b.length := by
  simp [again]

theorem Clean.again {b : Bytes} (h : Clean bnd b) : ∀ n, Clean bnd (again n b)
  | 0 => .nil
  | n + 1 => by rw [again_succ]; exact h.append (Clean.again h n)

theorem Spec.NoneBegun.notEnded_append {v w : Bytes} (hv : NoneBegun bnd v) (hw : ∀ e, endsBoundary e = true → ¬ (delim bnd ++ [e]) <:+: w ++ [13]) :
    NotEnded bnd (v ++ w) := by
  intro e he h
  have he := endsBoundary_mem.2 he
  have h : delim bnd ++ [e] <:+: (13 :: 10 :: v) ++ (w ++ [13]) := by
    have h : delim bnd ++ [e] <:+: 13 :: 10 :: (v ++ w ++ [13]) := h
    simpa using h
  rcases infix_append h with h | h | ⟨s, t, h1, h2, h3, h4, _⟩
  · exact hv.inside e (endsBoundary_mem.1 he) (h.trans ⟨[], [13], rfl⟩)
  · exact hw e he h
  · have h3 := prefix_of_split h2 h3
    rcases suffix_append (a := [13, 10]) (b := v) h4 with h5 | ⟨y, h5, h6, rfl⟩
    · exact hv.seam s h1 h5 h3
    · obtain ⟨z, hz⟩ := h6
      obtain ⟨t, h3⟩ := h3
      match y, z with
      | [], _ => exact h5 rfl
      | [a], z =>
        have := congrArg List.getLast? hz
        simp at this
        subst this
        simp [delim] at h3
      | [a, b], z =>
        have : z = [] := by
          have := congrArg List.length hz
          simp at this
          exact this
        subst this
        cases hz
        simp [delim] at h3
        exact hv.start ⟨t, h3⟩
      | a :: b :: c :: y, z =>
        have := congrArg List.length hz
        simp at this
        omega

theorem Spec.NoneBegun.append {v w : Bytes} (hv : NoneBegun bnd v) (hw : Clean bnd w) : NoneBegun bnd (v ++ w) where
  inside := hv.notEnded_append fun e he h => by
    rcases infix_append h with h | h | ⟨s, t, h1, h2, h3, h4, _⟩
    · exact hw.inside e he h
    · have := h.length_le
      simp [delim] at this
    · exact hw.seam s h1 h4 (prefix_of_split h2 h3)
  start := fun h => hv.start ((List.prefix_append _ _).trans h)
  seam := fun s hs h hp => by
    rcases suffix_append h with h | ⟨y, h1, h2, rfl⟩
    · exact hw.seam s hs h hp
    · exact hv.seam y h1 h2 ((List.prefix_append _ _).trans hp)

/-- The beginning of a part: there is no delimiter in it. -/
theorem part_inside (hb : Boundary bnd) {head content : Bytes} (hh : NotEnded bnd head) (hc : NotEnded bnd content) :
    ∀ e, endsBoundary e = true → ¬ (delim bnd ++ [e]) <:+: (dashed bnd ++ 13 :: 10 :: (head ++ 13 :: 10 :: content)) ++ [13] := by
  intro e he h
  have h : delim bnd ++ [e] <:+: dashed bnd ++ ((13 :: 10 :: head) ++ 13 :: 10 :: (content ++ [13])) := by simpa using h
  rcases infix_append h with h | h | ⟨s, t, h1, _, h3, h4, _⟩
  · exact (delim_tail hb).1 (List.mem_cons_of_mem _ (h.subset (by simp [delim])))
  · rcases infix_append h with h | h | ⟨s, t, h1, h2, h3, h4, h5⟩
    · exact hh e (endsBoundary_mem.1 he) (h.trans ⟨[], [13], rfl⟩)
    · exact hc e (endsBoundary_mem.1 he) h
    · obtain ⟨x, h6⟩ := prefix_of_split h2 h3
      cases x with
      | nil =>
        rw [List.append_nil] at h6
        subst h6
        have h3 := List.append_cancel_left h3
        subst h3
        obtain ⟨z, hz⟩ := h5
        have he13 : e = 13 := (List.cons.inj hz).1
        obtain ⟨y, hy⟩ := h4
        refine hh e (endsBoundary_mem.1 he) ⟨y, [], ?_⟩
        show y ++ (delim bnd ++ [e]) ++ [] = 13 :: 10 :: head ++ [13]
        rw [← hy, he13]; simp
      | cons d x =>
        rw [← h6, List.append_assoc] at h3
        have h3 := List.append_cancel_left h3
        subst h3
        obtain ⟨z, hz⟩ := h5
        have hd : d = 13 := (List.cons.inj hz).1
        subst hd
        cases s with
        | nil => exact h1 rfl
        | cons a s =>
          simp [delim] at h6
          exact (delim_tail hb).1 (by rw [← h6.2]; simp)
  · cases s with
    | nil => exact h1 rfl
    | cons a s =>
      simp [delim] at h3
      rw [← h3.1] at h4
      exact (delim_tail hb).1 (List.mem_cons_of_mem _ (h4.subset List.mem_cons_self))

/-- The beginning of a part in which no delimiter is begun. -/
theorem part_clean (hb : Boundary bnd) {head content : Bytes} (hh : NotEnded bnd head) (hc : NoneBegun bnd content) :
    Clean bnd (dashed bnd ++ 13 :: 10 :: (head ++ 13 :: 10 :: content)) where
  inside := fun e he h => part_inside hb hh hc.inside e he (h.trans ⟨[], [13], by simp⟩)
  seam := fun s hs h hp => by
    have e : dashed bnd ++ 13 :: 10 :: (head ++ 13 :: 10 :: content) = (dashed bnd ++ 13 :: 10 :: (head ++ [13, 10])) ++ content := by simp
    rw [e] at h
    rcases suffix_append h with h | ⟨y, h1, h2, rfl⟩
    · exact hc.seam s hs h hp
    · have hlast : y.getLast? = some 10 := by
        obtain ⟨z, hz⟩ := h2
        have := congrArg List.getLast? hz
        rw [List.getLast?_append] at this
        cases hy : y.getLast? with
        | none => exact absurd (List.getLast?_eq_none_iff.1 hy) h1
        | some c =>
          rw [hy] at this
          simp [List.getLast?_append, List.getLast?_cons] at this
          rw [this]
      match y with
      | [] => exact h1 rfl
      | [a] =>
        simp at hlast
        subst hlast
        obtain ⟨z, hz⟩ := hp
        simp [delim] at hz
      | a :: b :: r =>
        obtain ⟨z, hz⟩ := hp
        simp [delim] at hz
        obtain ⟨rfl, rfl, hz⟩ := hz
        cases r with
        | nil => exact hc.start ⟨z, by show content ++ z = dashed bnd; simpa using hz⟩
        | cons d r =>
          have h10 : (10 : UInt8) ∈ d :: r := by
            simp only [List.getLast?_cons_cons] at hlast
            exact List.mem_of_getLast? hlast
          exact (delim_tail hb).2 (by rw [← hz]; exact List.mem_append_left _ h10)

/-! ### The bytes again and again -/

theorem Spec.PlainParts.append {ps qs : List (Option Bytes × Bytes)} {a b : Bytes} (h : PlainParts bnd ps a) (h' : PlainParts bnd qs b) : PlainParts bnd (ps ++ qs) (a ++ b) := by
  induction h with
  | nil => exact h'
  | @cons ls nm head content more ps h1 h2 h3 h4 h5 _ ih =>
    have := PlainParts.cons h1 h2 h3 h4 h5 ih
    simpa only [List.append_assoc, List.cons_append] using this

theorem Spec.PlainParts.again {ps : List (Option Bytes × Bytes)} {a : Bytes} (h : PlainParts bnd ps a) : ∀ n, PlainParts bnd (List.replicate n ps).flatten (again n a)
  | 0 => .nil
  | n + 1 => by
    rw [again_succ, List.replicate_succ, List.flatten_cons]
    exact h.append (Spec.PlainParts.again h n)

theorem again_turn (p o : Bytes) : ∀ n, again (n + 1) (p ++ o) = p ++ (again n (o ++ p) ++ o)
  | 0 => by simp [again]
  | n + 1 => by
    rw [again_succ, again_turn p o n, again_succ n (o ++ p)]
    simp

theorem fieldBytes_again (ps : List (Option Bytes × Bytes)) : ∀ n, fieldBytes (List.replicate n ps).flatten = n * fieldBytes ps
  | 0 => by simp [fieldBytes, fieldsOf]
  | n + 1 => by
    rw [List.replicate_succ, List.flatten_cons, fieldBytes_append, fieldBytes_again ps n, Nat.succ_mul]
    omega

/-- Parts, and one that is not ended. -/
theorem readParts_within (hi : Rune → Rune) (hb : Boundary bnd) (hs : bnd.length + 4 ≤ 4096) {ps : List (Option Bytes × Bytes)} {n : Option Bytes} {content text : Bytes}
    (h : EndsWithin bnd ps n content text) {mm mv : Int} (h0 : 0 ≤ mv) :
    readParts hi bnd (text.length + 1) [13, 10] true mm mv [] text =
      if mv < (fieldBytes ps + if n = none then 0 else content.length : Nat) then .tooLarge else .more 0 := by
  obtain ⟨parts, ls, head, hp, hh, hn, he, _, hc, rfl⟩ := h
  have e : parts ++ b!"--" ++ bnd ++ b!"\r\n" ++ head ++ b!"\r\n" ++ content = parts ++ (dashed bnd ++ 13 :: (10 :: (head ++ 13 :: 10 :: content))) := by
    show parts ++ [45, 45] ++ bnd ++ [13, 10] ++ head ++ [13, 10] ++ content = _
    simp [dashed]
  rw [e]
  have hcnt := (parts_count (hp.parts)).1
  have hlen : (parts ++ (dashed bnd ++ 13 :: (10 :: (head ++ 13 :: 10 :: content)))).length + 1 =
      ps.length + ((parts.length - ps.length + (dashed bnd ++ 13 :: (10 :: (head ++ 13 :: 10 :: content))).length) + 1) := by
    rw [List.length_append]; omega
  rw [hlen]
  refine (readParts_plain hi hb hs hp (c := 13) rfl _ _ true [] h0).trans ?_
  by_cases h1 : mv < fieldBytes ps
  · rw [if_pos h1, if_pos (by omega)]
  · rw [if_neg h1]
    cases hn with
    | field hf =>
      rw [readParts_field hi hb hs hh he hf, partBody_runs hc]
      simp only [reduceCtorEq, if_false, show ¬ (4096 ≤ 0) by omega]
      by_cases h2 : mv < ((fieldBytes ps + content.length : Nat) : Int)
      · rw [if_pos h2, if_pos (by omega)]
      · rw [if_neg h2, if_neg (by omega)]
    | skipped hk =>
      rw [readParts_skipped hi hb hs hh he hk, partBody_runs hc]
      simp only [if_true, Nat.add_zero, h1, if_false, show ¬ (4096 ≤ 0) by omega]

/-- The same bytes again and again are parts, and one that is not ended, too. -/
theorem endsWithin_again (hb : Boundary bnd) {ps : List (Option Bytes × Bytes)} {n : Option Bytes} {content text : Bytes} (h : EndsWithin bnd ps n content text) :
    ∃ a b : Nat, (b = 0 ↔ n = none ∧ fieldBytes ps.tail = 0) ∧ a ≤ text.length ∧
      ∀ j, ∃ qs c, EndsWithin bnd qs n c (again (j + 1) text) ∧ (fieldBytes qs + if n = none then 0 else c.length) = a + j * b := by
  obtain ⟨parts, ls, head, hp, hh, hn, he, hd, hc, rfl⟩ := h
  have ht : parts ++ b!"--" ++ bnd ++ b!"\r\n" ++ head ++ b!"\r\n" ++ content = parts ++ (dashed bnd ++ 13 :: 10 :: (head ++ 13 :: 10 :: content)) := by
    show parts ++ [45, 45] ++ bnd ++ [13, 10] ++ head ++ [13, 10] ++ content = _
    simp [dashed]
  rw [ht]
  have hcl := part_clean hb hd hc
  cases hp with
  | nil =>
    refine ⟨if n = none then 0 else content.length, if n = none then 0 else ([] ++ (dashed bnd ++ 13 :: 10 :: (head ++ 13 :: 10 :: content))).length, ?_, ?_, fun j =>
      ⟨[], content ++ again j ([] ++ (dashed bnd ++ 13 :: 10 :: (head ++ 13 :: 10 :: content))), ⟨[], ls, head, .nil, hh, hn, he, hd, ?_, ?_⟩, ?_⟩⟩
    · cases n <;> simp [fieldBytes, fieldsOf, dashed]
    · split <;> simp [dashed]; omega
    · exact hc.append (by rw [List.nil_append]; exact hcl.again j)
    · rw [again_succ]
      show _ = [] ++ [45, 45] ++ bnd ++ [13, 10] ++ head ++ [13, 10] ++ _
      simp [dashed]
    · cases n
      · simp [fieldBytes, fieldsOf]
      · simp [fieldBytes, fieldsOf, again_length]
  | @cons ls1 n1 head1 c1 more ps h1 h2 h3 h4 h5 h6 =>
    have hmerge : PlainParts bnd ((n, content ++ (dashed bnd ++ 13 :: 10 :: (head1 ++ 13 :: 10 :: c1))) :: ps)
        ((dashed bnd ++ 13 :: 10 :: (head ++ 13 :: 10 :: content)) ++ (b!"--" ++ bnd ++ b!"\r\n" ++ head1 ++ b!"\r\n" ++ c1 ++ b!"\r\n" ++ more)) := by
      have := PlainParts.cons hh hn he hd (hc.notEnded_append (part_inside hb h4 h5)) h6
      have e : (dashed bnd ++ 13 :: 10 :: (head ++ 13 :: 10 :: content)) ++ (b!"--" ++ bnd ++ b!"\r\n" ++ head1 ++ b!"\r\n" ++ c1 ++ b!"\r\n" ++ more) =
          b!"--" ++ bnd ++ b!"\r\n" ++ head ++ b!"\r\n" ++ (content ++ (dashed bnd ++ 13 :: 10 :: (head1 ++ 13 :: 10 :: c1))) ++ b!"\r\n" ++ more := by
        show (dashed bnd ++ 13 :: 10 :: (head ++ 13 :: 10 :: content)) ++ ([45, 45] ++ bnd ++ [13, 10] ++ head1 ++ [13, 10] ++ c1 ++ [13, 10] ++ more) =
          [45, 45] ++ bnd ++ [13, 10] ++ head ++ [13, 10] ++ (content ++ (dashed bnd ++ 13 :: 10 :: (head1 ++ 13 :: 10 :: c1))) ++ [13, 10] ++ more
        simp [dashed]
      rw [e]
      exact this
    have hall := PlainParts.cons h1 h2 h3 h4 h5 h6
    have hcnt := parts_count (hall.parts)
    have hfb : fieldBytes ((n1, c1) :: ps) ≤ contents ((n1, c1) :: ps) := by
      have : ∀ l : List (Option Bytes × Bytes), fieldBytes l ≤ contents l := by
        intro l
        induction l with
        | nil => simp [fieldBytes, fieldsOf]
        | cons x l ih =>
          have e : contents (x :: l) = x.2.length + contents l := by simp [contents]
          rw [show x = (x.1, x.2) from rfl, fieldBytes_cons, e]
          split <;> omega
      exact this _
    refine ⟨fieldBytes ((n1, c1) :: ps) + (if n = none then 0 else content.length),
      fieldBytes ((n, content ++ (dashed bnd ++ 13 :: 10 :: (head1 ++ 13 :: 10 :: c1))) :: ps), ?_, ?_, fun j =>
      ⟨_, content, ⟨_, ls, head, hall.append (hmerge.again j), hh, hn, he, hd, hc, ?_⟩, ?_⟩⟩
    · rw [fieldBytes_cons, List.tail_cons]
      cases n <;> simp [dashed]
    · rw [List.length_append]
      simp only [List.length_append, List.length_cons] at hcnt ⊢
      split <;> omega
    · rw [again_turn]
      show _ = _ ++ [45, 45] ++ bnd ++ [13, 10] ++ head ++ [13, 10] ++ content
      simp [dashed]
    · rw [fieldBytes_append, fieldBytes_again]
      omega

/-- What `ReadForm` does with the same bytes again and again. -/
theorem readFormOn_again_within (hi : Rune → Rune) (hb : Boundary bnd) (hs : bnd.length + 4 ≤ 4096) {ps : List (Option Bytes × Bytes)} {n : Option Bytes} {content text : Bytes}
    (h : EndsWithin bnd ps n content text) {mm : Int} (h0 : 0 ≤ mm) (hm : mm + 10485760 < 2 ^ 63) :
    ∃ a b : Nat, (b = 0 ↔ n = none ∧ fieldBytes ps.tail = 0) ∧ a ≤ text.length ∧
      ∀ j, readFormOn hi bnd mm (again (j + 1) text) = if mm + 10485760 < (a + j * b : Nat) then .tooLarge else .more 0 := by
  obtain ⟨a, b, h1, h2, h3⟩ := endsWithin_again hb h
  refine ⟨a, b, h1, h2, fun j => ?_⟩
  obtain ⟨qs, c, h4, h5⟩ := h3 j
  have hn : ¬ (mm + 10485760 ≥ 2 ^ 63 ∨ 13 ∈ bnd ∨ 10 ∈ bnd) := by
    rintro (h | h | h)
    · omega
    · exact (hb.2 _ h).1 rfl
    · exact (hb.2 _ h).2 rfl
  rw [readFormOn, if_neg hb.1, if_neg hn, readParts_within hi hb hs h4 (by omega), h5]

end

end Verif
