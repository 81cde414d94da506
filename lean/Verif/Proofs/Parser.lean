import Verif.Spec.Loader
import Verif.Proofs.Scanner
import Verif.Proofs.Cookies
/-! The parser accepts exactly the grammar. -/
namespace Verif
open Spec

/-! ### Separated lists -/

/-- Split at every separator. -/
def splitAny (seps : List UInt8) : Bytes → List Bytes
  | [] => [[]]
  | b :: r =>
    if b ∈ seps then [] :: splitAny seps r
    else match splitAny seps r with
      | [] => [[b]]
      | w :: ws => (b :: w) :: ws

theorem splitByte_any (c : UInt8) (s : Bytes) : splitByte c s = splitAny [c] s := by
  induction s with
  | nil => rfl
  | cons b r ih => simp [splitByte, splitAny, ih]; rfl

theorem splitAny_ne_nil (seps : List UInt8) (s : Bytes) : splitAny seps s ≠ [] := by
  cases s with
  | nil => simp [splitAny]
  | cons b r =>
    simp only [splitAny]
    split
    · simp
    · split <;> simp

theorem splitAny_one {seps : List UInt8} {s : Bytes} (h : ∀ c ∈ s, c ∉ seps) : splitAny seps s = [s] := by
  induction s with
  | nil => rfl
  | cons b r ih =>
    simp only [List.mem_cons, forall_eq_or_imp] at h
    simp [splitAny, h.1, ih h.2]

theorem splitAny_more {seps : List UInt8} {s : Bytes} (h : ∀ c ∈ s, c ∉ seps) {c : UInt8} (hc : c ∈ seps) (r : Bytes) :
    splitAny seps (s ++ c :: r) = s :: splitAny seps r := by
  induction s with
  | nil => simp [splitAny, hc]
  | cons b s ih =>
    simp only [List.mem_cons, forall_eq_or_imp] at h
    simp [splitAny, h.1, ih h.2]

theorem sepBy_iff {α : Type} {seps : List UInt8} {item : Bytes → α → Prop} (s : Bytes) :
    ∀ l, SepBy seps item s l ↔ Pairs item (splitAny seps s) l := by
  intro l
  constructor
  · intro h
    induction h with
    | one h1 h2 => rw [splitAny_one h1]; exact .cons h2 .nil
    | more h1 h2 h3 _ ih => rw [splitAny_more h1 h3]; exact .cons h2 ih
  · have key : ∀ (r p : Bytes) (l : List α), (∀ c ∈ p, c ∉ seps) → Pairs item (splitAny seps (p ++ r)) l →
        SepBy seps item (p ++ r) l := by
      intro r
      induction r with
      | nil =>
        intro p l hp h
        rw [List.append_nil] at h ⊢
        rw [splitAny_one hp] at h
        cases h with
        | cons h1 h2 => cases h2; exact .one hp h1
      | cons c r ih =>
        intro p l hp h
        by_cases hc : c ∈ seps
        · rw [splitAny_more hp hc] at h
          cases h with
          | cons h1 h2 => exact .more hp h1 hc (ih [] _ (by simp) (by simpa using h2))
        · have e : p ++ c :: r = (p ++ [c]) ++ r := by simp
          rw [e] at h ⊢
          refine ih (p ++ [c]) l ?_ h
          intro d hd
          rcases List.mem_append.1 hd with hd | hd
          · exact hp d hd
          · simp only [List.mem_cons, List.not_mem_nil, or_false] at hd; subst hd; exact hc
    intro h
    simpa using key s [] l (by simp) (by simpa using h)

/-- The number of separators in a text. -/
def sepCount (seps : List UInt8) : Bytes → Nat
  | [] => 0
  | c :: r => (if c ∈ seps then 1 else 0) + sepCount seps r

theorem splitMultiLoop_ok {seps : List UInt8} {count : Nat} (s : Bytes) : ∀ i cur, i + sepCount seps s < count →
    ∃ w ws, splitAny seps s = w :: ws ∧ splitMultiLoop seps count i cur s = .ok ((cur ++ w) :: ws) := by
  induction s with
  | nil => intro i cur h; exact ⟨[], [], rfl, by simp only [splitMultiLoop, sepCount] at *; rw [if_pos (by omega)]; simp⟩
  | cons c r ih =>
    intro i cur h
    simp only [sepCount] at h
    by_cases hc : c ∈ seps
    · simp only [hc, if_true] at h
      obtain ⟨w, ws, h1, h2⟩ := ih (i + 1) [] (by omega)
      refine ⟨[], w :: ws, by simp [splitAny, hc, h1], ?_⟩
      simp only [splitMultiLoop, List.contains_eq_mem, hc, decide_true, if_true, h2]
      rw [if_pos (by omega)]; simp
    · simp only [hc, if_false] at h
      obtain ⟨w, ws, h1, h2⟩ := ih i (cur ++ [c]) (by omega)
      refine ⟨c :: w, ws, by simp [splitAny, hc, h1], ?_⟩
      simp only [splitMultiLoop, List.contains_eq_mem, hc, decide_false, Bool.false_eq_true, if_false, h2]
      simp

theorem countByte_seps (a b : UInt8) (h : a ≠ b) (s : Bytes) : sepCount [a, b] s = countByte a s + countByte b s := by
  induction s with
  | nil => rfl
  | cons c r ih =>
    simp only [sepCount, countByte, ih, List.mem_cons, List.not_mem_nil, or_false]
    by_cases h1 : c = a
    · subst h1; simp [h]; omega
    · by_cases h2 : c = b
      · subst h2; simp [h1]; omega
      · simp [h1, h2]

/-- `splitMulti` never indexes out of range. -/
theorem splitMulti_ok (s : Bytes) : splitMulti s [44, 124] = .ok (splitAny [44, 124] s) := by
  simp only [splitMulti, List.length_cons, List.foldl_cons, List.foldl_nil]
  rw [if_neg (by simp)]
  obtain ⟨w, ws, h1, h2⟩ := splitMultiLoop_ok (seps := [44, 124]) (count := 1 + countByte 44 s + countByte 124 s) s 0 []
    (by rw [countByte_seps _ _ (by decide)]; omega)
  rw [h2, h1]; simp

/-! ### Lookups -/

theorem lookup_mem {α β : Type} [BEq α] [LawfulBEq α] {l : List (α × β)} {a : α} {b : β} (h : l.lookup a = some b) : (a, b) ∈ l := by
  induction l with
  | nil => cases h
  | cons p l ih =>
    rw [List.lookup_cons] at h
    split at h
    · rename_i e
      have : a = p.1 := by simpa using e
      cases h; subst this; exact List.mem_cons_self
    · exact List.mem_cons_of_mem _ (ih h)

theorem variable_lookup (n : Bytes) (tk : VarTok) : variableMap.lookup n = some tk ↔ varName tk = n := by
  constructor
  · intro h
    have key : ∀ p ∈ variableMap, varName p.2 = p.1 := by decide
    exact key _ (lookup_mem h)
  · rintro rfl
    revert tk
    intro tk; cases tk <;> decide

theorem operator_lookup (n : Bytes) (tk : OpTok) : operatorMap.lookup n = some tk ↔ opName tk = n := by
  constructor
  · intro h
    have key : ∀ p ∈ operatorMap, opName p.2 = p.1 := by decide
    exact key _ (lookup_mem h)
  · rintro rfl
    cases tk <;> decide

theorem action_lookup (n : Bytes) (tk : ActTok) : actionTokMap.lookup n = some tk ↔ actName tk = n := by
  constructor
  · intro h
    have key : ∀ p ∈ actionTokMap, actName p.2 = p.1 := by decide
    exact key _ (lookup_mem h)
  · rintro rfl
    cases tk <;> decide

theorem trans_lookup (n : Bytes) (tk : TransTok) : transformationMap.lookup n = some tk ↔ transName tk = n := by
  constructor
  · intro h
    have key : ∀ p ∈ transformationMap, transName p.2 = p.1 := by decide
    exact key _ (lookup_mem h)
  · rintro rfl
    cases tk <;> decide

/-! ### Variables -/

theorem takeWhile_all {p : UInt8 → Bool} {n : Bytes} (h : ∀ c ∈ n, p c = true) : n.takeWhile p = n := by
  induction n with
  | nil => rfl
  | cons a n ih =>
    simp only [List.mem_cons, forall_eq_or_imp] at h
    simp [h.1, ih h.2]

theorem splitIndex_plain {n : Bytes} (h : ∀ c ∈ n, c ≠ 46 ∧ c ≠ 58) : splitIndex n = (n, []) := by
  have : n.takeWhile (fun c => !(c == 46 || c == 58)) = n :=
    takeWhile_all fun c hc => by have := h c hc; simp [this]
  simp only [splitIndex, this]
  rw [if_neg (by omega)]

theorem takeWhile_sep {p : UInt8 → Bool} {n : Bytes} (h : ∀ c ∈ n, p c = true) {c : UInt8} (hc : p c = false) (r : Bytes) :
    (n ++ c :: r).takeWhile p = n := by
  induction n with
  | nil => simp [hc]
  | cons a n ih =>
    simp only [List.mem_cons, forall_eq_or_imp] at h
    simp [h.1, ih h.2]

theorem splitIndex_sep {n : Bytes} (h : ∀ c ∈ n, c ≠ 46 ∧ c ≠ 58) (hn : n ≠ []) {c : UInt8} (hc : c = 58 ∨ c = 46) (i : Bytes) :
    splitIndex (n ++ c :: i) = (n, i) := by
  have : (n ++ c :: i).takeWhile (fun c => !(c == 46 || c == 58)) = n :=
    takeWhile_sep (fun c hc => by have := h c hc; simp [this]) (by rcases hc with rfl | rfl <;> rfl) i
  simp only [splitIndex, this]
  rw [if_pos ⟨List.length_pos_iff.2 hn, by simp⟩]
  simp

theorem takeWhile_cases (p : UInt8 → Bool) (s : Bytes) :
    (∀ c ∈ s.takeWhile p, p c = true) ∧ (s.takeWhile p = s ∨ ∃ c r, p c = false ∧ s = s.takeWhile p ++ c :: r) := by
  induction s with
  | nil => simp
  | cons a s ih =>
    by_cases h : p a = true
    · rw [List.takeWhile_cons_of_pos h]
      refine ⟨?_, ?_⟩
      · simpa [h] using ih.1
      · rcases ih.2 with e | ⟨c, r, h1, h2⟩
        · exact .inl (by rw [e])
        · exact .inr ⟨c, r, h1, by rw [List.cons_append, ← h2]⟩
    · rw [List.takeWhile_cons_of_neg h]
      exact ⟨by simp, .inr ⟨a, s, by simpa using h, rfl⟩⟩

theorem splitIndex_cases (a : Bytes) : ((splitIndex a).1 = a ∧ (splitIndex a).2 = []) ∨
    a = (splitIndex a).1 ++ 58 :: (splitIndex a).2 ∨ a = (splitIndex a).1 ++ 46 :: (splitIndex a).2 := by
  simp only [splitIndex]
  split
  · rename_i h
    obtain ⟨_, h2⟩ := takeWhile_cases (fun c => !(c == 46 || c == 58)) a
    rcases h2 with e | ⟨c, r, h1, h2⟩
    · rw [e] at h; omega
    · have hd : a.drop ((a.takeWhile fun c => !(c == 46 || c == 58)).length + 1) = r := by
        conv => lhs; rw [h2]
        rw [takeWhile_sep (takeWhile_cases _ a).1 h1]
        simp
      simp only [hd]
      have : c = 46 ∨ c = 58 := by simpa [Decidable.or_iff_not_imp_left] using h1
      rcases this with rfl | rfl
      · exact .inr (.inr h2)
      · exact .inr (.inl h2)
  · exact .inl ⟨rfl, rfl⟩

theorem varName_bytes (tk : VarTok) : varName tk ≠ [] ∧ (∀ c ∈ varName tk, c ≠ 46 ∧ c ≠ 58 ∧ c ≠ 33 ∧ c ≠ 38) := by
  cases tk <;> decide

theorem parseVariable_iff (s : Bytes) (v : PVar) : parseVariable s = .ok v ↔ VarItem s v := by
  constructor
  · intro h
    cases s with
    | nil => cases h
    | cons c r =>
      simp only [parseVariable] at h
      have key : ∀ (m a : Bytes) (excl count : Bool), VarMark m excl count →
          (match variableMap.lookup (splitIndex a).1 with
            | none => Except.error PErr.unknownVariable
            | some tk => .ok ({ tk, index := (splitIndex a).2, count, exclusion := excl } : PVar)) = .ok v → VarItem (m ++ a) v := by
        intro m a excl count hm h
        cases hl : variableMap.lookup (splitIndex a).1 with
        | none => rw [hl] at h; cases h
        | some tk =>
          rw [hl] at h
          have hn := (variable_lookup _ _).1 hl
          have hv : v = { tk, index := (splitIndex a).2, count, exclusion := excl } := by simpa using h.symm
          subst hv
          rcases splitIndex_cases a with ⟨e1, e2⟩ | e | e
          · exact ⟨m, [], by rw [hn, e1, List.append_nil], hm, .inl ⟨rfl, e2⟩⟩
          · refine ⟨m, 58 :: (splitIndex a).2, ?_, hm, .inr (.inl rfl)⟩
            show m ++ a = m ++ varName tk ++ _
            rw [hn, List.append_assoc, ← e]
          · refine ⟨m, 46 :: (splitIndex a).2, ?_, hm, .inr (.inr rfl)⟩
            show m ++ a = m ++ varName tk ++ _
            rw [hn, List.append_assoc, ← e]
      by_cases h33 : c = 33
      · subst h33
        simp only [if_true] at h
        exact key [33] r true false .excl h
      · by_cases h38 : c = 38
        · subst h38
          simp only [h33, if_true, if_false] at h
          exact key [38] r false true .count h
        · simp only [h33, h38, if_false] at h
          exact key [] (c :: r) false false .none h
  · rintro ⟨m, tail, rfl, hm, ht⟩
    obtain ⟨tk, index, count, excl⟩ := v
    simp only at hm ht
    obtain ⟨hne, hb⟩ := varName_bytes tk
    have hs : splitIndex (varName tk ++ tail) = (varName tk, index) := by
      rcases ht with ⟨rfl, rfl⟩ | rfl | rfl
      · rw [List.append_nil]; exact splitIndex_plain fun c hc => ⟨(hb c hc).1, (hb c hc).2.1⟩
      · exact splitIndex_sep (fun c hc => ⟨(hb c hc).1, (hb c hc).2.1⟩) hne (.inl rfl) _
      · exact splitIndex_sep (fun c hc => ⟨(hb c hc).1, (hb c hc).2.1⟩) hne (.inr rfl) _
    have hl := (variable_lookup (varName tk) tk).2 rfl
    obtain ⟨a, n', hn⟩ : ∃ a n', varName tk = a :: n' := by
      cases h : varName tk with
      | nil => exact absurd h hne
      | cons a n' => exact ⟨a, n', rfl⟩
    have ha := hb a (by rw [hn]; exact List.mem_cons_self)
    cases hm with
    | none =>
      rw [hn, List.cons_append] at hs
      rw [List.nil_append, hn, List.cons_append]
      simp only [parseVariable, ha.2.2.1, ha.2.2.2, if_false, hs, ← hn, hl]
    | excl => simp only [parseVariable, List.cons_append, List.nil_append, if_true, hs, hl]
    | count =>
      have e : parseVariable (38 :: (varName tk ++ tail)) = (match variableMap.lookup (splitIndex (varName tk ++ tail)).1 with
        | none => Except.error PErr.unknownVariable
        | some tk' => .ok ({ tk := tk', index := (splitIndex (varName tk ++ tail)).2, count := true, exclusion := false } : PVar)) := rfl
      rw [List.append_assoc, List.cons_append, List.nil_append, e, hs, hl]

theorem parseVariables_iff (ss : List Bytes) (vs : List PVar) : parseVariables ss = .ok vs ↔ Pairs VarItem ss vs := by
  induction ss generalizing vs with
  | nil =>
    simp only [parseVariables]
    constructor
    · intro h; cases h; exact .nil
    · intro h; cases h; rfl
  | cons a as ih =>
    simp only [parseVariables]
    constructor
    · intro h
      cases h1 : parseVariable a with
      | error e => rw [h1] at h; cases h
      | ok v =>
        rw [h1] at h
        simp only at h
        cases h2 : parseVariables as with
        | error e => rw [h2] at h; cases h
        | ok l =>
          rw [h2] at h
          cases h
          exact .cons ((parseVariable_iff _ _).1 h1) ((ih _).1 h2)
    · intro h
      cases h with
      | cons h1 h2 => rw [(parseVariable_iff _ _).2 h1, (ih _).2 h2]

theorem varItem_ne {s : Bytes} {v : PVar} (h : VarItem s v) : s ≠ [] := by
  obtain ⟨m, tail, rfl, _⟩ := h
  have := (varName_bytes v.tk).1
  simp [this]

theorem vars_iff (s : Bytes) (vs : List PVar) : Vars s vs ↔ parseVariables (splitAny [44, 124] s) = .ok vs := by
  rw [parseVariables_iff]; exact sepBy_iff s vs

/-! ### Operator -/

theorem opName_bytes (tk : OpTok) : ∀ c ∈ opName tk, c ≠ 32 := by cases tk <;> decide

theorem parseOperator_body (neg : Bool) (t : Bytes) (o : POp) :
    (match t with
      | [] => Except.error PErr.emptyOperator
      | c :: r =>
        if c ≠ 64 then .ok ({ tk := .rx, not := neg, arg := c :: r } : POp)
        else
          match operatorMap.lookup (r.takeWhile (· != 32)) with
          | none => .error .unknownOperator
          | some tk => .ok { tk, not := neg, arg := r.drop ((r.takeWhile (· != 32)).length + 1) }) = .ok o ↔
    (o.not = neg ∧ ((o.tk = .rx ∧ t = o.arg ∧ t ≠ [] ∧ t.head? ≠ some 64) ∨
      (t = 64 :: opName o.tk ∧ o.arg = []) ∨ t = 64 :: opName o.tk ++ 32 :: o.arg)) := by
  obtain ⟨tk, n, arg⟩ := o
  cases t with
  | nil => simp
  | cons c r =>
    by_cases hc : c = 64
    · subst hc
      simp only [ne_eq, not_true_eq_false, if_false]
      constructor
      · intro h
        cases hl : operatorMap.lookup (r.takeWhile (· != 32)) with
        | none => rw [hl] at h; cases h
        | some tk' =>
          rw [hl] at h
          have hn := (operator_lookup _ _).1 hl
          simp only [Except.ok.injEq, POp.mk.injEq] at h
          obtain ⟨rfl, rfl, rfl⟩ := h
          refine ⟨rfl, .inr ?_⟩
          rcases (takeWhile_cases (· != 32) r).2 with e | ⟨c, r', h1, h2⟩
          · refine .inl ⟨by rw [hn, e], ?_⟩
            rw [e]; simp
          · have hc : c = 32 := by simpa using h1
            subst hc
            refine .inr ?_
            have hd : r.drop ((r.takeWhile (· != 32)).length + 1) = r' := by
              conv => lhs; rw [h2]
              rw [takeWhile_sep (p := (· != 32)) (takeWhile_cases (· != 32) r).1 h1]
              simp
            rw [hd, hn, List.cons_append, ← h2]
      · rintro ⟨rfl, ⟨_, _, _, h⟩ | ⟨h, h'⟩ | h⟩
        · exact absurd rfl h
        · simp only [List.cons.injEq, true_and] at h
          subst h
          subst h'
          have e : (opName tk).takeWhile (· != 32) = opName tk  :=
            takeWhile_all fun c hc => by simpa using opName_bytes tk c hc
          rw [e, (operator_lookup _ _).2 rfl]
          simp
        · simp only [List.cons_append, List.cons.injEq, true_and] at h
          subst h
          have e : (opName tk ++ 32 :: arg).takeWhile (· != 32) = opName tk :=
            takeWhile_sep (fun c hc => by simpa using opName_bytes tk c hc) rfl arg
          rw [e, (operator_lookup _ _).2 rfl]
          simp
    · simp only [ne_eq, hc, not_false_eq_true, if_true, Except.ok.injEq, POp.mk.injEq, List.head?_cons, Option.some.injEq,
        List.cons_append, List.cons.injEq, false_and, or_false]
      constructor
      · rintro ⟨rfl, rfl, rfl⟩; simp
      · rintro ⟨rfl, rfl, rfl, _⟩; exact ⟨rfl, rfl, rfl⟩

theorem parseOperator_iff (s : Bytes) (o : POp) : parseOperator s = .ok o ↔ Oper s o := by
  cases s with
  | nil =>
    simp only [parseOperator, Oper]
    refine ⟨by simp, ?_⟩
    rintro ⟨t, h1, h2⟩
    rcases h1 with ⟨_, h⟩ | ⟨_, rfl, _⟩
    · cases h
    · rcases h2 with ⟨_, _, h, _⟩ | ⟨h, _⟩ | h
      · exact absurd rfl h
      · cases h
      · cases h
  | cons c r =>
    by_cases hc : c = 33
    · subst hc
      have := parseOperator_body true r o
      simp only [parseOperator, if_true, Oper]
      refine Iff.trans this ?_
      constructor
      · rintro ⟨h1, h2⟩; exact ⟨r, .inl ⟨h1, rfl⟩, h2⟩
      · rintro ⟨t, ⟨h1, h2⟩ | ⟨_, h2, h3⟩, h⟩
        · cases h2; exact ⟨h1, h⟩
        · subst h2; exact absurd rfl h3
    · have := parseOperator_body false (c :: r) o
      simp only [parseOperator, hc, if_false, Oper]
      refine Iff.trans this ?_
      constructor
      · rintro ⟨h1, h2⟩; exact ⟨c :: r, .inr ⟨h1, rfl, by simpa using hc⟩, h2⟩
      · rintro ⟨t, ⟨_, h2⟩ | ⟨h1, h2, h3⟩, h⟩
        · cases h2; exact absurd rfl hc
        · subst h2; exact ⟨h1, h⟩

end Verif
