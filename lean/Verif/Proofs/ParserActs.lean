import Verif.Proofs.Parser
/-! Action lists: the parser accepts exactly the grammar. -/
namespace Verif
open Spec

theorem trimQuote_iff (s t : Bytes) : trimQuote s = t ↔ Unquoted s t := by
  have quoted : ∀ (a b : UInt8) (m : Bytes), Quote a → Quote b → trimQuote (a :: m ++ [b]) = m := by
    intro a b m ha hb
    have h2 : (a :: m ++ [b]).getLast? = some b := List.getLast?_concat
    have h1 : (a :: m ++ [b]).head? = some a := rfl
    simp only [trimQuote, h1, h2, (isQuote_iff a).2 ha, (isQuote_iff b).2 hb, Bool.and_true, if_true]
    rw [if_pos (by simp)]
    simp
  have plain : (¬ ∃ a m b, Quote a ∧ Quote b ∧ s = a :: m ++ [b]) → trimQuote s = s := by
    intro h
    simp only [trimQuote]
    split
    · rename_i hl
      split
      · rename_i a b ha hb
        split
        · rename_i hq
          simp only [Bool.and_eq_true] at hq
          exfalso
          refine h ⟨a, (s.drop 1).dropLast, b, (isQuote_iff a).1 hq.1, (isQuote_iff b).1 hq.2, ?_⟩
          cases s with
          | nil => cases ha
          | cons c r =>
            simp only [List.head?_cons, Option.some.injEq] at ha
            subst ha
            have hr : r ≠ [] := by rintro rfl; simp at hl
            rw [List.getLast?_cons, Option.some.injEq, List.getLast?_eq_some_getLast hr] at hb
            simp only [Option.getD_some] at hb
            simp only [List.drop_succ_cons, List.drop_zero, List.cons_append]
            rw [← hb, List.dropLast_concat_getLast hr]
        · rfl
      · rfl
    · rfl
  constructor
  · rintro rfl
    by_cases h : ∃ a m b, Quote a ∧ Quote b ∧ s = a :: m ++ [b]
    · obtain ⟨a, m, b, ha, hb, rfl⟩ := h
      rw [quoted a b m ha hb]
      exact .inl ⟨a, b, ha, hb, rfl⟩
    · rw [plain h]; exact .inr ⟨h, rfl⟩
  · rintro (⟨a, b, ha, hb, rfl⟩ | ⟨h, rfl⟩)
    · exact quoted a b t ha hb
    · exact plain h

theorem atoi_iff (s : Bytes) (n : Int) : atoi s = some n ↔ Int64 s n := parseInt_iff s n

/-- A name with a letter in it is no number. -/
theorem int64_lookup_none {β : Type} {m : List (Bytes × β)} (hm : ∀ p ∈ m, ∃ c ∈ p.1, 57 < c.toNat) {s : Bytes} {n : Int}
    (h : Int64 s n) : m.lookup s = none := by
  cases hl : m.lookup s with
  | none => rfl
  | some b =>
    obtain ⟨c, hc, h57⟩ := hm _ (lookup_mem hl)
    have := decimal_bytes h.1 c hc
    omega

theorem phase_iff (s : Bytes) (n : Int) :
    (match phaseAlias.lookup s with
      | some p => some p
      | none => match atoi s with
        | some p => if p < 1 ∨ p > 5 then none else some p
        | none => none) = some n ↔ Phase s n := by
  constructor
  · intro h
    cases hl : phaseAlias.lookup s with
    | some p =>
      rw [hl] at h
      simp only [Option.some.injEq] at h
      subst h
      have := lookup_mem hl
      simp only [phaseAlias, List.mem_cons, List.not_mem_nil, or_false, Prod.mk.injEq] at this
      simp only [Phase]
      rcases this with ⟨rfl, rfl⟩ | ⟨rfl, rfl⟩ | ⟨rfl, rfl⟩ <;> simp
    | none =>
      rw [hl] at h
      simp only at h
      cases ha : atoi s with
      | none => rw [ha] at h; cases h
      | some p =>
        rw [ha] at h
        simp only at h
        split at h
        · cases h
        · cases h
          exact .inr (.inr (.inr ⟨(atoi_iff _ _).1 ha, by omega, by omega⟩))
  · rintro (⟨rfl, rfl⟩ | ⟨rfl, rfl⟩ | ⟨rfl, rfl⟩ | ⟨h, h1, h2⟩)
    · rfl
    · rfl
    · rfl
    · rw [int64_lookup_none (by decide) h]
      simp only [(atoi_iff _ _).2 h]
      rw [if_neg (by omega)]

theorem severity_iff (s : Bytes) (n : Int) :
    (match severityMap.lookup s with
      | some p => some p
      | none => match atoi s with
        | some p => if p ≥ 0 ∧ p ≤ 7 then some p else none
        | none => none) = some n ↔ Severity s n := by
  constructor
  · intro h
    cases hl : severityMap.lookup s with
    | some p =>
      rw [hl] at h
      simp only [Option.some.injEq] at h
      subst h
      have := lookup_mem hl
      simp only [severityMap, List.mem_cons, List.not_mem_nil, or_false, Prod.mk.injEq] at this
      simp only [Severity]
      rcases this with ⟨rfl, rfl⟩ | ⟨rfl, rfl⟩ | ⟨rfl, rfl⟩ | ⟨rfl, rfl⟩ | ⟨rfl, rfl⟩ | ⟨rfl, rfl⟩ | ⟨rfl, rfl⟩ | ⟨rfl, rfl⟩ <;> simp
    | none =>
      rw [hl] at h
      simp only at h
      cases ha : atoi s with
      | none => rw [ha] at h; cases h
      | some p =>
        rw [ha] at h
        simp only at h
        split at h
        · rename_i hp
          cases h
          exact .inr (.inr (.inr (.inr (.inr (.inr (.inr (.inr ⟨(atoi_iff _ _).1 ha, hp.1, hp.2⟩)))))))
        · cases h
  · rintro (⟨rfl, rfl⟩ | ⟨rfl, rfl⟩ | ⟨rfl, rfl⟩ | ⟨rfl, rfl⟩ | ⟨rfl, rfl⟩ | ⟨rfl, rfl⟩ | ⟨rfl, rfl⟩ | ⟨rfl, rfl⟩ | ⟨h, h1, h2⟩)
    iterate 8 rfl
    rw [int64_lookup_none (by decide) h]
    simp only [(atoi_iff _ _).2 h]
    rw [if_pos ⟨by omega, by omega⟩]

theorem actName_bytes (tk : ActTok) : actName tk ≠ [] ∧ ∀ c ∈ actName tk, 97 ≤ c.toNat ∧ c.toNat ≤ 122 := by
  cases tk <;> decide

theorem actName_trim {l r : Bytes} (hl : Blank l) (hr : Blank r) (tk : ActTok) : trimSpace (l ++ actName tk ++ r) = actName tk := by
  have hb := (actName_bytes tk).2
  refine trimSpace_blank hl hr ?_ ?_
  · intro b h; have := hb b h; omega
  · intro b h
    have := hb b h
    refine Bool.eq_false_iff.2 fun hs => ?_
    have := (isSpace_iff _).1 hs
    simp only [whiteSpace, List.mem_cons, List.not_mem_nil, or_false] at this
    omega

theorem parseAction_iff (s : Bytes) (tk : ActTok) (arg : Bytes) : parseAction s = .ok (tk, arg) ↔
    ∃ l r tail, s = l ++ actName tk ++ r ++ tail ∧ Blank l ∧ Blank r ∧ ((tail = [] ∧ arg = []) ∨ tail = 58 :: arg) := by
  constructor
  · intro h
    simp only [parseAction] at h
    cases hl : actionTokMap.lookup (trimSpace (s.takeWhile (· != 58))) with
    | none => rw [hl] at h; cases h
    | some tk' =>
      rw [hl] at h
      simp only [Except.ok.injEq, Prod.mk.injEq] at h
      obtain ⟨rfl, rfl⟩ := h
      have hn := (action_lookup _ _).1 hl
      obtain ⟨l, r, e, h1, h2⟩ := trimSpace_split (s.takeWhile (· != 58))
      rw [← hn] at e
      rcases (takeWhile_cases (· != 58) s).2 with e2 | ⟨c, t, hc, e2⟩
      · refine ⟨l, r, [], ?_, h1, h2, .inl ⟨rfl, ?_⟩⟩
        · rw [List.append_nil, ← e, e2]
        · rw [e2]; simp
      · have hc' : c = 58 := by simpa using hc
        subst hc'
        have hd : s.drop ((s.takeWhile (· != 58)).length + 1) = t := by
          conv => lhs; rw [e2]
          rw [takeWhile_sep (p := (· != 58)) (takeWhile_cases (· != 58) s).1 hc]
          simp
        refine ⟨l, r, 58 :: t, ?_, h1, h2, .inr ?_⟩
        · rw [← e]; exact e2
        · rw [hd]
  · rintro ⟨l, r, tail, rfl, hl, hr, ht⟩
    have h58 : ∀ c ∈ l ++ actName tk ++ r, (c != 58) = true := by
      intro c hc
      simp only [List.mem_append] at hc
      simp only [bne_iff_ne, ne_eq]
      rintro rfl
      rcases hc with (hc | hc) | hc
      · exact Blank.not_mem hl (by decide) (by decide) hc
      · have := (actName_bytes tk).2 _ hc; revert this; decide
      · exact Blank.not_mem hr (by decide) (by decide) hc
    have hlk := (action_lookup (actName tk) tk).2 rfl
    rcases ht with ⟨rfl, rfl⟩ | rfl
    · simp only [parseAction]
      rw [List.append_nil, takeWhile_all h58, actName_trim hl hr, hlk]
      simp
    · simp only [parseAction]
      rw [takeWhile_sep h58 rfl, actName_trim hl hr, hlk, ← List.drop_drop, List.drop_left]
      simp

/-- The effect of one checked action. -/
def addItem (a : PActs) : Item → PActs
  | .id n => { a with id := n }
  | .phase n => { a with phase := n }
  | .trans t => { a with trans := a.trans ++ [t] }
  | .chain => { a with chain := true }
  | .act x => { a with action := a.action ++ [x] }

theorem processAction_iff (a a' : PActs) (s : Bytes) : processAction a s = .ok a' ↔ ∃ i, ActItem s i ∧ a' = addItem a i := by
  have step : ∀ tk arg, (match tk with
      | ActTok.id =>
        match atoi (trimQuote arg) with
        | some n => (Except.ok { a with id := n } : Except PErr PActs)
        | none => .error PErr.badId
      | .severity =>
        match severityMap.lookup (trimQuote arg) with
        | some n => .ok { a with action := a.action ++ [(⟨.severity, itoa n⟩ : PAct)] }
        | none =>
          match atoi (trimQuote arg) with
          | some n =>
            if n ≥ 0 ∧ n ≤ 7 then .ok { a with action := a.action ++ [(⟨.severity, itoa n⟩ : PAct)] }
            else .error .badSeverity
          | none => .error .badSeverity
      | .t =>
        match transformationMap.lookup (trimQuote arg) with
        | some tt => .ok { a with trans := a.trans ++ [tt] }
        | none => .error .badTrans
      | .phase =>
        match phaseAlias.lookup (trimQuote arg) with
        | some p => .ok { a with phase := p }
        | none =>
          match atoi (trimQuote arg) with
          | some p => if p < 1 ∨ p > 5 then .error .badPhase else .ok { a with phase := p }
          | none => .error .badPhase
      | .chain => .ok { a with chain := true }
      | tk => .ok { a with action := a.action ++ [(⟨tk, arg⟩ : PAct)] }) = .ok a' ↔ ∃ i, Means tk arg i ∧ a' = addItem a i := by
    intro tk arg
    have hu : Unquoted arg (trimQuote arg) := (trimQuote_iff _ _).1 rfl
    have uniq : ∀ {u}, Unquoted arg u → u = trimQuote arg := fun h => ((trimQuote_iff _ _).2 h).symm
    have other : ∀ tk : ActTok, tk ≠ .id → tk ≠ .phase → tk ≠ .severity → tk ≠ .t → tk ≠ .chain →
        (Except.ok (ε := PErr) { a with action := a.action ++ [(⟨tk, arg⟩ : PAct)] } = .ok a' ↔ ∃ i, Means tk arg i ∧ a' = addItem a i) := by
      intro tk h1 h2 h3 h4 h5
      constructor
      · intro h; cases h; exact ⟨_, .other h1 h2 h3 h4 h5, rfl⟩
      · rintro ⟨i, hi, rfl⟩
        cases hi <;> first | rfl | contradiction
    cases tk
    case id =>
      constructor
      · intro h
        cases ha : atoi (trimQuote arg) with
        | none => simp [ha] at h
        | some n =>
          simp only [ha, Except.ok.injEq] at h
          exact ⟨.id n, .id hu ((atoi_iff _ _).1 ha), h.symm⟩
      · rintro ⟨i, hi, rfl⟩
        cases hi with
        | id h1 h2 =>
          rw [uniq h1] at h2
          simp only [(atoi_iff _ _).2 h2]; rfl
        | other h => exact absurd rfl h
    case phase =>
      constructor
      · intro h
        have hp := phase_iff (trimQuote arg)
        simp only at h
        cases hl : phaseAlias.lookup (trimQuote arg) with
        | some p =>
          simp only [hl] at h hp
          cases h
          exact ⟨.phase p, .phase hu ((hp p).1 rfl), rfl⟩
        | none =>
          simp only [hl] at h hp
          cases ha : atoi (trimQuote arg) with
          | none => simp [ha] at h
          | some p =>
            simp only [ha] at h hp
            split at h
            · cases h
            · rename_i hr
              cases h
              rw [if_neg hr] at hp
              exact ⟨.phase p, .phase hu ((hp p).1 rfl), rfl⟩
      · rintro ⟨i, hi, rfl⟩
        cases hi with
        | @phase _ u n h1 h2 =>
          rw [uniq h1] at h2
          have hp := (phase_iff _ _).2 h2
          simp only
          cases hl : phaseAlias.lookup (trimQuote arg) with
          | some p => simp only [hl, Option.some.injEq] at hp; subst hp; rfl
          | none =>
            simp only [hl] at hp
            cases ha : atoi (trimQuote arg) with
            | none => simp [ha] at hp
            | some p =>
              simp only [ha] at hp
              split at hp
              · cases hp
              · rename_i hr
                cases hp
                simp only [if_neg hr]; rfl
        | other _ h => exact absurd rfl h
    case severity =>
      constructor
      · intro h
        have hp := severity_iff (trimQuote arg)
        simp only at h
        cases hl : severityMap.lookup (trimQuote arg) with
        | some p =>
          simp only [hl] at h hp
          cases h
          exact ⟨_, .severity hu ((hp p).1 rfl), rfl⟩
        | none =>
          simp only [hl] at h hp
          cases ha : atoi (trimQuote arg) with
          | none => simp [ha] at h
          | some p =>
            simp only [ha] at h hp
            split at h
            · rename_i hr
              cases h
              rw [if_pos hr] at hp
              exact ⟨_, .severity hu ((hp p).1 rfl), rfl⟩
            · cases h
      · rintro ⟨i, hi, rfl⟩
        cases hi with
        | @severity _ u n h1 h2 =>
          rw [uniq h1] at h2
          have hp := (severity_iff _ _).2 h2
          simp only
          cases hl : severityMap.lookup (trimQuote arg) with
          | some p => simp only [hl, Option.some.injEq] at hp; subst hp; rfl
          | none =>
            simp only [hl] at hp
            cases ha : atoi (trimQuote arg) with
            | none => simp [ha] at hp
            | some p =>
              simp only [ha] at hp
              split at hp
              · rename_i hr
                cases hp
                simp only [if_pos hr]; rfl
              · cases hp
        | other _ _ h => exact absurd rfl h
    case t =>
      constructor
      · intro h
        cases hl : transformationMap.lookup (trimQuote arg) with
        | none => simp [hl] at h
        | some tt =>
          simp only [hl, Except.ok.injEq] at h
          have := (trans_lookup _ _).1 hl
          exact ⟨.trans tt, .trans (by rw [this]; exact hu), h.symm⟩
      · rintro ⟨i, hi, rfl⟩
        cases hi with
        | trans h1 =>
          simp only [(trans_lookup _ _).2 (uniq h1)]; rfl
        | other _ _ _ h => exact absurd rfl h
    case chain =>
      constructor
      · intro h; cases h; exact ⟨.chain, .chain, rfl⟩
      · rintro ⟨i, hi, rfl⟩
        cases hi with
        | chain => rfl
        | other _ _ _ _ h => exact absurd rfl h
    case allow => exact other .allow (by decide) (by decide) (by decide) (by decide) (by decide)
    case msg => exact other .msg (by decide) (by decide) (by decide) (by decide) (by decide)
    case tag => exact other .tag (by decide) (by decide) (by decide) (by decide) (by decide)
    case rev => exact other .rev (by decide) (by decide) (by decide) (by decide) (by decide)
    case log => exact other .log (by decide) (by decide) (by decide) (by decide) (by decide)
    case deny => exact other .deny (by decide) (by decide) (by decide) (by decide) (by decide)
    case block => exact other .block (by decide) (by decide) (by decide) (by decide) (by decide)
    case status => exact other .status (by decide) (by decide) (by decide) (by decide) (by decide)
    case skip => exact other .skip (by decide) (by decide) (by decide) (by decide) (by decide)
    case ver => exact other .ver (by decide) (by decide) (by decide) (by decide) (by decide)
    case logdata => exact other .logdata (by decide) (by decide) (by decide) (by decide) (by decide)
    case setvar => exact other .setvar (by decide) (by decide) (by decide) (by decide) (by decide)
    case capture => exact other .capture (by decide) (by decide) (by decide) (by decide) (by decide)
    case pass => exact other .pass (by decide) (by decide) (by decide) (by decide) (by decide)
  constructor
  · intro h
    simp only [processAction] at h
    cases hp : parseAction s with
    | error e => rw [hp] at h; cases h
    | ok p =>
      obtain ⟨tk, arg⟩ := p
      rw [hp] at h
      obtain ⟨i, hi, rfl⟩ := (step tk arg).1 h
      obtain ⟨l, r, tail, e, h1, h2, h3⟩ := (parseAction_iff _ _ _).1 hp
      exact ⟨i, ⟨l, tk, r, tail, arg, e, h1, h2, h3, hi⟩, rfl⟩
  · rintro ⟨i, ⟨l, tk, r, tail, arg, e, h1, h2, h3, hi⟩, ha⟩
    have hp := (parseAction_iff s tk arg).2 ⟨l, r, tail, e, h1, h2, h3⟩
    simp only [processAction, hp]
    exact (step tk arg).2 ⟨i, hi, ha⟩

theorem processActions_iff (ss : List Bytes) (a a' : PActs) : processActions a ss = .ok a' ↔
    ∃ is, Pairs ActItem ss is ∧ a' = is.foldl addItem a := by
  induction ss generalizing a with
  | nil =>
    simp only [processActions]
    constructor
    · intro h; cases h; exact ⟨[], .nil, rfl⟩
    · rintro ⟨is, h, rfl⟩; cases h; rfl
  | cons s ss ih =>
    simp only [processActions]
    constructor
    · intro h
      cases hp : processAction a s with
      | error e => rw [hp] at h; cases h
      | ok a1 =>
        rw [hp] at h
        obtain ⟨i, hi, rfl⟩ := (processAction_iff _ _ _).1 hp
        obtain ⟨is, h1, h2⟩ := (ih _).1 h
        exact ⟨i :: is, .cons hi h1, h2⟩
    · rintro ⟨is, h, rfl⟩
      cases h with
      | @cons _ i _ is h1 h2 =>
        rw [(processAction_iff _ _ _).2 ⟨i, h1, rfl⟩]
        exact (ih _).2 ⟨is, h2, rfl⟩

theorem lastOr_cons (d : Int) (n : Int) (l : List Int) : (n :: l).getLast?.getD d = l.getLast?.getD n := by
  cases l with
  | nil => rfl
  | cons m l => rw [List.getLast?_cons_cons, List.getLast?_cons]; rfl

theorem foldl_addItem (is : List Item) : ∀ a, is.foldl addItem a =
    { id := (is.filterMap Item.id?).getLast?.getD a.id, phase := (is.filterMap Item.phase?).getLast?.getD a.phase,
      chain := a.chain || is.any Item.chain?, trans := a.trans ++ is.filterMap Item.trans?,
      action := a.action ++ is.filterMap Item.act? } := by
  induction is with
  | nil => intro a; simp
  | cons i is ih =>
    intro a
    rw [List.foldl_cons, ih]
    cases i <;> simp [List.filterMap_cons, addItem, Item.id?, Item.phase?, Item.chain?, Item.trans?, Item.act?, lastOr_cons]

theorem foldl_summary (is : List Item) : is.foldl addItem {} = summary is := by
  rw [foldl_addItem]; simp [summary, lastOr0]

theorem trimSpace_is_trimmed (s : Bytes) : Trimmed (trimSpace s) := by
  obtain ⟨l, r, e, hl, hr⟩ := trimSpace_split s
  have idem : trimSpace (trimSpace s) = trimSpace s := by
    conv => rhs; rw [e]
    rw [trimSpace_blank_right hr, trimSpace_blank_left hl]
  have len : ∀ u : Bytes, (trimSpace u).length ≤ u.length := by
    intro u
    obtain ⟨l', r', e', _⟩ := trimSpace_split u
    have := congrArg List.length e'
    simp only [List.length_append] at this
    omega
  intro w u hw h
  have hlen : (trimSpace s).length = w.length + u.length := by
    rcases h with h | h <;> (rw [h]; simp only [List.length_append]; try omega)
  have : trimSpace (trimSpace s) = trimSpace u := by
    rcases h with h | h
    · rw [h]; exact trimSpace_blank_left hw u
    · rw [h]; exact trimSpace_blank_right hw u
  rw [idem] at this
  have := congrArg List.length this
  have := len u
  cases w with
  | nil => rfl
  | cons a w => simp only [List.length_cons] at *; omega

theorem parseActions_iff (s : Bytes) (a : PActs) : parseActions s = .ok a ↔ Acts s a := by
  simp only [parseActions]
  constructor
  · intro h
    split at h
    · cases h
    · rename_i hne
      obtain ⟨is, h1, h2⟩ := (processActions_iff _ _ _).1 h
      obtain ⟨l, r, e, hl, hr⟩ := trimSpace_split s
      refine ⟨l, trimSpace s, r, is, e, hl, hr, trimSpace_is_trimmed s, ?_, ?_, by rw [h2, foldl_summary]⟩
      · intro h0; rw [h0] at hne; exact hne rfl
      · rw [sepBy_iff, ← splitByte_any]; exact h1
  · rintro ⟨l, core, r, is, rfl, hl, hr, ht, hne, hs, rfl⟩
    rw [trimSpace_of_trimmed hl hr ht, if_neg (by simpa using hne)]
    rw [sepBy_iff, ← splitByte_any] at hs
    exact (processActions_iff _ _ _).2 ⟨is, hs, (foldl_summary is).symm⟩

end Verif
