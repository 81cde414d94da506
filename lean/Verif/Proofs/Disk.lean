import Verif.Spec.Disk
/-! What looking up and making directories comes to. -/
namespace Verif
open Spec

theorem Disk.walk_ok {d : Disk} {e : Inode} : ∀ {rest here : DirPath}, d.walk here rest = .ok e ↔
    d.at_ (here ++ rest) = some e ∧ (∀ q, q <+: rest → q ≠ rest → ∃ w, d.at_ (here ++ q) = some (.dir true w)) ∧ ∀ n ∈ rest, d.refused n = false := by
  intro rest
  induction rest with
  | nil =>
    intro here
    simp only [Disk.walk, List.append_nil]
    cases h : d.at_ here with
    | none => simp
    | some e' =>
      constructor
      · intro h'
        cases h'
        exact ⟨rfl, fun q hq hne => absurd (List.prefix_nil.1 hq) hne, by simp⟩
      · rintro ⟨h', -, -⟩
        cases h'
        rfl
  | cons n rest ih =>
    intro here
    simp only [Disk.walk]
    constructor
    · intro h
      split at h
      · cases h
      · cases h
      · rename_i s w hd
        split at h
        · cases h
        · rename_i hs
          split at h
          · cases h
          · rename_i hn
            obtain ⟨h1, h2, h3⟩ := ih.1 h
            refine ⟨by simpa using h1, fun q hq hne => ?_, ?_⟩
            · cases q with
              | nil =>
                refine ⟨w, ?_⟩
                rw [List.append_nil, hd]
                cases s <;> simp_all
              | cons m q =>
                rw [List.cons_prefix_cons] at hq
                obtain ⟨rfl, hq⟩ := hq
                obtain ⟨w', h'⟩ := h2 q hq (fun e => hne (by rw [e]))
                exact ⟨w', by simpa using h'⟩
            · intro m hm
              rcases List.mem_cons.1 hm with rfl | hm
              · simpa using hn
              · exact h3 m hm
    · rintro ⟨h1, h2, h3⟩
      obtain ⟨w, hw⟩ := h2 [] (List.nil_prefix) (by simp)
      rw [List.append_nil] at hw
      have hn := h3 n (by simp)
      simp only [hw, hn, Bool.not_true, Bool.false_eq_true, if_false]
      refine ih.2 ⟨by simpa using h1, fun q hq hne => ?_, fun m hm => h3 m (by simp [hm])⟩
      obtain ⟨w', h'⟩ := h2 (n :: q) (List.cons_prefix_cons.2 ⟨rfl, hq⟩) (by simpa using hne)
      exact ⟨w', by simpa using h'⟩

/-- `os.Stat` finds what is there. -/
theorem Disk.stat_ok {d : Disk} {p : DirPath} {e : Inode} : d.stat p = .ok e ↔ There d p e := by
  rw [Disk.stat, Disk.walk_ok]
  simp only [List.nil_append]
  exact ⟨fun ⟨a, b, c⟩ => ⟨a, b, c⟩, fun h => ⟨h.is, h.way, h.names⟩⟩

theorem Disk.walk_notExist {d : Disk} {r : DirPath} {n : Bytes} : ∀ {q here : DirPath}, (∀ m ∈ q ++ n :: r, d.refused m = false) →
    (∀ q', q' <+: q → ∃ w, d.at_ (here ++ q') = some (.dir true w)) → d.at_ (here ++ q ++ [n]) = none →
    d.walk here (q ++ n :: r) = .error .notExist := by
  intro q
  induction q with
  | nil =>
    intro here hn ho ha
    obtain ⟨w, hw⟩ := ho [] (List.nil_prefix)
    rw [List.append_nil] at hw ha
    have h1 := hn n (by simp)
    simp only [List.nil_append, Disk.walk, hw, h1, Bool.not_true, Bool.false_eq_true, if_false]
    cases r with
    | nil => simp only [Disk.walk, ha]
    | cons m r => simp only [Disk.walk, ha]
  | cons m q ih =>
    intro here hn ho ha
    obtain ⟨w, hw⟩ := ho [] (List.nil_prefix)
    rw [List.append_nil] at hw
    have h1 := hn m (by simp)
    simp only [List.cons_append, Disk.walk, hw, h1, Bool.not_true, Bool.false_eq_true, if_false]
    refine ih (fun k hk => hn k (by simp only [List.cons_append, List.mem_cons]; exact .inr hk)) (fun q' hq' => ?_) (by simpa using ha)
    obtain ⟨w', h'⟩ := ho (m :: q') (List.cons_prefix_cons.2 ⟨rfl, hq'⟩)
    exact ⟨w', by simpa using h'⟩

/-- What can be made is not there. -/
theorem Spec.Makeable.stat {d : Disk} {p : DirPath} (h : Makeable d p) : d.stat p = .error .notExist := by
  obtain ⟨hn, q, n, r, rfl, ho, _, ha⟩ := h
  exact Disk.walk_notExist (here := []) hn (by simpa [Open] using ho) (by simpa using ha)

theorem Spec.There.open_ {d : Disk} {p : DirPath} {w : Bool} (h : There d p (.dir true w)) : Open d p := by
  intro q hq
  by_cases he : q = p
  · subst he; exact ⟨w, h.is⟩
  · exact h.way q hq he

theorem Spec.Tree.above {d : Disk} (ht : Tree d) {p : DirPath} (h : d.at_ p = none) : ∀ r, d.at_ (p ++ r) = none := by
  intro r
  induction hr : r.length generalizing r with
  | zero => rw [List.length_eq_zero_iff.1 hr, List.append_nil]; exact h
  | succ k ih =>
    obtain ⟨r', n, rfl⟩ : ∃ r' n, r = r' ++ [n] := by
      rcases List.eq_nil_or_concat r with rfl | ⟨r', n, e⟩
      · simp at hr
      · exact ⟨r', n, by simpa using e⟩
    have hk := ih r' (by simpa using hr)
    cases hq : d.at_ (p ++ (r' ++ [n])) with
    | none => rfl
    | some e =>
      rw [← List.append_assoc] at hq
      obtain ⟨s, w, h'⟩ := ht.parent _ _ _ hq
      rw [hk] at h'
      cases h'

theorem Spec.filled_at {d : Disk} {p q : DirPath} : (filled d p).at_ q = if q <+: p ∧ d.at_ q = none then some (.dir true true) else d.at_ q := by
  simp only [filled, Bool.and_eq_true, List.isPrefixOf_iff_prefix, Option.isNone_iff_eq_none]

theorem Spec.filled_refused {d : Disk} {p : DirPath} : (filled d p).refused = d.refused := rfl

/-- Once filled, it is there. -/
theorem Spec.Makeable.usable {d : Disk} (ht : Tree d) {p : DirPath} (h : Makeable d p) : Usable (filled d p) p := by
  obtain ⟨hn, q, n, r, rfl, ho, hw, ha⟩ := h
  have e : ∀ q', q' <+: q ++ n :: r → (∃ w, d.at_ q' = some (.dir true w)) ∨ d.at_ q' = none := by
    intro q' hq'
    rcases Nat.lt_or_ge q.length q'.length with hl | hl
    · right
      obtain ⟨s, hs⟩ := hq'
      have hp : q ++ [n] <+: q' := by
        refine List.prefix_of_prefix_length_le (l₃ := q ++ n :: r) ⟨r, by simp⟩ ⟨s, hs⟩ (by simp; omega)
      obtain ⟨r', rfl⟩ := hp
      exact ht.above ha r'
    · left
      exact ho q' (List.prefix_of_prefix_length_le hq' ⟨n :: r, rfl⟩ hl)
  refine ⟨?_, ?_, fun m hm => hn m hm⟩
  · have : d.at_ (q ++ n :: r) = none := by
      have := ht.above ha r
      simpa using this
    rw [filled_at, if_pos ⟨List.prefix_refl _, this⟩]
  · intro q' hq' _
    rcases e q' hq' with ⟨w, h'⟩ | h'
    · exact ⟨w, by rw [filled_at, if_neg (by simp [h']), h']⟩
    · exact ⟨true, by rw [filled_at, if_pos ⟨hq', h'⟩]⟩

/-- A disk that has everything on the way is left alone. -/
theorem Spec.filled_self {d : Disk} {p : DirPath} (h : ∀ q, q <+: p → d.at_ q ≠ none) : filled d p = d := by
  have : (filled d p).at_ = d.at_ := by
    funext q
    rw [filled_at]
    split
    · rename_i hq; exact absurd hq.2 (h q hq.1)
    · rfl
  show ({ d with at_ := (filled d p).at_ } : Disk) = d
  rw [this]

theorem Spec.filled_put {d : Disk} {p : DirPath} {n : Bytes} (h : d.at_ (p ++ [n]) = none) :
    (filled d p).put (p ++ [n]) (.dir true true) = filled d (p ++ [n]) := by
  have e : ((filled d p).put (p ++ [n]) (.dir true true)).at_ = (filled d (p ++ [n])).at_ := by
    funext q
    show (if q = p ++ [n] then _ else (filled d p).at_ q) = _
    rw [filled_at, filled_at]
    by_cases hq : q = p ++ [n]
    · subst hq
      rw [if_pos rfl, if_pos ⟨List.prefix_refl _, h⟩]
    · rw [if_neg hq]
      have : q <+: p ++ [n] ↔ q <+: p := by
        rw [List.prefix_concat_iff]
        exact ⟨fun h => h.resolve_left hq, .inr⟩
      simp only [this]
  show ({ d with at_ := ((filled d p).put (p ++ [n]) (.dir true true)).at_ } : Disk) = { d with at_ := (filled d (p ++ [n])).at_ }
  rw [e]

theorem Disk.mkdirAll_concat (d : Disk) (p : DirPath) (n : Bytes) : d.mkdirAll (p ++ [n]) =
    match d.stat (p ++ [n]) with
    | .ok (.dir _ _) => (d, none)
    | .ok .file => (d, some .notDir)
    | .error _ => match d.mkdirAll p with
      | (d, some e) => (d, some e)
      | (d, none) => d.mkdir p n := by
  rw [Disk.mkdirAll]
  split <;> rename_i h <;> simp only [h]
  split
  · rename_i h'; simp at h'
  · rename_i h'
    simp only [List.getLast?_append, List.getLast?_singleton, Option.some_or, Option.some.injEq] at h'
    subst h'
    simp only [List.dropLast_concat]
    rcases d.mkdirAll p with ⟨_, _ | _⟩ <;> rfl

/-- `os.MkdirAll` succeeds exactly if the directory is there or can be made, and makes
what is missing. -/
theorem Disk.mkdirAll_ok {d : Disk} (ht : Tree d) : ∀ {p : DirPath} {d' : Disk}, d.mkdirAll p = (d', none) ↔
    ((∃ s w, There d p (.dir s w)) ∧ d' = d) ∨ (Makeable d p ∧ d' = filled d p) := by
  intro p
  induction hl : p.length generalizing p with
  | zero =>
    intro d'
    obtain rfl := List.length_eq_zero_iff.1 hl
    obtain ⟨s, w, hr⟩ := ht.root
    have hs : d.stat [] = .ok (.dir s w) := by simp only [Disk.stat, Disk.walk, hr]
    rw [Disk.mkdirAll]
    simp only [hs]
    constructor
    · intro h; cases h; exact .inl ⟨⟨s, w, Disk.stat_ok.1 hs⟩, rfl⟩
    · rintro (⟨-, rfl⟩ | ⟨h, -⟩)
      · rfl
      · have := h.stat; rw [hs] at this; cases this
  | succ k ih =>
    intro d'
    obtain ⟨p, n, rfl⟩ : ∃ r' n, p = r' ++ [n] := by
      rcases List.eq_nil_or_concat p with rfl | ⟨r', n, e⟩
      · simp at hl
      · exact ⟨r', n, by simpa using e⟩
    have ih : ∀ {d'}, d.mkdirAll p = (d', none) ↔ _ := @ih p (by simpa using hl)
    rw [Disk.mkdirAll_concat]
    cases hs : d.stat (p ++ [n]) with
    | ok e =>
      have hm : ¬ Makeable d (p ++ [n]) := by
        intro h; have := h.stat; rw [hs] at this; cases this
      have he := Disk.stat_ok.1 hs
      cases e with
      | dir s w =>
        simp only [hm, false_and, or_false]
        exact ⟨fun h => by cases h; exact ⟨⟨s, w, he⟩, rfl⟩, by rintro ⟨-, rfl⟩; rfl⟩
      | file =>
        simp only [hm, false_and, or_false]
        constructor
        · intro h; cases h
        · rintro ⟨⟨s, w, h⟩, -⟩
          have := h.is
          rw [he.is] at this
          cases this
    | error x =>
      have hno : ¬ ∃ s w, There d (p ++ [n]) (.dir s w) := by
        rintro ⟨s, w, h⟩
        rw [Disk.stat_ok.2 h] at hs
        cases hs
      simp only [hno, false_and, false_or]
      rcases hm : d.mkdirAll p with ⟨d1, _ | e1⟩
      · simp only
        rcases ih.1 hm with ⟨⟨s, w, h1⟩, rfl⟩ | ⟨h1, rfl⟩
        · -- the parent is there
          have hst := Disk.stat_ok.2 h1
          simp only [Disk.mkdir, hst]
          have key : Makeable d1 (p ++ [n]) ↔ s = true ∧ d1.refused n = false ∧ w = true := by
            constructor
            · rintro ⟨hn, q, m, r, hp, ho, hw, ha⟩
              have hqp : q = p := by
                rcases List.eq_nil_or_concat r with rfl | ⟨r', m', rfl⟩
                · exact (List.append_inj' hp rfl).1.symm
                · exfalso
                  have hp' : p = q ++ m :: r' := by
                    have : p ++ [n] = (q ++ m :: r') ++ [m'] := by rw [hp]; simp
                    exact (List.append_inj' this rfl).1
                  subst hp'
                  have h2 : d1.at_ (q ++ [m]) ≠ none := by
                    by_cases he : q ++ [m] = q ++ m :: r'
                    · rw [he, h1.is]; simp
                    · obtain ⟨w', h'⟩ := h1.way (q ++ [m]) ⟨r', by simp⟩ he
                      rw [h']; simp
                  exact h2 ha
              subst hqp
              have := h1.is
              rw [hw] at this
              cases this
              exact ⟨rfl, hn n (by simp), rfl⟩
            · rintro ⟨rfl, hn, rfl⟩
              refine ⟨?_, p, n, [], rfl, h1.open_, h1.is, ?_⟩
              · intro m hm
                rcases List.mem_append.1 hm with hm | hm
                · exact h1.names m hm
                · rw [List.mem_singleton.1 hm]; exact hn
              · cases ha : d1.at_ (p ++ [n]) with
                | none => rfl
                | some e =>
                  exfalso
                  have : There d1 (p ++ [n]) e := by
                    refine ⟨ha, fun q hq hne => ?_, ?_⟩
                    · rw [List.prefix_concat_iff] at hq
                      exact h1.open_ q (hq.resolve_left hne)
                    · intro m hm
                      rcases List.mem_append.1 hm with hm | hm
                      · exact h1.names m hm
                      · rw [List.mem_singleton.1 hm]; exact hn
                  rw [Disk.stat_ok.2 this] at hs
                  cases hs
          by_cases hk : s = true ∧ d1.refused n = false ∧ w = true
          · have hmk := key.2 hk
            obtain ⟨rfl, hn, rfl⟩ := hk
            have hfill : filled d1 p = d1 := Spec.filled_self (fun q hq => by obtain ⟨w', h'⟩ := h1.open_ q hq; rw [h']; simp)
            have hnone : d1.at_ (p ++ [n]) = none := by
              obtain ⟨-, q, m, r, hp, -, -, ha⟩ := hmk
              have := ht.above ha r
              rw [hp]
              simpa using this
            have hput := Spec.filled_put hnone
            rw [hfill] at hput
            simp only [hn, Bool.not_true, Bool.false_eq_true, if_false, hmk, true_and, hput]
            exact ⟨fun h => by cases h; rfl, fun h => by rw [h]⟩
          · have hmk : ¬ Makeable d1 (p ++ [n]) := fun h => hk (key.1 h)
            simp only [hmk, false_and, iff_false]
            intro h
            apply hk
            split at h
            · cases h
            · split at h
              · cases h
              · split at h
                · cases h
                · refine ⟨?_, ?_, ?_⟩ <;> simp_all
        · -- the parent has been made
          have hu := h1.usable ht
          have hst := Disk.stat_ok.2 hu
          simp only [Disk.mkdir, hst, Bool.not_true, Bool.false_eq_true, if_false, Spec.filled_refused]
          obtain ⟨hn, q, m, r, rfl, ho, hw, ha⟩ := h1
          have hnone : d.at_ (q ++ m :: r ++ [n]) = none := by
            have := ht.above ha (r ++ [n])
            simpa using this
          cases hr : d.refused n with
          | true =>
            simp only [if_true]
            constructor
            · intro h; cases h
            · rintro ⟨⟨h, -⟩, -⟩
              have := h n (by simp)
              rw [hr] at this
              cases this
          | false =>
            rw [Spec.filled_put hnone]
            simp only [Bool.false_eq_true, if_false]
            constructor
            · intro h
              cases h
              refine ⟨⟨?_, q, m, r ++ [n], by simp, ho, hw, ha⟩, rfl⟩
              intro m' hm'
              rcases List.mem_append.1 hm' with hm' | hm'
              · exact hn m' hm'
              · rw [List.mem_singleton.1 hm']; exact hr
            · rintro ⟨-, rfl⟩; rfl
      · -- the parent cannot be made
        have hf : ¬ Makeable d (p ++ [n]) := by
          rintro ⟨hn, q, m, r, hp, ho, hw, ha⟩
          have hbad : ∀ d', d.mkdirAll p ≠ (d', none) := by intro d' h; rw [hm] at h; cases h
          rcases List.eq_nil_or_concat r with rfl | ⟨r', m', rfl⟩
          · obtain ⟨rfl, -⟩ := List.append_inj' (hp.trans (by simp) : p ++ [n] = q ++ [m]) rfl
            exact hbad _ (ih.2 (.inl ⟨⟨true, true, hw, fun q hq _ => ho q hq, fun m hm => hn m (by simp [hm])⟩, rfl⟩))
          · have hp' : p = q ++ m :: r' := by
              have : p ++ [n] = (q ++ m :: r') ++ [m'] := by rw [hp]; simp
              exact (List.append_inj' this rfl).1
            exact hbad _ (ih.2 (.inr ⟨⟨fun m hm => hn m (by simp [hm]), q, m, r', hp', ho, hw, ha⟩, rfl⟩))
        simp only [hf, false_and, iff_false]
        intro h
        cases h

/-- What can be made up to a name that is refused stays when that name is refused. -/
theorem Disk.mkdirAll_stuck {d : Disk} (ht : Tree d) {p1 : DirPath} {n : Bytes} (hn : d.refused n = true) (h1 : Makeable d p1) :
    ∀ p2, ∃ e, d.mkdirAll (p1 ++ n :: p2) = (filled d p1, some e) := by
  intro p2
  have hstat : ∀ p2 e, d.stat (p1 ++ n :: p2) ≠ .ok e := by
    intro p2 e h
    have := (Disk.stat_ok.1 h).names n (by simp)
    rw [hn] at this
    cases this
  induction hl : p2.length generalizing p2 with
  | zero =>
    obtain rfl := List.length_eq_zero_iff.1 hl
    rw [Disk.mkdirAll_concat]
    cases hs : d.stat (p1 ++ [n]) with
    | ok e => exact absurd hs (hstat [] e)
    | error x =>
      simp only [(Disk.mkdirAll_ok ht).2 (.inr ⟨h1, rfl⟩), Disk.mkdir, Disk.stat_ok.2 (h1.usable ht), Bool.not_true, Bool.false_eq_true, if_false,
        Spec.filled_refused, hn, if_true]
      exact ⟨_, rfl⟩
  | succ k ih =>
    obtain ⟨p2, m, rfl⟩ : ∃ r' n, p2 = r' ++ [n] := by
      rcases List.eq_nil_or_concat p2 with rfl | ⟨r', n, e⟩
      · simp at hl
      · exact ⟨r', n, by simpa using e⟩
    obtain ⟨e, he⟩ := ih p2 (by simpa using hl)
    have ea : p1 ++ n :: (p2 ++ [m]) = (p1 ++ n :: p2) ++ [m] := by simp
    rw [ea, Disk.mkdirAll_concat, ← ea]
    cases hs : d.stat (p1 ++ n :: (p2 ++ [m])) with
    | ok e => exact absurd hs (hstat _ e)
    | error x =>
      simp only [he]
      exact ⟨e, rfl⟩

/-- When `os.MkdirAll` fails, either nothing has changed or a name was refused. -/
theorem Disk.mkdirAll_fails {d : Disk} (ht : Tree d) : ∀ {p : DirPath} {d' : Disk} {e : OsErr}, d.mkdirAll p = (d', some e) →
    d' = d ∨ ∃ p1 n p2, p = p1 ++ n :: p2 ∧ d.refused n = true ∧ Makeable d p1 ∧ d' = filled d p1 := by
  intro p
  induction hl : p.length generalizing p with
  | zero =>
    intro d' e h
    obtain rfl := List.length_eq_zero_iff.1 hl
    obtain ⟨s, w, hr⟩ := ht.root
    have hs : d.stat [] = .ok (.dir s w) := by simp only [Disk.stat, Disk.walk, hr]
    rw [Disk.mkdirAll] at h
    simp only [hs] at h
    cases h
  | succ k ih =>
    intro d' e h
    obtain ⟨p, n, rfl⟩ : ∃ r' n, p = r' ++ [n] := by
      rcases List.eq_nil_or_concat p with rfl | ⟨r', n, e⟩
      · simp at hl
      · exact ⟨r', n, by simpa using e⟩
    rw [Disk.mkdirAll_concat] at h
    cases hs : d.stat (p ++ [n]) with
    | ok x =>
      rw [hs] at h
      cases x <;> cases h
      exact .inl rfl
    | error x =>
      rw [hs] at h
      simp only at h
      rcases hm : d.mkdirAll p with ⟨d1, _ | e1⟩
      · rw [hm] at h
        simp only at h
        rcases (Disk.mkdirAll_ok ht).1 hm with ⟨-, rfl⟩ | ⟨h1, rfl⟩
        · left
          simp only [Disk.mkdir] at h
          repeat' split at h
          all_goals first
            | (cases h; rfl)
            | cases h
        · simp only [Disk.mkdir, Disk.stat_ok.2 (h1.usable ht), Bool.not_true, Bool.false_eq_true, if_false, Spec.filled_refused] at h
          split at h
          · rename_i hn
            cases h
            exact .inr ⟨p, n, [], rfl, hn, h1, rfl⟩
          · cases h
      · rw [hm] at h
        cases h
        rcases ih (by simpa using hl) hm with h | ⟨p1, m, p2, rfl, h1, h2, h3⟩
        · exact .inl h
        · exact .inr ⟨p1, m, p2 ++ [n], by simp, h1, h2, h3⟩

theorem Spec.There.unique {d : Disk} {p : DirPath} {e e' : Inode} (h : There d p e) (h' : There d p e') : e = e' := by
  have := h.is
  rw [h'.is] at this
  cases this
  rfl

/-- `makeBufferDir` succeeds if there is anything at the path, or if the directory can be made. -/
theorem Disk.makeBufferDir_ok {d : Disk} (ht : Tree d) {p : DirPath} {d' : Disk} : d.makeBufferDir (some p) = (d', none) ↔
    ((∃ e, There d p e) ∧ d' = d) ∨ (Makeable d p ∧ d' = filled d p) := by
  simp only [Disk.makeBufferDir]
  cases hs : d.stat p with
  | ok e =>
    have hm : ¬ Makeable d p := by intro h; have := h.stat; rw [hs] at this; cases this
    have he := Disk.stat_ok.1 hs
    simp only [hm, false_and, or_false]
    exact ⟨fun h => by cases h; exact ⟨⟨e, he⟩, rfl⟩, by rintro ⟨-, rfl⟩; rfl⟩
  | error x =>
    have hno : ∀ e, ¬ There d p e := by intro e h; rw [Disk.stat_ok.2 h] at hs; cases hs
    by_cases hx : x = .notExist
    · subst hx
      simp only [Disk.mkdirAll_ok ht, hno, exists_false, false_and, false_or]
    · have hm : ¬ Makeable d p := by
        intro h; have := h.stat; rw [hs] at this; cases this; exact hx rfl
      simp only [hno, exists_false, false_and, hm, or_false, iff_false]
      cases x <;> first | exact absurd rfl hx | (intro h; cases h)

/-- And again. -/
theorem Disk.makeBufferDir_again {d d' : Disk} (ht : Tree d) {p : DirPath} (h : d.makeBufferDir (some p) = (d', none)) :
    d'.makeBufferDir (some p) = (d', none) := by
  rcases (Disk.makeBufferDir_ok ht).1 h with ⟨⟨e, h1⟩, rfl⟩ | ⟨h1, rfl⟩
  · exact h
  · simp only [Disk.makeBufferDir, Disk.stat_ok.2 (h1.usable ht)]

theorem Disk.tempFile_iff {d : Disk} {p : DirPath} : d.tempFile p = true ↔ Usable d p := by
  rw [Disk.tempFile, Usable]
  constructor
  · intro h
    split at h
    · rename_i s w hs
      simp only [Bool.and_eq_true] at h
      obtain ⟨rfl, rfl⟩ := h
      exact Disk.stat_ok.1 hs
    · cases h
  · intro h
    rw [Disk.stat_ok.2 h]
    rfl

end Verif
