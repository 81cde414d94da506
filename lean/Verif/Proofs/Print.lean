import Verif.Spec.Print
import Verif.Proofs.ParserDirs
/-! Printed text is in the grammar. -/
namespace Verif
open Spec

theorem digits_eq (n : Nat) : digits n = natDigits n := by
  induction n using Nat.strongRecOn with
  | _ n ih =>
    rw [natDigits, digits]
    have dc : ∀ k < 10, UInt8.ofNat (Nat.digitChar k).toNat = UInt8.ofNat (48 + k) := by decide
    split
    · rename_i h
      rw [Nat.toDigits_of_lt_base h]
      simp [dc n h]
    · rename_i h
      rw [Nat.toDigits_of_base_le (by decide) (by omega), List.map_append, ← ih (n / 10) (by omega), digits]
      simp [dc (n % 10) (by omega)]

theorem number_eq (n : Int) : number n = itoa n := by
  simp only [number, itoa, digits_eq]

/-! ### Strings -/

theorem lex_quoted {q : UInt8} (hq : Quote q) (s rest : Bytes) : Lex (· = q) False (s.flatMap (escByte q) ++ q :: rest) s rest := by
  induction s with
  | nil => exact .stop rfl
  | cons c s ih =>
    rw [List.flatMap_cons, List.append_assoc]
    by_cases h10 : c = 10
    · subst h10; exact .esc (e := 110) (by decide) ih
    by_cases h13 : c = 13
    · subst h13; exact .esc (e := 114) (by decide) ih
    by_cases h92 : c = 92
    · subst h92; exact .esc (e := 92) (by decide) ih
    by_cases hc : c = q
    · subst hc
      have : escByte c c = [92, c] := by simp [escByte, h10, h13, h92]
      rw [this]
      refine .esc ?_ ih
      rcases hq with rfl | rfl <;> decide
    · have : escByte q c = [c] := by simp [escByte, h10, h13, h92, hc]
      rw [this]
      exact .plain hc (by simp [Nl, h10, h13]) h92 ih

theorem token_quoted {q : UInt8} (hq : Quote q) (s rest : Bytes) : Token (quoted q s ++ rest) s rest := by
  have : quoted q s ++ rest = [] ++ q :: (s.flatMap (escByte q) ++ q :: rest) := by simp [quoted]
  rw [this]
  exact .quoted .nil hq (lex_quoted hq s rest)

theorem token_space {t v rest : Bytes} (h : Token t v rest) : Token (32 :: t) v rest := by
  cases h with
  | quoted hg hq hl => exact .quoted (.blank (.inl rfl) hg) hq hl
  | bare hg h1 h2 h3 h4 hl => exact .bare (.blank (.inl rfl) hg) h1 h2 h3 h4 hl

/-- A plain word up to a blank or line break. -/
theorem lex_word {w : Bytes} (h : ∀ c ∈ w, ¬ Sp c ∧ ¬ Nl c ∧ c ≠ 92) {d : UInt8} (hd : Sp d ∨ Nl d) (rest : Bytes) :
    Lex (fun c => Sp c ∨ Nl c) True (w ++ d :: rest) w rest := by
  induction w with
  | nil => exact .stop hd
  | cons c w ih =>
    simp only [List.mem_cons, forall_eq_or_imp] at h
    exact .plain (by simp [h.1.1, h.1.2.1]) h.1.2.1 h.1.2.2 (ih h.2)

theorem token_word {c : UInt8} {w : Bytes} (h : ∀ d ∈ c :: w, ¬ Sp d ∧ ¬ Nl d ∧ d ≠ 92) (hq : ¬ Quote c) {d : UInt8}
    (hd : Sp d ∨ Nl d) (rest : Bytes) : Token (c :: w ++ d :: rest) (c :: w) rest := by
  have := h c List.mem_cons_self
  exact .bare (g := []) .nil this.1 this.2.1 hq this.2.2 (lex_word h hd rest)

/-! ### Lists -/

theorem sepBy_join {α : Type} {sep : UInt8} {item : Bytes → α → Prop} {seps : List UInt8} (hs : sep ∈ seps) :
    ∀ {ps : List Bytes} {l : List α}, Pairs item ps l → ps ≠ [] → (∀ p ∈ ps, ∀ c ∈ p, c ∉ seps) →
    SepBy seps item (joinWith sep ps) l := by
  intro ps l h
  induction h with
  | nil => intro h; exact absurd rfl h
  | @cons a b as bs h1 h2 ih =>
    intro _ hc
    cases h2 with
    | nil => exact .one (hc a List.mem_cons_self) h1
    | @cons a' b' as' bs' h3 h4 =>
      refine .more (hc a List.mem_cons_self) h1 hs (ih (by simp) fun p hp => hc p (List.mem_cons_of_mem _ hp))

theorem pairs_map {α β : Type} {R : α → β → Prop} {f : β → α} : ∀ {l : List β}, (∀ b ∈ l, R (f b) b) → Pairs R (l.map f) l := by
  intro l
  induction l with
  | nil => intro _; exact .nil
  | cons b l ih =>
    intro h
    simp only [List.mem_cons, forall_eq_or_imp] at h
    exact .cons h.1 (ih h.2)

theorem Pairs.append {α β : Type} {R : α → β → Prop} {a b : List α} {c d : List β} (h1 : Pairs R a c) (h2 : Pairs R b d) :
    Pairs R (a ++ b) (c ++ d) := by
  induction h1 with
  | nil => exact h2
  | cons h _ ih => exact .cons h ih

/-! ### Variables and operators -/

theorem varName_no_sep (tk : VarTok) : ∀ c ∈ varName tk, c ≠ 44 ∧ c ≠ 124 := by cases tk <;> decide

theorem printVar_item {v : PVar} (h : WfVar v) : VarItem (printVar v) v := by
  refine ⟨_, _, rfl, ?_, ?_⟩
  · obtain ⟨tk, i, c, e⟩ := v
    have h1 := h.1
    cases e <;> cases c
    · exact .none
    · exact .count
    · exact .excl
    · exact absurd ⟨rfl, rfl⟩ h1
  · by_cases hi : v.index = []
    · exact .inl ⟨by rw [if_pos hi], hi⟩
    · exact .inr (.inl (by rw [if_neg hi]))

theorem printVar_no_sep {v : PVar} (h : WfVar v) : ∀ c ∈ printVar v, c ∉ ([44, 124] : List UInt8) := by
  intro c hc
  have key : c ≠ 44 ∧ c ≠ 124 := by
    simp only [printVar, List.mem_append] at hc
    rcases hc with (hc | hc) | hc
    · have : ∀ c ∈ (if v.exclusion then [33] else if v.count then [38] else [] : Bytes), c ≠ 44 ∧ c ≠ 124 := by
        cases v.exclusion <;> cases v.count <;> decide
      exact this c hc
    · exact varName_no_sep _ c hc
    · split at hc
      · cases hc
      · rcases List.mem_cons.1 hc with rfl | hc
        · decide
        · exact h.2 c hc
  simp [key]

theorem printVars_vars {vs : List PVar} (hne : vs ≠ []) (h : ∀ v ∈ vs, WfVar v) : Vars (joinWith 124 (vs.map printVar)) vs := by
  refine sepBy_join (by decide) (pairs_map fun v hv => printVar_item (h v hv)) (by simpa using hne) ?_
  intro p hp
  obtain ⟨v, hv, rfl⟩ := List.mem_map.1 hp
  exact printVar_no_sep (h v hv)

theorem printOp_oper (o : POp) : Oper (printOp o) o := by
  refine ⟨64 :: opName o.tk ++ 32 :: o.arg, ?_, .inr (.inr rfl)⟩
  cases h : o.not with
  | true => exact .inl ⟨rfl, by simp [printOp, h]⟩
  | false => exact .inr ⟨rfl, by simp [printOp, h], by simp⟩

/-! ### Actions -/

theorem unquoted_plain {s : Bytes} (h : ∀ c, s.head? = some c → ¬ Quote c) : Unquoted s s := by
  refine .inr ⟨?_, rfl⟩
  rintro ⟨a, m, b, ha, _, rfl⟩
  exact h a rfl ha

theorem decimal_unquoted {s : Bytes} {n : Int} (h : Decimal s n) : Unquoted s s := by
  refine unquoted_plain fun c hc => ?_
  have hm : c ∈ s := by cases s with
    | nil => cases hc
    | cons a s => cases hc; exact List.mem_cons_self
  have := decimal_bytes h c hm
  rintro (rfl | rfl)
  · revert this; decide
  · revert this; decide

theorem transName_head (t : TransTok) : ∀ c, (transName t).head? = some c → ¬ Quote c := by
  intro c hc
  have : (transName t).head?.any isQuote = false := by cases t <;> decide
  rw [hc] at this
  exact fun h => by rw [Option.any_some, (isQuote_iff c).2 h] at this; cases this

theorem printAct_item {tk : ActTok} {arg : Bytes} {i : Item} (h : Means tk arg i) : ActItem (printAct tk arg) i :=
  ⟨[], tk, [], 58 :: arg, arg, by simp [printAct], Blank.nil, Blank.nil, .inr rfl, h⟩

theorem printChain_item : ActItem (actName .chain) .chain :=
  ⟨[], .chain, [], [], [], by simp, Blank.nil, Blank.nil, .inl ⟨rfl, rfl⟩, .chain⟩

/-- The action items of a printed action list. -/
def itemsOf (a : PActs) : List Item :=
  a.action.map .act ++ a.trans.map .trans ++ (if a.chain then [.chain] else []) ++
    (if a.phase = 0 then [] else [.phase a.phase]) ++ [.id a.id]

theorem filterMap_none {α β γ : Type} {f : β → Option γ} {g : α → β} (h : ∀ a, f (g a) = none) (l : List α) :
    (l.map g).filterMap f = [] := by
  induction l with
  | nil => rfl
  | cons a l ih => rw [List.map_cons, List.filterMap_cons, h a, ih]

theorem filterMap_some {α β γ : Type} {f : β → Option γ} {g : α → β} {k : α → γ} (h : ∀ a, f (g a) = some (k a)) (l : List α) :
    (l.map g).filterMap f = l.map k := by
  induction l with
  | nil => rfl
  | cons a l ih => rw [List.map_cons, List.filterMap_cons, h a, ih]; rfl

theorem summary_itemsOf (a : PActs) : summary (itemsOf a) = a := by
  obtain ⟨ident, phase, chain, trans, action⟩ := a
  have e1 : (action.map Item.act).filterMap Item.id? = [] := filterMap_none (fun _ => rfl) _
  have e2 : (trans.map Item.trans).filterMap Item.id? = [] := filterMap_none (fun _ => rfl) _
  have e3 : (action.map Item.act).filterMap Item.phase? = [] := filterMap_none (fun _ => rfl) _
  have e4 : (trans.map Item.trans).filterMap Item.phase? = [] := filterMap_none (fun _ => rfl) _
  have e5 : (action.map Item.act).filterMap Item.trans? = [] := filterMap_none (fun _ => rfl) _
  have e6 : (trans.map Item.trans).filterMap Item.trans? = trans := by
    have := filterMap_some (f := Item.trans?) (g := Item.trans) (k := id) (fun _ => rfl) trans
    simpa using this
  have e7 : (action.map Item.act).filterMap Item.act? = action := by
    have := filterMap_some (f := Item.act?) (g := Item.act) (k := id) (fun _ => rfl) action
    simpa using this
  have e8 : (trans.map Item.trans).filterMap Item.act? = [] := filterMap_none (fun _ => rfl) _
  have e9 : (action.map Item.act).any Item.chain? = false := by simp [List.any_map, Function.comp_def, Item.chain?]
  have e10 : (trans.map Item.trans).any Item.chain? = false := by simp [List.any_map, Function.comp_def, Item.chain?]
  by_cases hp : phase = 0
  · cases chain <;>
      simp only [summary, itemsOf, List.filterMap_append, List.any_append, e1, e2, e3, e4, e5, e6, e7, e8, e9, e10, hp, if_true] <;>
      simp [List.filterMap_cons, Item.id?, Item.phase?, Item.trans?, Item.act?, Item.chain?, lastOr0]
  · cases chain <;>
      simp only [summary, itemsOf, List.filterMap_append, List.any_append, e1, e2, e3, e4, e5, e6, e7, e8, e9, e10, hp, if_false] <;>
      simp [List.filterMap_cons, Item.id?, Item.phase?, Item.trans?, Item.act?, Item.chain?, lastOr0]

theorem int64_itoa {n : Int} (h : InInt64 n) : Int64 (itoa n) n := ⟨itoa_decimal n, h⟩

theorem means_id {n : Int} (h : InInt64 n) : Means .id (number n) (.id n) := by
  rw [number_eq]; exact .id (decimal_unquoted (itoa_decimal n)) (int64_itoa h)

theorem means_phase {n : Int} (h1 : 1 ≤ n) (h2 : n ≤ 5) : Means .phase (number n) (.phase n) := by
  rw [number_eq]
  exact .phase (decimal_unquoted (itoa_decimal n)) (.inr (.inr (.inr ⟨int64_itoa ⟨by omega, by omega⟩, h1, h2⟩)))

theorem means_trans (t : TransTok) : Means .t (transName t) (.trans t) := .trans (unquoted_plain (transName_head t))

theorem means_act {a : PAct} (h : WfAct a) : Means a.tk a.arg (.act a) := by
  obtain ⟨tk, arg⟩ := a
  obtain ⟨_, h1, h2, h3, h4, h5⟩ := h
  by_cases hs : tk = .severity
  · subst hs
    obtain ⟨n, n0, n7, e⟩ := h5 rfl
    simp only at e
    rw [number_eq] at e
    subst e
    refine .severity (decimal_unquoted (itoa_decimal n)) ?_
    exact .inr (.inr (.inr (.inr (.inr (.inr (.inr (.inr ⟨int64_itoa ⟨by omega, by omega⟩, n0, n7⟩)))))))
  · exact .other h1 h2 hs h3 h4

theorem printAct_no_comma {tk : ActTok} {arg : Bytes} (h : ∀ c ∈ arg, c ≠ 44) : ∀ c ∈ printAct tk arg, c ∉ ([44] : List UInt8) := by
  intro c hc
  simp only [List.mem_cons, List.not_mem_nil, or_false]
  simp only [printAct, List.mem_append, List.mem_cons] at hc
  rcases hc with hc | rfl | hc
  · have := (actName_bytes tk).2 c hc
    rintro rfl; revert this; decide
  · decide
  · exact h c hc

theorem number_no_comma (n : Int) : ∀ c ∈ number n, c ≠ 44 := by
  rw [number_eq]
  intro c hc
  rintro rfl
  simp only [itoa] at hc
  have hd := (natDigits_spec n.natAbs).1.2
  split at hc
  · rcases List.mem_cons.1 hc with h | h
    · cases h
    · have := hd _ h; revert this; decide
  · have := hd _ hc; revert this; decide

theorem joinWith_last (sep : UInt8) (ps : List Bytes) (p : Bytes) : ∃ r, joinWith sep (ps ++ [p]) = r ++ p := by
  induction ps with
  | nil => exact ⟨[], rfl⟩
  | cons q ps ih =>
    obtain ⟨r, h⟩ := ih
    refine ⟨q ++ sep :: r, ?_⟩
    cases hp : ps ++ [p] with
    | nil => simp at hp
    | cons x xs => rw [List.cons_append, hp, joinWith, ← hp, h]
                   · simp
                   · simp

theorem joinWith_first (sep : UInt8) (p : Bytes) (ps : List Bytes) : ∃ r, joinWith sep (p :: ps) = p ++ r := by
  cases ps with
  | nil => exact ⟨[], by simp [joinWith]⟩
  | cons q ps => exact ⟨_, rfl⟩

/-- Text with a printable ASCII byte at each end is trimmed. -/
theorem trimmed_of_ascii_ends {a b : UInt8} {r u : Bytes} (ha : 32 < a.toNat ∧ a.toNat < 128) (hb : 32 < b.toNat ∧ b.toNat < 128)
    {s : Bytes} (h1 : s = a :: r) (h2 : s = u ++ [b]) : Trimmed s := by
  intro w v hw h
  rcases h with h | h
  · cases w with
    | nil => rfl
    | cons c w =>
      rw [h1] at h
      cases h
      exact absurd List.mem_cons_self (Blank.not_mem hw ha.1 ha.2)
  · refine Classical.byContradiction fun hne => ?_
    have hl : w.getLast hne = b := by
      have e1 : s.getLast? = some b := by rw [h2]; exact List.getLast?_concat
      rw [h, List.getLast?_append, List.getLast?_eq_some_getLast hne] at e1
      simpa using e1
    exact Blank.not_mem hw hb.1 hb.2 (hl ▸ List.getLast_mem hne)

theorem printActs_acts {a : PActs} (ha : ∀ x ∈ a.action, WfAct x) (hp0 : 0 ≤ a.phase) (hp5 : a.phase ≤ 5) (hid : InInt64 a.id) :
    Acts (printActs a) a := by
  have hpairs : Pairs ActItem (a.action.map (fun x => printAct x.tk x.arg) ++ a.trans.map (fun t => printAct .t (transName t)) ++
      (if a.chain then [actName .chain] else []) ++ (if a.phase = 0 then [] else [printAct .phase (number a.phase)]) ++
      [printAct .id (number a.id)]) (itemsOf a) := by
    refine Pairs.append (Pairs.append (Pairs.append (Pairs.append ?_ ?_) ?_) ?_) ?_
    · generalize a.action = l at ha
      induction l with
      | nil => exact .nil
      | cons x l ih =>
        simp only [List.mem_cons, forall_eq_or_imp] at ha
        exact .cons (printAct_item (means_act ha.1)) (ih ha.2)
    · generalize a.trans = l
      induction l with
      | nil => exact .nil
      | cons x l ih => exact .cons (printAct_item (means_trans x)) ih
    · split
      · exact .cons printChain_item .nil
      · exact .nil
    · split
      · exact .nil
      · exact .cons (printAct_item (means_phase (by omega) hp5)) .nil
    · exact .cons (printAct_item (means_id hid)) .nil
  have hcomma : ∀ p ∈ (a.action.map (fun x => printAct x.tk x.arg) ++ a.trans.map (fun t => printAct .t (transName t)) ++
      (if a.chain then [actName .chain] else []) ++ (if a.phase = 0 then [] else [printAct .phase (number a.phase)]) ++
      [printAct .id (number a.id)]), (∀ c ∈ p, c ∉ ([44] : List UInt8)) ∧ ∃ c r, p = c :: r ∧ 97 ≤ c.toNat ∧ c.toNat ≤ 122 := by
    have head : ∀ tk x, ∃ c r, printAct tk x = c :: r ∧ 97 ≤ c.toNat ∧ c.toNat ≤ 122 := by
      intro tk x
      obtain ⟨h1, h2⟩ := actName_bytes tk
      cases hn : actName tk with
      | nil => exact absurd hn h1
      | cons c r => exact ⟨c, r ++ 58 :: x, by simp [printAct, hn], h2 c (by rw [hn]; exact List.mem_cons_self)⟩
    intro p hp
    simp only [List.mem_append, List.mem_map] at hp
    rcases hp with (((⟨x, hx, rfl⟩ | ⟨t, _, rfl⟩) | hp) | hp) | hp
    · exact ⟨printAct_no_comma (ha x hx).1, head _ _⟩
    · exact ⟨printAct_no_comma (by cases t <;> decide), head _ _⟩
    · split at hp
      · simp only [List.mem_cons, List.not_mem_nil, or_false] at hp
        subst hp
        exact ⟨by decide, ⟨99, b!"hain", rfl, by decide⟩⟩
      · cases hp
    · split at hp
      · cases hp
      · simp only [List.mem_cons, List.not_mem_nil, or_false] at hp
        subst hp
        exact ⟨printAct_no_comma (number_no_comma _), head _ _⟩
    · simp only [List.mem_cons, List.not_mem_nil, or_false] at hp
      subst hp
      exact ⟨printAct_no_comma (number_no_comma _), head _ _⟩
  have hsep := sepBy_join (sep := 44) (seps := [44]) (by decide) hpairs (by simp) fun p hp => (hcomma p hp).1
  refine ⟨[], printActs a, [], itemsOf a, by simp, Blank.nil, Blank.nil, ?_, ?_, hsep, (summary_itemsOf a).symm⟩
  · obtain ⟨u, hu⟩ := joinWith_last 44 (a.action.map (fun x => printAct x.tk x.arg) ++ a.trans.map (fun t => printAct .t (transName t)) ++
      (if a.chain then [actName .chain] else []) ++ (if a.phase = 0 then [] else [printAct .phase (number a.phase)]))
      (printAct .id (number a.id))
    obtain ⟨ds, d, hd, hd1⟩ : ∃ ds d, number a.id = ds ++ [d] ∧ 48 ≤ d.toNat ∧ d.toNat ≤ 57 := by
      rw [number_eq]
      obtain ⟨⟨h1, h2⟩, _⟩ := natDigits_spec a.id.natAbs
      have h3 := List.dropLast_concat_getLast h1
      have h4 := h2 _ (List.getLast_mem h1)
      simp only [itoa]
      split
      · exact ⟨45 :: (natDigits a.id.natAbs).dropLast, _, by rw [List.cons_append, h3], h4⟩
      · exact ⟨(natDigits a.id.natAbs).dropLast, _, by rw [h3], h4⟩
    obtain ⟨p, ps, hps⟩ : ∃ p ps, a.action.map (fun x => printAct x.tk x.arg) ++ a.trans.map (fun t => printAct .t (transName t)) ++
      (if a.chain then [actName .chain] else []) ++ (if a.phase = 0 then [] else [printAct .phase (number a.phase)]) ++
      [printAct .id (number a.id)] = p :: ps := by
      generalize a.action.map _ ++ _ ++ _ ++ _ = l
      cases l with
      | nil => exact ⟨_, _, rfl⟩
      | cons p l => exact ⟨_, _, rfl⟩
    obtain ⟨r, hr⟩ := joinWith_first 44 p ps
    obtain ⟨c, r', hp, hc⟩ := (hcomma p (by rw [hps]; exact List.mem_cons_self)).2
    refine trimmed_of_ascii_ends (a := c) (b := d) (r := r' ++ r) (u := u ++ (actName .id ++ 58 :: ds)) ⟨by omega, by omega⟩ ⟨by omega, by omega⟩ ?_ ?_
    · rw [printActs, hps, hr, hp]; rfl
    · rw [printActs, hu, printAct, hd]; simp
  · obtain ⟨u, hu⟩ := joinWith_last 44 (a.action.map (fun x => printAct x.tk x.arg) ++ a.trans.map (fun t => printAct .t (transName t)) ++
      (if a.chain then [actName .chain] else []) ++ (if a.phase = 0 then [] else [printAct .phase (number a.phase)]))
      (printAct .id (number a.id))
    rw [printActs, hu]
    simp [printAct]

/-! ### Directives -/

theorem CaseVariant.refl (s : Bytes) : CaseVariant s s := (caseVariant_iff _ _).2 rfl

theorem token_line {w rest : Bytes} (hw : w ∈ [b!"On", b!"Off", b!"DetectionOnly"]) : Token (32 :: w ++ 10 :: rest) w rest := by
  refine token_space ?_
  have key : ∀ w ∈ [b!"On", b!"Off", b!"DetectionOnly"], ∃ c r, w = c :: r ∧ isQuote c = false ∧
      ∀ d ∈ c :: r, isBlank d = false ∧ isNewLine d = false ∧ d ≠ 92 := by
    intro w hw
    simp only [List.mem_cons, List.not_mem_nil, or_false] at hw
    rcases hw with rfl | rfl | rfl <;> exact ⟨_, _, rfl, by decide, by decide⟩
  obtain ⟨c, r, rfl, hq, hd⟩ := key w hw
  refine token_word ?_ (fun h => by rw [(isQuote_iff c).2 h] at hq; cases hq) (.inr (.inl rfl)) rest
  intro d hd'
  obtain ⟨h1, h2, h3⟩ := hd d hd'
  refine ⟨fun h => ?_, fun h => ?_, h3⟩
  · rw [(isBlank_iff d).2 h] at h1; cases h1
  · rw [(isNewLine_iff d).2 h] at h2; cases h2

/-- A printed directive is in the grammar; a rule leaves its line break to the next. -/
theorem printDir_directive {d : PDir} (h : WfDir d) (rest : Bytes) :
    Directive (printDir d ++ rest) d rest ∨ Directive (printDir d ++ rest) d (10 :: rest) := by
  cases d with
  | rule r =>
    refine .inr ?_
    obtain ⟨h1, h2, h3, h4, h5, h6⟩ := h
    have e : printDir (.rule r) ++ rest = b!"SecRule" ++ (32 :: (quoted 34 (joinWith 124 (r.vars.map printVar)) ++
        32 :: (quoted 34 (printOp r.op) ++ 32 :: (quoted 34 (printActs r.acts) ++ 10 :: rest)))) := by
      simp [printDir]
    rw [e]
    exact .rule (CaseVariant.refl _) (by intro c hc; cases hc; simp [Letter])
      (token_space (token_quoted (.inl rfl) _ _)) (printVars_vars h1 h2)
      (token_space (token_quoted (.inl rfl) _ _)) (printOp_oper r.op)
      (token_space (token_quoted (.inl rfl) _ _)) (printActs_acts h3 h4 h5 h6)
  | ruleEng v =>
    refine .inl ?_
    have e : printDir (.ruleEng v) ++ rest = b!"SecRuleEngine" ++ (32 :: (if v = 1 then b!"On" else if v = 0 then b!"Off" else b!"DetectionOnly") ++ 10 :: rest) := by
      simp [printDir]
    rw [e]
    refine .engine (CaseVariant.refl _) (by intro c hc; cases hc; simp [Letter]) (token_line ?_) ?_
    · rcases h with rfl | rfl | rfl <;> decide
    · rcases h with rfl | rfl | rfl
      · exact .inr (.inl ⟨CaseVariant.refl _, rfl⟩)
      · exact .inl ⟨CaseVariant.refl _, rfl⟩
      · exact .inr (.inr ⟨CaseVariant.refl _, rfl⟩)
  | reqBody b =>
    refine .inl ?_
    have e : printDir (.reqBody b) ++ rest = b!"SecRequestBodyAccess" ++ (32 :: (if b then b!"On" else b!"Off") ++ 10 :: rest) := by
      simp [printDir]
    rw [e]
    refine .reqBody (CaseVariant.refl _) (by intro c hc; cases hc; simp [Letter]) (token_line ?_) ?_
    · cases b <;> decide
    · cases b
      · exact .inr ⟨CaseVariant.refl _, rfl⟩
      · exact .inl ⟨CaseVariant.refl _, rfl⟩
  | resBody b =>
    refine .inl ?_
    have e : printDir (.resBody b) ++ rest = b!"SecResponseBodyAccess" ++ (32 :: (if b then b!"On" else b!"Off") ++ 10 :: rest) := by
      simp [printDir]
    rw [e]
    refine .resBody (CaseVariant.refl _) (by intro c hc; cases hc; simp [Letter]) (token_line ?_) ?_
    · cases b <;> decide
    · cases b
      · exact .inr ⟨CaseVariant.refl _, rfl⟩
      · exact .inl ⟨CaseVariant.refl _, rfl⟩

theorem program_filler {f t : Bytes} {ds : List PDir} (hf : Filler f) (h : Program t ds) : Program (f ++ t) ds := by
  cases h with
  | done h =>
    refine .done fun c hc => ?_
    rcases List.mem_append.1 hc with hc | hc
    · exact hf c hc
    · exact h c hc
  | dir h1 h2 h3 =>
    rw [← List.append_assoc]
    refine .dir (fun c hc => ?_) h2 h3
    rcases List.mem_append.1 hc with hc | hc
    · exact hf c hc
    · exact h1 c hc

theorem print_program {ds : List PDir} (h : ∀ d ∈ ds, WfDir d) {rest : Bytes} {ds' : List PDir} (hr : Program rest ds') :
    Program (print ds ++ rest) (ds ++ ds') := by
  induction ds with
  | nil => exact hr
  | cons d ds ih =>
    simp only [List.mem_cons, forall_eq_or_imp] at h
    have ih := ih h.2
    simp only [print, List.flatMap_cons, List.append_assoc]
    rcases printDir_directive h.1 (print ds ++ rest) with hd | hd
    · exact .dir (f := []) (by simp [Filler]) hd ih
    · exact .dir (f := []) (by simp [Filler]) hd (program_filler (f := [10]) (by simp [Filler, Nl]) ih)

end Verif
