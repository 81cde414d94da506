import Verif.Props.Exempt
/-! C143: a text and its parts. -/
namespace Verif
open Sample Spec

/-- Three lists, item by item. -/
inductive Spec.Triples {α β γ : Type} (R : α → β → γ → Prop) : List α → List β → List γ → Prop
  | nil : Triples R [] [] []
  | cons {a b c as bs cs} : R a b c → Triples R as bs cs → Triples R (a :: as) (b :: bs) (c :: cs)

/-- The first verdict refuses exactly if one of the others does. -/
def Spec.EitherRefuses (v a b : Intervention) : Prop := v.disruptive = true ↔ a.disruptive = true ∨ b.disruptive = true

/-- The chains of `cs` are those of `as` and those of `bs`, in any order. -/
def Spec.MadeOf (cs as bs : List (List PRule)) : Prop := ∀ c, c ∈ cs ↔ c ∈ as ∨ c ∈ bs

/-- C143: divide the rules of a text, none of which skips or allows, into two texts with the same
switches, in any way that keeps chains together.  Whatever the calls, a verdict of the text is
disruptive exactly if the verdict of one of the two is. -/
def C143_statement : Prop :=
  ∀ (lib : Lib) (vo : VarOrd) (ord : IterOrd) (text texta textb : Bytes) (dirs dirsa dirsb : List PDir) (set seta setb : DireSet), Program text dirs →
    Program texta dirsa → Program textb dirsb → switches dirsa = switches dirs → switches dirsb = switches dirs →
    MadeOf (chainsOf (rulesIn dirs)) (chainsOf (rulesIn dirsa)) (chainsOf (rulesIn dirsb)) → StrictRules (chainsOf (rulesIn dirs)) →
    DireSet.addSecLangString lib vo [] text = .ok (set, none) → DireSet.addSecLangString lib vo [] texta = .ok (seta, none) →
    DireSet.addSecLangString lib vo [] textb = .ok (setb, none) →
    ∀ (ops : List Op) (n : Nat) (t ta tb : Tx) (os osa osb : List Out) (tr tra trb : Trace),
      (set.execute newEngine).newTransaction.steps ((set.execute newEngine).env lib ord) (set.execute newEngine).ruleSet n ops = .ok (t, os, tr) →
      (seta.execute newEngine).newTransaction.steps ((seta.execute newEngine).env lib ord) (seta.execute newEngine).ruleSet n ops = .ok (ta, osa, tra) →
      (setb.execute newEngine).newTransaction.steps ((setb.execute newEngine).env lib ord) (setb.execute newEngine).ruleSet n ops = .ok (tb, osb, trb) →
      Triples EitherRefuses (shown os) (shown osa) (shown osb)

/-- The three texts load, and with `k` rounds or more all calls return; a verdict of the first is
disruptive exactly if one of the others is. -/
def Spec.IsWhole (lib : Lib) (vo : VarOrd) (ord : IterOrd) (text texta textb : Bytes) (k : Nat) (ops : List Op) : Prop :=
  ∃ set seta setb, DireSet.addSecLangString lib vo [] text = .ok (set, none) ∧ DireSet.addSecLangString lib vo [] texta = .ok (seta, none) ∧
    DireSet.addSecLangString lib vo [] textb = .ok (setb, none) ∧
    ∀ n ≥ k, ∃ t ta tb os osa osb tr tra trb,
      (set.execute newEngine).newTransaction.steps ((set.execute newEngine).env lib ord) (set.execute newEngine).ruleSet n ops = .ok (t, os, tr) ∧
      (seta.execute newEngine).newTransaction.steps ((seta.execute newEngine).env lib ord) (seta.execute newEngine).ruleSet n ops = .ok (ta, osa, tra) ∧
      (setb.execute newEngine).newTransaction.steps ((setb.execute newEngine).env lib ord) (setb.execute newEngine).ruleSet n ops = .ok (tb, osb, trb) ∧
      Triples EitherRefuses (shown os) (shown osa) (shown osb)

theorem Spec.Triples.append {α β γ : Type} {R : α → β → γ → Prop} {as as' : List α} {bs bs' : List β} {cs cs' : List γ} (h : Triples R as bs cs)
    (h' : Triples R as' bs' cs') : Triples R (as ++ as') (bs ++ bs') (cs ++ cs') := by
  induction h with
  | nil => exact h'
  | cons h _ ih => exact .cons h ih

/-! ### Three machines -/

section
variable {K : Type} {S : Sight K}

/-- Three machines that have gone as far, the first refusing if one of the others does. -/
structure Jointly (m a b : Mach K) : Prop where
  knowna : a.known = m.known
  knownb : b.known = m.known
  aborteda : a.aborted = m.aborted
  abortedb : b.aborted = m.aborted
  phasea : a.phase = m.phase
  phaseb : b.phase = m.phase
  verdict : EitherRefuses m.verdict a.verdict b.verdict

theorem jointly_call {cs as bs : List (List PRule)} (hc : StrictRules cs) (ha : StrictRules as) (hb : StrictRules bs)
    (he : ∀ k q, Case S cs k q ↔ Case S as k q ∨ Case S bs k q) (h5 : ∀ c ∈ cs, 0 ≤ chainPhase c ∧ chainPhase c ≤ 5)
    (h5a : ∀ c ∈ as, 0 ≤ chainPhase c ∧ chainPhase c ≤ 5) (h5b : ∀ c ∈ bs, 0 ≤ chainPhase c ∧ chainPhase c ≤ 5) (op : Op) {m a b : Mach K} (hm : Jointly m a b) :
    Jointly (call S cs m op).1 (call S as a op).1 (call S bs b op).1 ∧ Triples EitherRefuses (call S cs m op).2 (call S as a op).2 (call S bs b op).2 := by
  obtain ⟨k1, k2, b1, b2, p1, p2, v⟩ := hm
  have ka : S.learn a.known op = S.learn m.known op := by rw [k1]
  have kb : S.learn b.known op = S.learn m.known op := by rw [k2]
  have none_refuses : ∀ {x y z : Intervention}, x.disruptive = false → y.disruptive = false → z.disruptive = false → EitherRefuses x y z := fun h1 h2 h3 => by
    simp [EitherRefuses, h1, h2, h3]
  have all_refuse : ∀ {x y z : Intervention}, x.disruptive = true → y.disruptive = true → z.disruptive = true → EitherRefuses x y z := fun h1 h2 h3 => by
    simp [EitherRefuses, h1, h2, h3]
  cases hq : phaseOf op with
  | some q =>
    simp only [call, hq]
    by_cases g1 : q ≤ m.phase
    · rw [if_pos g1, if_pos (show q ≤ a.phase by rw [p1]; exact g1), if_pos (show q ≤ b.phase by rw [p2]; exact g1)]
      exact ⟨⟨ka, kb, b1, b2, p1, p2, v⟩, .nil⟩
    · rw [if_neg g1, if_neg (show ¬ q ≤ a.phase by rw [p1]; exact g1), if_neg (show ¬ q ≤ b.phase by rw [p2]; exact g1)]
      by_cases g2 : m.aborted = true
      · rw [if_pos g2, if_pos (b1.trans g2), if_pos (b2.trans g2)]
        exact ⟨⟨ka, kb, b1, b2, rfl, rfl, v⟩, .nil⟩
      · rw [if_neg g2, if_neg (show ¬ a.aborted = true by rw [b1]; exact g2), if_neg (show ¬ b.aborted = true by rw [b2]; exact g2)]
        obtain ⟨w1, w2, w3, w4⟩ := phase_walk (S := S) hc h5 q { m with known := S.learn m.known op }
        obtain ⟨x1, x2, x3, x4⟩ := phase_walk (S := S) ha h5a q { a with known := S.learn a.known op }
        obtain ⟨y1, y2, y3, y4⟩ := phase_walk (S := S) hb h5b q { b with known := S.learn b.known op }
        refine ⟨⟨(x1.trans ka).trans w1.symm, (y1.trans kb).trans w1.symm, (x2.trans b1).trans w2.symm, (y2.trans b2).trans w2.symm, x3.trans w3.symm,
          y3.trans w3.symm, ?_⟩, .nil⟩
        have v' : m.verdict.disruptive = true ↔ a.verdict.disruptive = true ∨ b.verdict.disruptive = true := v
        have e := he (S.learn m.known op) q
        simp only [ka, kb] at w4 x4 y4
        simp only [EitherRefuses, w4, x4, y4, ka, kb, v', e]
        grind
  | none =>
    cases op <;> simp only [phaseOf, reduceCtorEq] at hq <;> simp only [call, phaseOf]
    case result =>
      rw [b1, b2]
      refine ⟨?_, .cons v .nil⟩
      split
      · exact ⟨ka, kb, rfl, rfl, p1, p2, v⟩
      · exact ⟨ka, kb, rfl, rfl, p1, p2, none_refuses rfl rfl rfl⟩
    case intervention => exact ⟨⟨ka, kb, b1, b2, p1, p2, v⟩, .cons v .nil⟩
    case resetIntervention => exact ⟨⟨ka, kb, b1, b2, p1, p2, none_refuses rfl rfl rfl⟩, .nil⟩
    case abortWithStatus => exact ⟨⟨ka, kb, rfl, rfl, p1, p2, all_refuse rfl rfl rfl⟩, .nil⟩
    case abortWithError => exact ⟨⟨ka, kb, rfl, rfl, p1, p2, all_refuse rfl rfl rfl⟩, .nil⟩
    case jumpToPhase i => exact ⟨⟨ka, kb, b1, b2, rfl, rfl, v⟩, .nil⟩
    case nextPhase => exact ⟨⟨ka, kb, b1, b2, by simp only [goto, p1], by simp only [goto, p2], v⟩, .nil⟩
    all_goals exact ⟨⟨ka, kb, b1, b2, p1, p2, v⟩, .nil⟩

theorem jointly_run {cs as bs : List (List PRule)} (hc : StrictRules cs) (ha : StrictRules as) (hb : StrictRules bs)
    (he : ∀ k q, Case S cs k q ↔ Case S as k q ∨ Case S bs k q) (h5 : ∀ c ∈ cs, 0 ≤ chainPhase c ∧ chainPhase c ≤ 5)
    (h5a : ∀ c ∈ as, 0 ≤ chainPhase c ∧ chainPhase c ≤ 5) (h5b : ∀ c ∈ bs, 0 ≤ chainPhase c ∧ chainPhase c ≤ 5) : ∀ (ops : List Op) {m a b : Mach K},
    Jointly m a b → Triples EitherRefuses (Spec.run S cs m ops).2 (Spec.run S as a ops).2 (Spec.run S bs b ops).2
  | [], _, _, _, _ => .nil
  | op :: ops, _, _, _, hm => by
    obtain ⟨g1, g2⟩ := jointly_call (S := S) hc ha hb he h5 h5a h5b op hm
    simp only [Spec.run]
    exact g2.append (jointly_run hc ha hb he h5 h5a h5b ops g1)

theorem madeOf_case {cs as bs : List (List PRule)} (h : MadeOf cs as bs) (k : K) (q : Int) : Case S cs k q ↔ Case S as k q ∨ Case S bs k q := by
  constructor
  · rintro ⟨c, h1, h2⟩
    rcases (h c).1 h1 with h1 | h1
    · exact .inl ⟨c, h1, h2⟩
    · exact .inr ⟨c, h1, h2⟩
  · rintro (⟨c, h1, h2⟩ | ⟨c, h1, h2⟩)
    · exact ⟨c, (h c).2 (.inl h1), h2⟩
    · exact ⟨c, (h c).2 (.inr h1), h2⟩

end

/-! ### The theorems -/

theorem subset_stems {cs ds : List (List PRule)} (h : ∀ c ∈ ds, c ∈ cs) : StemsFrom cs ds := fun c hc => ⟨c, h c hc, rfl, fun p hp => ⟨p, hp, rfl, rfl, fun _ h => h⟩⟩

theorem Spec.MadeOf.left {cs as bs : List (List PRule)} (h : MadeOf cs as bs) : StemsFrom cs as := subset_stems fun c hc => (h c).2 (.inl hc)

theorem Spec.MadeOf.right {cs as bs : List (List PRule)} (h : MadeOf cs as bs) : StemsFrom cs bs := subset_stems fun c hc => (h c).2 (.inr hc)

/-- The number of rounds that is enough for all three. -/
def Spec.enoughAll (dirs dirsa dirsb : List PDir) : Nat :=
  (chainsOf (rulesIn dirs)).length + (chainsOf (rulesIn dirsa)).length + (chainsOf (rulesIn dirsb)).length + 2

/-- C143 for rules that read no body.  Missing: bodies, see below. -/
theorem C143_whole_partial {lib : Lib} {vo : VarOrd} {ord : IterOrd} {text texta textb : Bytes} {dirs dirsa dirsb : List PDir} (ht : Program text dirs)
    (hta : Program texta dirsa) (htb : Program textb dirsb) (hok : ∀ d ∈ dirs, DirOk lib d)
    (h : MadeOf (chainsOf (rulesIn dirs)) (chainsOf (rulesIn dirsa)) (chainsOf (rulesIn dirsb)))
    (hv : ∀ p ∈ rulesIn dirs, ∀ v ∈ p.vars, readsBody v.tk = false) (hs : StrictRules (chainsOf (rulesIn dirs))) (ops : List Op) :
    IsWhole lib vo ord text texta textb (enoughAll dirs dirsa dirsb) ops := by
  obtain ⟨set, h1, h2⟩ := C87_machine (vo := vo) (ord := ord) ht hok hv (strict_noReturn hs)
  have part : ∀ {texta dirsa}, Program texta dirsa → StemsFrom (chainsOf (rulesIn dirs)) (chainsOf (rulesIn dirsa)) → _ := fun {texta dirsa} hta hst =>
    C87_machine (vo := vo) (ord := ord) (text := texta) (dirs := dirsa) hta (hst.ok hok) (fun p' hp v hv' => by
      obtain ⟨p, p1, _, _, p4⟩ := hst.rule hp
      exact hv p p1 v (p4 v hv')) (strict_noReturn (hst.strict hs))
  obtain ⟨seta, a1, a2⟩ := part hta h.left
  obtain ⟨setb, b1, b2⟩ := part htb h.right
  refine ⟨set, seta, setb, h1, a1, b1, fun n hn => ?_⟩
  obtain ⟨t, os, tr, g1, g2⟩ := h2 ops n (by simp only [enoughAll] at hn; omega)
  obtain ⟨ta, osa, tra, ga1, ga2⟩ := a2 ops n (by simp only [enoughAll] at hn; omega)
  obtain ⟨tb, osb, trb, gb1, gb2⟩ := b2 ops n (by simp only [enoughAll] at hn; omega)
  refine ⟨t, ta, tb, os, osa, osb, tr, tra, trb, g1, ga1, gb1, ?_⟩
  rw [g2, ga2, gb2]
  exact jointly_run hs (h.left.strict hs) (h.right.strict hs) (madeOf_case h) (fun c h => ⟨chain_low ht h, chain_five ht h⟩)
    (fun c h => ⟨chain_low hta h, chain_five hta h⟩) (fun c h => ⟨chain_low htb h, chain_five htb h⟩) ops ⟨rfl, rfl, rfl, rfl, rfl, rfl, by simp [EitherRefuses, Intervention.neutral]⟩

/-- C143 with bodies of up to 131072 bytes, if rules read arguments from the body only once the
form is settled, and well-formed.  Missing: larger bodies, malformed forms. -/
theorem C143_bodies_partial {lib : Lib} {vo : VarOrd} {ord : IterOrd} {text texta textb : Bytes} {dirs dirsa dirsb : List PDir} (ht : Program text dirs)
    (hta : Program texta dirsa) (htb : Program textb dirsb) (hok : ∀ d ∈ dirs, DirOk lib d) (hswa : switches dirsa = switches dirs) (hswb : switches dirsb = switches dirs)
    (h : MadeOf (chainsOf (rulesIn dirs)) (chainsOf (rulesIn dirsa)) (chainsOf (rulesIn dirsb))) (hs : StrictRules (chainsOf (rulesIn dirs)))
    {ops : List Op} {q : Int} (hsize : (sent false ops).length ≤ 131072)
    (hform : ∀ c ∈ chainsOf (rulesIn dirs), 1 ≤ chainPhase c → (∃ p ∈ c, ∃ v ∈ p.vars, readsArgs v.tk = true) → q ≤ chainPhase c ∧ FormSettled lib q ops) :
    IsWhole lib vo ord text texta textb (enoughAll dirs dirsa dirsb) ops := by
  obtain ⟨set, h1, h2⟩ := C88_machine (vo := vo) (ord := ord) ht hok (strict_noReturn hs)
  obtain ⟨seta, a1, a2⟩ := C88_machine (vo := vo) (ord := ord) hta (h.left.ok hok) (strict_noReturn (h.left.strict hs))
  obtain ⟨setb, b1, b2⟩ := C88_machine (vo := vo) (ord := ord) htb (h.right.ok hok) (strict_noReturn (h.right.strict hs))
  refine ⟨set, seta, setb, h1, a1, b1, fun n hn => ?_⟩
  obtain ⟨t, os, tr, g1, g2⟩ := h2 hsize hform n (by simp only [enoughAll] at hn; omega)
  obtain ⟨ta, osa, tra, ga1, ga2⟩ := a2 (q := q) hsize (fun c hc => hform c ((h c).2 (.inl hc))) n (by simp only [enoughAll] at hn; omega)
  obtain ⟨tb, osb, trb, gb1, gb2⟩ := b2 (q := q) hsize (fun c hc => hform c ((h c).2 (.inr hc))) n (by simp only [enoughAll] at hn; omega)
  refine ⟨t, ta, tb, os, osa, osb, tr, tra, trb, g1, ga1, gb1, ?_⟩
  obtain ⟨e1, e2⟩ := switches_access hswa
  obtain ⟨e3, e4⟩ := switches_access hswb
  rw [g2, ga2, gb2, e1, e2, e3, e4]
  exact jointly_run hs (h.left.strict hs) (h.right.strict hs) (madeOf_case h) (fun c h => ⟨chain_low ht h, chain_five ht h⟩)
    (fun c h => ⟨chain_low hta h, chain_five hta h⟩) (fun c h => ⟨chain_low htb h, chain_five htb h⟩) ops ⟨rfl, rfl, rfl, rfl, rfl, rfl, by simp [EitherRefuses, Intervention.neutral]⟩

/-- C143 with a multipart form of up to 131072 bytes.  Missing: larger bodies, malformed forms. -/
theorem C143_multipart_partial {lib : Lib} (hm : lib.ReadsMedia) (hl : lib.ReadsForms) {vo : VarOrd} {ord : IterOrd} {text texta textb : Bytes} {dirs dirsa dirsb : List PDir} (ht : Program text dirs)
    (hta : Program texta dirsa) (htb : Program textb dirsb) (hok : ∀ d ∈ dirs, DirOk lib d) (hswa : switches dirsa = switches dirs) (hswb : switches dirsb = switches dirs)
    (h : MadeOf (chainsOf (rulesIn dirs)) (chainsOf (rulesIn dirsa)) (chainsOf (rulesIn dirsb))) (hs : StrictRules (chainsOf (rulesIn dirs)))
    {ops : List Op} {q : Int} {bnd : Bytes} {ps : List (Option Bytes × Bytes)}
    (hf : ReadsSentForm (chainsOf (rulesIn dirs)) q bnd ps ops) :
    IsWhole lib vo ord text texta textb (enoughAll dirs dirsa dirsb) ops := by
  obtain ⟨set, h1, h2⟩ := C133_machine hm hl (vo := vo) (ord := ord) ht hok (strict_noReturn hs)
  obtain ⟨seta, a1, a2⟩ := C133_machine hm hl (vo := vo) (ord := ord) hta (h.left.ok hok) (strict_noReturn (h.left.strict hs))
  obtain ⟨setb, b1, b2⟩ := C133_machine hm hl (vo := vo) (ord := ord) htb (h.right.ok hok) (strict_noReturn (h.right.strict hs))
  refine ⟨set, seta, setb, h1, a1, b1, fun n hn => ?_⟩
  obtain ⟨t, os, tr, g1, g2⟩ := h2 hf.size hf.form n (by simp only [enoughAll] at hn; omega)
  obtain ⟨ta, osa, tra, ga1, ga2⟩ := a2 (q := q) (bnd := bnd) (ps := ps) hf.size (fun c hc => hf.form c ((h c).2 (.inl hc))) n (by simp only [enoughAll] at hn; omega)
  obtain ⟨tb, osb, trb, gb1, gb2⟩ := b2 (q := q) (bnd := bnd) (ps := ps) hf.size (fun c hc => hf.form c ((h c).2 (.inr hc))) n (by simp only [enoughAll] at hn; omega)
  refine ⟨t, ta, tb, os, osa, osb, tr, tra, trb, g1, ga1, gb1, ?_⟩
  obtain ⟨e1, e2⟩ := switches_access hswa
  obtain ⟨e3, e4⟩ := switches_access hswb
  rw [g2, ga2, gb2, e1, e2, e3, e4]
  exact jointly_run hs (h.left.strict hs) (h.right.strict hs) (madeOf_case h) (fun c h => ⟨chain_low ht h, chain_five ht h⟩)
    (fun c h => ⟨chain_low hta h, chain_five hta h⟩) (fun c h => ⟨chain_low htb h, chain_five htb h⟩) ops ⟨rfl, rfl, rfl, rfl, rfl, rfl, by simp [EitherRefuses, Intervention.neutral]⟩

/-! ### The refutation -/

theorem Sample.look_strict : StrictRules [[lookRule], [countRule0]] := by
  intro c hc p hp a ha
  simp only [List.mem_cons, List.not_mem_nil, or_false] at hc
  rcases hc with rfl | rfl <;> rw [List.mem_singleton.1 hp] at ha <;> rw [List.mem_singleton.1 ha] <;> exact ⟨nofun, nofun⟩

/-- A malformed form shows nothing when it is first looked at: the second part alone refuses it for
having no arguments, the whole text, whose first rule has looked at it before, does not. -/
theorem C143_refuted : ¬ C143_statement := by
  intro h
  have p1 : Program b!"SecRequestBodyAccess On\nSecRule ARGS_POST \"@rx z\" \"id:2,phase:3,log\"\nSecRule &ARGS_POST \"@eq 0\" \"id:1,phase:3,deny\"\n"
    [.reqBody true, .rule lookRule, .rule countRule0] := (C53_exact id _ _).1 (by decide +kernel)
  have p2 : Program b!"SecRequestBodyAccess On\nSecRule ARGS_POST \"@rx z\" \"id:2,phase:3,log\"\n" [.reqBody true, .rule lookRule] := (C53_exact id _ _).1 (by decide +kernel)
  have p3 : Program b!"SecRequestBodyAccess On\nSecRule &ARGS_POST \"@eq 0\" \"id:1,phase:3,deny\"\n" [.reqBody true, .rule countRule0] := (C53_exact id _ _).1 (by decide +kernel)
  obtain ⟨set, t, os, tr, a1, a2, a3⟩ := textVerdicts_run (lib := mediaLib) (n := 9) (ops := badForm) (a := [false])
    (text := b!"SecRequestBodyAccess On\nSecRule ARGS_POST \"@rx z\" \"id:2,phase:3,log\"\nSecRule &ARGS_POST \"@eq 0\" \"id:1,phase:3,deny\"\n") (by decide +kernel)
  obtain ⟨seta, ta, osa, tra, b1, b2, b3⟩ := textVerdicts_run (lib := mediaLib) (n := 9) (ops := badForm) (a := [false])
    (text := b!"SecRequestBodyAccess On\nSecRule ARGS_POST \"@rx z\" \"id:2,phase:3,log\"\n") (by decide +kernel)
  obtain ⟨setb, tb, osb, trb, c1, c2, c3⟩ := textVerdicts_run (lib := mediaLib) (n := 9) (ops := badForm) (a := [true])
    (text := b!"SecRequestBodyAccess On\nSecRule &ARGS_POST \"@eq 0\" \"id:1,phase:3,deny\"\n") (by decide +kernel)
  have hp := h mediaLib varOrd Sample.ord _ _ _ _ _ _ set seta setb p1 p2 p3 rfl rfl (by
    intro c
    show c ∈ [[lookRule], [countRule0]] ↔ c ∈ [[lookRule]] ∨ c ∈ [[countRule0]]
    simp only [List.mem_cons, List.not_mem_nil, or_false]) look_strict a1 b1 c1 _ 9 t ta tb os osa osb tr tra trb a2 b2 c2
  generalize shown os = l at a3 hp
  generalize shown osa = la at b3 hp
  generalize shown osb = lb at c3 hp
  cases hp with
  | nil => cases a3
  | cons hv _ =>
    simp only [List.map_cons, List.cons.injEq] at a3 b3 c3
    have := hv.2 (.inr c3.1)
    rw [a3.1] at this; cases this

/-! ### Examples -/

/-- A rule on one of the variables of the request. -/
def Sample.evilAt (tk : VarTok) : PRule := evilIn [{ tk := tk }] false

theorem Sample.both_ok {lib : Lib} (hrx : ∃ f, lib.rx b!"evil" = some f) {tk tk' : VarTok} (h : tk ≠ .xml) (h' : tk' ≠ .xml) :
    ∀ d ∈ PDir.reqBody true :: [evilAt tk, evilAt tk'].map .rule, DirOk lib d := by
  intro d hd
  have one : ∀ {tk : VarTok}, tk ≠ .xml → DirOk lib (.rule (evilAt tk)) := fun {tk} htk => exempt_ok hrx htk _ (.tail _ (.head _)) |> fun g => {
    vars := fun v hv => g.vars v (List.mem_singleton.1 hv ▸ .head _)
    op := g.op
    acts := g.acts }
  simp only [List.map_cons, List.map_nil, List.mem_cons, List.not_mem_nil, or_false] at hd
  rcases hd with rfl | rfl | rfl
  · trivial
  · exact one h
  · exact one h'

theorem Sample.both_strict (tk tk' : VarTok) : StrictRules [[evilAt tk], [evilAt tk']] := by
  intro c hc p hp a ha
  simp only [List.mem_cons, List.not_mem_nil, or_false] at hc
  rcases hc with rfl | rfl <;> rw [List.mem_singleton.1 hp] at ha <;> rw [List.mem_singleton.1 ha] <;> exact ⟨nofun, nofun⟩

theorem Sample.both_made (tk tk' : VarTok) : MadeOf [[evilAt tk], [evilAt tk']] [[evilAt tk']] [[evilAt tk]] := by
  intro c
  simp only [List.mem_cons, List.not_mem_nil, or_false]
  exact Or.comm

/-- The headers and the cookies. -/
example (ops : List Op) : IsWhole lib varOrd Sample.ord
    b!"SecRequestBodyAccess On\nSecRule REQUEST_HEADERS \"@rx evil\" \"id:1,phase:3,deny\"\nSecRule REQUEST_COOKIES \"@rx evil\" \"id:1,phase:3,deny\"\n"
    b!"SecRequestBodyAccess On\nSecRule REQUEST_COOKIES \"@rx evil\" \"id:1,phase:3,deny\"\n"
    b!"SecRequestBodyAccess On\nSecRule REQUEST_HEADERS \"@rx evil\" \"id:1,phase:3,deny\"\n" 6 ops := by
  refine C143_whole_partial (dirs := .reqBody true :: [evilAt .requestHeaders, evilAt .requestCookies].map .rule) (dirsa := .reqBody true :: [evilAt .requestCookies].map .rule)
    (dirsb := .reqBody true :: [evilAt .requestHeaders].map .rule) ((C53_exact id _ _).1 (by decide +kernel)) ((C53_exact id _ _).1 (by decide +kernel))
    ((C53_exact id _ _).1 (by decide +kernel)) (both_ok ⟨_, rfl⟩ (by decide) (by decide)) (both_made _ _) ?_ (both_strict _ _) ops
  intro p hp v hv
  have hp : p ∈ [evilAt .requestHeaders, evilAt .requestCookies] := hp
  simp only [List.mem_cons, List.not_mem_nil, or_false] at hp
  rcases hp with rfl | rfl <;> rw [List.mem_singleton.1 hv] <;> rfl

/-- The headers and the fields of a form. -/
example (x y : Bytes) (hsize : x.length + y.length ≤ 131072) : IsWhole lib varOrd Sample.ord
    b!"SecRequestBodyAccess On\nSecRule REQUEST_HEADERS \"@rx evil\" \"id:1,phase:3,deny\"\nSecRule ARGS_POST \"@rx evil\" \"id:1,phase:3,deny\"\n"
    b!"SecRequestBodyAccess On\nSecRule ARGS_POST \"@rx evil\" \"id:1,phase:3,deny\"\n"
    b!"SecRequestBodyAccess On\nSecRule REQUEST_HEADERS \"@rx evil\" \"id:1,phase:3,deny\"\n" 6 (formOps x y ++ [.result]) := by
  refine C143_bodies_partial (q := 3) (dirs := .reqBody true :: [evilAt .requestHeaders, evilAt .argsPost].map .rule)
    (dirsa := .reqBody true :: [evilAt .argsPost].map .rule) (dirsb := .reqBody true :: [evilAt .requestHeaders].map .rule)
    ((C53_exact id _ _).1 (by decide +kernel)) ((C53_exact id _ _).1 (by decide +kernel)) ((C53_exact id _ _).1 (by decide +kernel))
    (both_ok ⟨_, rfl⟩ (by decide) (by decide)) rfl rfl (both_made _ _) (both_strict _ _) (by simpa [formOps, sent, chunkOf] using hsize) ?_
  intro c hc _ _
  have hc : c ∈ [[evilAt .requestHeaders], [evilAt .argsPost]] := hc
  simp only [List.mem_cons, List.not_mem_nil, or_false] at hc
  rcases hc with rfl | rfl <;> exact ⟨by show (3 : Int) ≤ 3; omega, (formOps_settled x y).result⟩

/-- The headers and the fields of a multipart form. -/
example {x y v : Bytes} (hxy : x ++ y = sentBody v) (h : 13 ∉ v) (hd : v.head? ≠ some 45) (hlen : (sentBody v).length ≤ 4096) : IsWhole formLib varOrd Sample.ord
    b!"SecRequestBodyAccess On\nSecRule REQUEST_HEADERS \"@rx evil\" \"id:1,phase:3,deny\"\nSecRule ARGS_POST \"@rx evil\" \"id:1,phase:3,deny\"\n"
    b!"SecRequestBodyAccess On\nSecRule ARGS_POST \"@rx evil\" \"id:1,phase:3,deny\"\n"
    b!"SecRequestBodyAccess On\nSecRule REQUEST_HEADERS \"@rx evil\" \"id:1,phase:3,deny\"\n" 6 (sentOps x y ++ [.result]) := by
  refine C143_multipart_partial formEnv_media formLib_reads (dirs := .reqBody true :: [evilAt .requestHeaders, evilAt .argsPost].map .rule)
    (dirsa := .reqBody true :: [evilAt .argsPost].map .rule) (dirsb := .reqBody true :: [evilAt .requestHeaders].map .rule)
    ((C53_exact id _ _).1 (by decide +kernel)) ((C53_exact id _ _).1 (by decide +kernel)) ((C53_exact id _ _).1 (by decide +kernel))
    (both_ok ⟨_, rfl⟩ (by decide) (by decide)) rfl rfl (both_made _ _) (both_strict _ _) (evil_reads ?_ hxy h hd hlen)
  intro c hc
  have hc : c ∈ [[evilAt .requestHeaders], [evilAt .argsPost]] := hc
  simp only [List.mem_cons, List.not_mem_nil, or_false] at hc
  rcases hc with rfl | rfl
  · exact ⟨_, _, _, _, rfl, rfl⟩
  · exact ⟨_, _, _, _, rfl, rfl⟩

end Verif
