import Verif.Model.Memory
import Verif.Model.Rule
import Verif.Model.Transaction
import Verif.Props.Sample
/-!
C85: a returned verdict is a snapshot.  C86: what a host does with it.
-/
namespace Verif

/-! ### Interventions as values -/

/-- The verdict of a transaction, as a value. -/
structure Spec.Verdict where
  abort : Bool := false
  iv : Option Intervention := none

/-- The current intervention (the neutral one before first use). -/
def Spec.Verdict.cur (v : Verdict) : Intervention := v.iv.getD .neutral

open Spec

/-- What the library does to interventions, on values: the new verdict and the value returned. -/
def Spec.Verdict.step (v : Verdict) : LibOp → Verdict × Option Intervention
  | .intervention => ({ v with iv := some v.cur }, some v.cur)
  | .logf line _ => ({ v with iv := some { v.cur with log := v.cur.log ++ [line] } }, none)
  | .assign st d => ({ v with iv := some { v.cur with status := st.getD v.cur.status, disruptive := d.getD v.cur.disruptive } }, none)
  | .setAbort => ({ v with abort := true }, none)
  | .reset => ({ v with iv := some .neutral }, none)
  | .result => ({ v with iv := some (if v.abort then v.cur else .neutral) }, some v.cur)

def Spec.Verdict.run (v : Verdict) : List LibOp → Verdict × List (Option Intervention)
  | [] => (v, [])
  | op :: ops => ((v.step op).1.run ops |>.1, (v.step op).2 :: ((v.step op).1.run ops).2)

/-! ### Well-formed memory -/

/-- Slices lie within their arrays, and no record that shares the array of the
transaction's own log sees further than the transaction does. -/
structure Mem.Ok (m : Mem) : Prop where
  live : ∀ a, m.live = some a → a < m.nCells
  len : ∀ b, b < m.nCells → (m.cells b).log.len ≤ (m.cells b).log.cap
  arr : ∀ b, b < m.nCells → 0 < (m.cells b).log.cap →
    (m.cells b).log.arr < m.nArrays ∧ (m.arrays (m.cells b).log.arr).length = (m.cells b).log.cap
  behind : ∀ a b, m.live = some a → b < m.nCells → 0 < (m.cells b).log.cap → 0 < (m.cells a).log.cap →
    (m.cells b).log.arr = (m.cells a).log.arr → (m.cells b).log.len ≤ (m.cells a).log.len

theorem Mem.Ok.empty : ({} : Mem).Ok :=
  ⟨(fun _ h => by cases h), fun _ h => absurd h (Nat.not_lt_zero _), fun _ h => absurd h (Nat.not_lt_zero _), (fun _ _ h => by cases h)⟩

/-- The memory shows the verdict. -/
structure Shows (m : Mem) (v : Verdict) : Prop where
  ok : m.Ok
  abort : m.abort = v.abort
  none : m.live = none → v.iv = none
  some : ∀ a, m.live = some a → v.iv = some (m.read a)

theorem put_same (m : Mem) (a : Nat) (c : IvCell) : (m.put a c).cells a = c := if_pos rfl
theorem put_other (m : Mem) {a b : Nat} (c : IvCell) (h : b ≠ a) : (m.put a c).cells b = m.cells b := if_neg h

theorem read_put_other (m : Mem) {a b : Nat} (c : IvCell) (h : b ≠ a) : (m.put a c).read b = m.read b := by
  simp only [Mem.read, put_other m c h, Mem.lines]; rfl

/-- After `Intervention()`. -/
theorem intervention_shows {m : Mem} {v : Verdict} (h : Shows m v) :
    ∃ a, (m.intervention).2 = a ∧ m.intervention.1.live = some a ∧ Shows m.intervention.1 { v with iv := some v.cur } ∧
      m.intervention.1.read a = v.cur ∧ (∀ b, b < m.nCells → m.intervention.1.read b = m.read b) ∧ m.nCells ≤ m.intervention.1.nCells ∧
      (∀ c, m.live = some c → c = a) ∧ (m.live = none → a = m.nCells) := by
  unfold Mem.intervention
  cases hl : m.live with
  | some a =>
    have hs := h.some a hl
    have hc : v.cur = m.read a := by simp [Verdict.cur, hs]
    exact ⟨a, rfl, hl, ⟨h.ok, h.abort, (fun e => by rw [hl] at e; cases e), (fun b hb => by rw [hl] at hb; cases hb; rw [hc])⟩, hc.symm,
      fun _ _ => rfl, Nat.le_refl _, fun c hc => (Option.some.inj hc).symm, (fun e => by cases e)⟩
  | none =>
    have hn := h.none hl
    have hc : v.cur = .neutral := by simp [Verdict.cur, hn]
    have hr : ∀ m' : Mem, m'.cells = (m.put m.nCells .neutral).cells → m'.read m.nCells = .neutral := by
      intro m' e
      simp only [Mem.read, e, put_same, Mem.lines, IvCell.neutral, Intervention.neutral, List.take_zero]
    refine ⟨m.nCells, rfl, rfl, ⟨⟨?_, ?_, ?_, ?_⟩, h.abort, (fun e => by cases e), ?_⟩, ?_, ?_, Nat.le_succ _, (fun c hc => by cases hc), fun _ => rfl⟩
    · intro a e; cases e; exact Nat.lt_succ_self _
    · intro b hb
      by_cases e : b = m.nCells
      · subst e; simp only [put_same, IvCell.neutral]; omega
      · simp only [put_other m _ e]
        exact h.ok.len b (by simp only at hb; omega)
    · intro b hb hcap
      by_cases e : b = m.nCells
      · subst e; simp only [put_same, IvCell.neutral] at hcap; omega
      · simp only [put_other m _ e] at hcap ⊢
        exact h.ok.arr b (by simp only at hb; omega) hcap
    · intro a b e hb h1 h2
      cases e
      simp only [put_same, IvCell.neutral] at h2; omega
    · intro a e; cases e
      rw [hc]; exact (congrArg some (hr _ rfl)).symm
    · rw [hc]; exact hr _ rfl
    · intro b hb
      show (m.put m.nCells .neutral).read b = _
      exact read_put_other m _ (by omega)

/-- After appending a line to the transaction's log. -/
theorem append_shows {m : Mem} {v : Verdict} {a : Nat} (h : Shows m v) (ha : m.live = some a) (line : Bytes) (grow : Nat) :
    let r := m.append (m.cells a).log line grow
    let m' := r.1.put a { r.1.cells a with log := r.2 }
    Shows m' { v with iv := some { v.cur with log := v.cur.log ++ [line] } } ∧ m'.live = some a ∧ m'.nCells = m.nCells ∧
      ∀ b, b < m.nCells → b ≠ a → m'.read b = m.read b := by
  have hlt := h.ok.live a ha
  have hs := h.some a ha
  have hc : v.cur = m.read a := by simp [Verdict.cur, hs]
  have hlen := h.ok.len a hlt
  have harr := h.ok.arr a hlt
  dsimp only
  unfold Mem.append
  by_cases hcap : (m.cells a).log.len < (m.cells a).log.cap
  · rw [if_pos hcap]
    obtain ⟨h1, h2⟩ := harr (by omega)
    have hother : ∀ b, b < m.nCells → b ≠ a → ((if (m.cells b).log.arr = (m.cells a).log.arr then
        (m.arrays (m.cells b).log.arr).set (m.cells a).log.len line else m.arrays (m.cells b).log.arr).take (m.cells b).log.len) =
        (m.arrays (m.cells b).log.arr).take (m.cells b).log.len := by
      intro b hb _
      split
      · rename_i e
        have := h.ok.len b hb
        by_cases hb0 : 0 < (m.cells b).log.cap
        · have := h.ok.behind a b ha hb hb0 (by omega) e
          rw [List.take_set_of_le this]
        · have : (m.cells b).log.len = 0 := by omega
          rw [this]; simp
      · rfl
    refine ⟨⟨⟨?_, ?_, ?_, ?_⟩, h.abort, ?_, ?_⟩, ha, rfl, ?_⟩
    · exact h.ok.live
    · intro b hb
      by_cases e : b = a
      · subst e; simp only [put_same]; omega
      · rw [put_other _ _ e]; exact h.ok.len b hb
    · intro b hb hb0
      have key : ∀ x, ((if x = (m.cells a).log.arr then (m.arrays x).set (m.cells a).log.len line else m.arrays x)).length = (m.arrays x).length := by
        intro x; split <;> simp
      by_cases e : b = a
      · subst e; simp only [put_same] at hb0 ⊢
        exact ⟨h1, (key _).trans h2⟩
      · rw [put_other _ _ e] at hb0 ⊢
        obtain ⟨g1, g2⟩ := h.ok.arr b hb hb0
        exact ⟨g1, (key _).trans g2⟩
    · intro a' b ha' hb hb0 ha0 e
      have : a' = a := Option.some.inj (ha'.symm.trans ha)
      subst this
      by_cases eb : b = a'
      · subst eb; exact Nat.le_refl _
      · rw [put_other _ _ eb] at hb0 e ⊢
        rw [put_same] at ha0 e ⊢
        have := h.ok.behind a' b ha hb hb0 ha0 e
        show (m.cells b).log.len ≤ (m.cells a').log.len + 1
        omega
    · intro e; have e : m.live = Option.none := e; rw [ha] at e; cases e
    · intro a' e
      have e : m.live = some a' := e
      have : a' = a := Option.some.inj (e.symm.trans ha)
      subst this
      rw [hc]
      simp only [Mem.read, put_same, Mem.lines, Option.some.injEq, Intervention.mk.injEq, true_and, and_true]
      show _ = List.take _ (if (m.cells a').log.arr = (m.cells a').log.arr then _ else _)
      rw [if_pos rfl, List.take_add_one, List.take_set_of_le (Nat.le_refl _), List.getElem?_set_self (by omega)]
      rfl
    · intro b hb hne
      simp only [Mem.read, put_other _ _ hne, Mem.lines]
      show Intervention.mk _ _ _ (List.take _ (if _ = _ then _ else _)) _ = _
      rw [hother b hb hne]
  · rw [if_neg hcap]
    have hfresh : ∀ b, b < m.nCells → 0 < (m.cells b).log.cap → (m.cells b).log.arr ≠ m.nArrays := fun b hb h0 => by
      have := (h.ok.arr b hb h0).1; omega
    refine ⟨⟨⟨?_, ?_, ?_, ?_⟩, h.abort, ?_, ?_⟩, ha, rfl, ?_⟩
    · exact h.ok.live
    · intro b hb
      by_cases e : b = a
      · subst e; simp only [put_same]; omega
      · rw [put_other _ _ e]; exact h.ok.len b hb
    · intro b hb hb0
      by_cases e : b = a
      · subst e
        simp only [put_same]
        refine ⟨Nat.lt_succ_self _, ?_⟩
        show (if m.nArrays = m.nArrays then _ else _ : List Bytes).length = _
        rw [if_pos rfl]
        have : (m.lines (m.cells b).log).length = (m.cells b).log.len := by
          simp only [Mem.lines, List.length_take]
          by_cases h0 : 0 < (m.cells b).log.cap
          · have := (harr h0).2; omega
          · omega
        simp only [List.length_append, List.length_cons, List.length_replicate, this]
        omega
      · rw [put_other _ _ e] at hb0 ⊢
        obtain ⟨g1, g2⟩ := h.ok.arr b hb hb0
        refine ⟨Nat.lt_succ_of_lt g1, ?_⟩
        show (if _ = m.nArrays then _ else _ : List Bytes).length = _
        rw [if_neg (hfresh b hb hb0)]; exact g2
    · intro a' b ha' hb hb0 ha0 e
      have : a' = a := Option.some.inj (ha'.symm.trans ha)
      subst this
      by_cases eb : b = a'
      · subst eb; exact Nat.le_refl _
      · rw [put_other _ _ eb] at hb0 e
        rw [put_same] at e
        exact absurd e (hfresh b hb hb0)
    · intro e; have e : m.live = Option.none := e; rw [ha] at e; cases e
    · intro a' e
      have e : m.live = some a' := e
      have : a' = a := Option.some.inj (e.symm.trans ha)
      subst this
      rw [hc]
      simp only [Mem.read, put_same, Option.some.injEq, Intervention.mk.injEq, true_and, and_true]
      show _ = List.take _ (if m.nArrays = m.nArrays then _ else _)
      rw [if_pos rfl]
      have : (m.lines (m.cells a').log).length = (m.cells a').log.len := by
        simp only [Mem.lines, List.length_take]
        by_cases h0 : 0 < (m.cells a').log.cap
        · have := (harr h0).2; omega
        · omega
      rw [← this, List.take_length_add_append]
      simp
    · intro b hb hne
      simp only [Mem.read, put_other _ _ hne]
      show Intervention.mk _ _ _ (List.take _ (if _ = _ then _ else _)) _ = _
      by_cases h0 : 0 < (m.cells b).log.cap
      · rw [if_neg (hfresh b hb h0)]; rfl
      · have := h.ok.len b hb
        have : (m.cells b).log.len = 0 := by omega
        simp [Mem.lines, this]

/-- After assigning fields of the transaction's intervention, its log kept or dropped. -/
theorem put_shows {m : Mem} {v : Verdict} {a : Nat} (h : Shows m v) (ha : m.live = some a) {c : IvCell}
    (hcl : c.log = (m.cells a).log ∨ c.log = {}) :
    Shows (m.put a c) { v with iv := some ((m.put a c).read a) } := by
  refine ⟨⟨h.ok.live, ?_, ?_, ?_⟩, h.abort, ?_, ?_⟩
  · intro b hb
    by_cases e : b = a
    · subst e; rw [put_same]
      rcases hcl with hcl | hcl <;> rw [hcl]
      · exact h.ok.len b hb
      · exact Nat.le_refl _
    · rw [put_other _ _ e]; exact h.ok.len b hb
  · intro b hb hb0
    by_cases e : b = a
    · subst e; rw [put_same] at hb0 ⊢
      rcases hcl with hcl | hcl <;> rw [hcl] at hb0 ⊢
      · exact h.ok.arr b hb hb0
      · exact absurd hb0 (Nat.lt_irrefl _)
    · rw [put_other _ _ e] at hb0 ⊢; exact h.ok.arr b hb hb0
  · intro a' b ha' hb hb0 ha0 e
    have : a' = a := Option.some.inj (ha'.symm.trans ha)
    subst this
    by_cases eb : b = a'
    · subst eb; exact Nat.le_refl _
    · rw [put_other _ _ eb] at hb0 e ⊢
      rw [put_same] at ha0 e ⊢
      rcases hcl with hcl | hcl <;> rw [hcl] at ha0 e ⊢
      · exact h.ok.behind a' b ha hb hb0 ha0 e
      · exact absurd ha0 (Nat.lt_irrefl _)
  · intro e; have e : m.live = Option.none := e; rw [ha] at e; cases e
  · intro a' e
    have e : m.live = some a' := e
    have : a' = a := Option.some.inj (e.symm.trans ha)
    subst this
    rfl

/-- After copying the transaction's intervention. -/
theorem copy_shows {m : Mem} {v : Verdict} {a : Nat} (h : Shows m v) (ha : m.live = some a) :
    Shows { m.put m.nCells (m.cells a) with nCells := m.nCells + 1 } v := by
  have hlt := h.ok.live a ha
  have hne : a ≠ m.nCells := by omega
  refine ⟨⟨?_, ?_, ?_, ?_⟩, h.abort, h.none, ?_⟩
  · intro a' ha'
    have := h.ok.live a' ha'
    show a' < m.nCells + 1
    omega
  · intro b hb
    have hb : b < m.nCells + 1 := hb
    by_cases e : b = m.nCells
    · subst e; rw [put_same]; exact h.ok.len a hlt
    · rw [put_other _ _ e]; exact h.ok.len b (by omega)
  · intro b hb hb0
    have hb : b < m.nCells + 1 := hb
    by_cases e : b = m.nCells
    · subst e; rw [put_same] at hb0 ⊢; exact h.ok.arr a hlt hb0
    · rw [put_other _ _ e] at hb0 ⊢; exact h.ok.arr b (by omega) hb0
  · intro a' b ha' hb hb0 ha0 e
    have hb : b < m.nCells + 1 := hb
    have : a' = a := Option.some.inj (ha'.symm.trans ha)
    subst this
    by_cases eb : b = m.nCells
    · subst eb; rw [put_same, put_other _ _ hne]; exact Nat.le_refl _
    · rw [put_other _ _ eb] at hb0 e ⊢
      rw [put_other _ _ hne] at ha0 e ⊢
      exact h.ok.behind a' b ha (by omega) hb0 ha0 e
  · intro a' ha'
    have ha' : m.live = some a' := ha'
    have : a' = a := Option.some.inj (ha'.symm.trans ha)
    subst this
    rw [h.some a' ha]
    exact congrArg some (read_put_other m _ hne).symm

theorem step_shows {m : Mem} {v : Verdict} (h : Shows m v) (op : LibOp) :
    Shows (m.step op).1 (v.step op).1 ∧ m.nCells ≤ (m.step op).1.nCells ∧ (∀ a, m.live = some a → (m.step op).1.live = some a) ∧
    (∀ b, b < m.nCells → m.live ≠ some b → (m.step op).1.live ≠ some b ∧ (m.step op).1.read b = m.read b) ∧
    (op = .result → ∃ b, (m.step op).2 = some b ∧ b < (m.step op).1.nCells ∧ (m.step op).1.live ≠ some b ∧
      (v.step op).2 = some ((m.step op).1.read b)) ∧
    (op = .intervention → ∃ a, (m.step op).2 = some a ∧ (m.step op).1.live = some a) := by
  obtain ⟨a, h1, h2, h3, h4, h5, h6, h7, h8⟩ := intervention_shows h
  have hlive : ∀ c, m.live = some c → m.intervention.1.live = some c := fun c hc => by rw [h2, h7 c hc]
  have hnot : ∀ b, b < m.nCells → m.live ≠ some b → b ≠ a := by
    intro b hb hl e
    subst e
    cases hm : m.live with
    | none => have := h8 hm; omega
    | some c => rw [h7 c hm] at hm; exact hl hm
  have hnl : ∀ b, b < m.nCells → m.live ≠ some b → m.intervention.1.live ≠ some b := fun b hb hl e => by
    rw [h2] at e; exact hnot b hb hl (Option.some.inj e).symm
  have hcur : Verdict.cur { v with iv := some v.cur } = v.cur := rfl
  cases op with
  | intervention =>
    refine ⟨h3, h6, hlive, fun b hb hl => ⟨hnl b hb hl, h5 b hb⟩, fun e => (by cases e), fun _ => ⟨a, congrArg some h1, h2⟩⟩
  | logf line grow =>
    obtain ⟨k1, k2, k3, k4⟩ := append_shows h3 h2 line grow
    rw [hcur] at k1
    simp only [Mem.step, h1]
    exact ⟨k1, by rw [k3]; exact h6, fun c hc => by rw [k2, h7 c hc],
      fun b hb hl => ⟨fun e => hnot b hb hl (Option.some.inj (k2.symm.trans e)).symm,
        (k4 b (by omega) (hnot b hb hl)).trans (h5 b hb)⟩, (fun e => by cases e), (fun e => by cases e)⟩
  | assign st d =>
    have k := put_shows h3 h2 (c := { m.intervention.1.cells a with
      status := st.getD (m.intervention.1.cells a).status, disruptive := d.getD (m.intervention.1.cells a).disruptive }) (.inl rfl)
    simp only [Mem.step, h1]
    refine ⟨?_, h6, hlive, fun b hb hl => ⟨hnl b hb hl, (read_put_other _ _ (hnot b hb hl)).trans (h5 b hb)⟩, (fun e => by cases e), (fun e => by cases e)⟩
    have e : ((m.intervention.1.put a { m.intervention.1.cells a with
      status := st.getD (m.intervention.1.cells a).status, disruptive := d.getD (m.intervention.1.cells a).disruptive }).read a) =
        { v.cur with status := st.getD v.cur.status, disruptive := d.getD v.cur.disruptive } := by
      rw [← h4]; simp only [Mem.read, put_same]; rfl
    rw [e] at k
    exact k
  | setAbort =>
    exact ⟨⟨⟨h.ok.live, h.ok.len, h.ok.arr, h.ok.behind⟩, rfl, h.none, h.some⟩, Nat.le_refl _, fun _ h => h,
      fun b hb hl => ⟨hl, rfl⟩, (fun e => by cases e), (fun e => by cases e)⟩
  | reset =>
    have k := put_shows h3 h2 (c := .neutral) (.inr rfl)
    simp only [Mem.step, h1]
    refine ⟨?_, h6, hlive, fun b hb hl => ⟨hnl b hb hl, (read_put_other _ _ (hnot b hb hl)).trans (h5 b hb)⟩, (fun e => by cases e), (fun e => by cases e)⟩
    have e : (m.intervention.1.put a .neutral).read a = .neutral := by
      simp only [Mem.read, put_same, Mem.lines, IvCell.neutral, List.take_zero, Intervention.neutral]
    rw [e] at k
    exact k
  | result =>
    have k := copy_shows h3 h2
    have hlt := h3.ok.live a h2
    have hread : Mem.read { m.intervention.1.put m.intervention.1.nCells (m.intervention.1.cells a) with nCells := m.intervention.1.nCells + 1 }
        m.intervention.1.nCells = v.cur := by
      rw [← h4]; simp only [Mem.read, put_same, Mem.lines]; rfl
    have hother : ∀ b, b < m.nCells → Mem.read { m.intervention.1.put m.intervention.1.nCells (m.intervention.1.cells a) with
        nCells := m.intervention.1.nCells + 1 } b = m.read b := fun b hb =>
      (read_put_other m.intervention.1 _ (by omega)).trans (h5 b hb)
    have hab : m.intervention.1.abort = v.abort := h3.abort
    have hs : m.step .result = (if m.intervention.1.abort = true then
        { m.intervention.1.put m.intervention.1.nCells (m.intervention.1.cells a) with nCells := m.intervention.1.nCells + 1 }
      else Mem.put { m.intervention.1.put m.intervention.1.nCells (m.intervention.1.cells a) with nCells := m.intervention.1.nCells + 1 }
        a .neutral, some m.intervention.1.nCells) := by simp only [Mem.step, h1]; rfl
    have hfresh : m.intervention.1.live ≠ some m.intervention.1.nCells := by
      intro e
      rw [h2] at e
      have := Option.some.inj e
      omega
    rw [hs, hab]
    simp only [Verdict.step]
    cases hA : v.abort with
    | true =>
      simp only [if_true]
      rw [hA] at k
      exact ⟨k, by show _ ≤ _ + 1; omega, hlive, fun b hb hl => ⟨hnl b hb hl, hother b hb⟩,
        fun _ => ⟨_, rfl, Nat.lt_succ_self _, hfresh, by rw [hread]⟩, (fun e => by cases e)⟩
    | false =>
      simp only [Bool.false_eq_true, if_false]
      have k' := put_shows k (a := a) h2 (c := .neutral) (.inr rfl)
      refine ⟨?_, by show _ ≤ _ + 1; omega, hlive,
        fun b hb hl => ⟨hnl b hb hl, (read_put_other _ _ (hnot b hb hl)).trans (hother b hb)⟩, fun _ => ⟨_, rfl, Nat.lt_succ_self _, hfresh, ?_⟩, (fun e => by cases e)⟩
      · have e : (Mem.put { m.intervention.1.put m.intervention.1.nCells (m.intervention.1.cells a) with nCells := m.intervention.1.nCells + 1 }
            a .neutral).read a = .neutral := by
          simp only [Mem.read, put_same, Mem.lines, IvCell.neutral, List.take_zero, Intervention.neutral]
        rw [e, hA] at k'
        exact k'
      · rw [read_put_other _ _ (by omega), hread]

theorem run_shows (ops : List LibOp) : ∀ {m : Mem} {v : Verdict}, Shows m v →
    Shows (m.run ops).1 (v.run ops).1 ∧ m.nCells ≤ (m.run ops).1.nCells ∧ (∀ a, m.live = some a → (m.run ops).1.live = some a) ∧
    ∀ b, b < m.nCells → m.live ≠ some b → (m.run ops).1.live ≠ some b ∧ (m.run ops).1.read b = m.read b := by
  induction ops with
  | nil => intro m v h; exact ⟨h, Nat.le_refl _, fun _ h => h, fun b _ hl => ⟨hl, rfl⟩⟩
  | cons op ops ih =>
    intro m v h
    obtain ⟨k1, k2, k3, k4, _, _⟩ := step_shows h op
    obtain ⟨i1, i2, i3, i4⟩ := ih k1
    refine ⟨i1, Nat.le_trans k2 i2, fun a ha => i3 a (k3 a ha), fun b hb hl => ?_⟩
    obtain ⟨g1, g2⟩ := k4 b hb hl
    obtain ⟨g3, g4⟩ := i4 b (by omega) g1
    exact ⟨g3, g4.trans g2⟩

theorem empty_shows : Shows {} {} := ⟨.empty, rfl, fun _ => rfl, fun _ h => by cases h⟩

/-- C85.  The record returned by `Result` shows, at the end of any history, the verdict
as it was when `Result` was called, whatever was logged, assigned, reset or returned
before and after. -/
theorem C85_snapshot (ops : List LibOp) : ∀ i : Nat, ops[i]? = some LibOp.result →
    ∃ a v, (({} : Mem).run ops).2[i]? = some (some a) ∧ (({} : Verdict).run ops).2[i]? = some (some v) ∧ (({} : Mem).run ops).1.read a = v := by
  have key : ∀ {m : Mem} {v : Verdict}, Shows m v → ∀ i : Nat, ops[i]? = some LibOp.result →
      ∃ a w, (m.run ops).2[i]? = some (some a) ∧ (v.run ops).2[i]? = some (some w) ∧ (m.run ops).1.read a = w := by
    induction ops with
    | nil => intro m v _ i h; cases h
    | cons op ops ih =>
      intro m v h i hi
      obtain ⟨k1, _, _, _, k5, _⟩ := step_shows h op
      cases i with
      | succ i => exact ih k1 i hi
      | zero =>
        obtain ⟨b, g1, g2, g3, g4⟩ := k5 (Option.some.inj hi)
        refine ⟨b, _, congrArg some g1, congrArg some g4, ?_⟩
        exact ((run_shows ops k1).2.2.2 b g2 g3).2
  exact key empty_shows

/-- C85, in contrast: the pointer returned by `Intervention` always shows the current
verdict, not the one at the time of the call. -/
theorem C85_live (ops : List LibOp) : ∀ i : Nat, ops[i]? = some LibOp.intervention →
    ∃ a, (({} : Mem).run ops).2[i]? = some (some a) ∧ (({} : Mem).run ops).1.read a = (({} : Verdict).run ops).1.cur := by
  have key : ∀ {m : Mem} {v : Verdict}, Shows m v → ∀ i : Nat, ops[i]? = some LibOp.intervention →
      ∃ a, (m.run ops).2[i]? = some (some a) ∧ (m.run ops).1.read a = (v.run ops).1.cur := by
    induction ops with
    | nil => intro m v _ i h; cases h
    | cons op ops ih =>
      intro m v h i hi
      obtain ⟨k1, _, _, _, _, k6⟩ := step_shows h op
      cases i with
      | succ i => exact ih k1 i hi
      | zero =>
        obtain ⟨a, g1, g2⟩ := k6 (Option.some.inj hi)
        refine ⟨a, congrArg some g1, ?_⟩
        obtain ⟨r1, _, r3, _⟩ := run_shows ops k1
        simp only [Mem.run, Verdict.run, Verdict.cur, r1.some a (r3 a g2), Option.getD_some]
  exact key empty_shows

/-! ### The calls of a transaction -/

/-- The verdict of a transaction of the value model. -/
def Tx.verdict (t : Tx) : Verdict := { abort := t.abort, iv := t.interv }

/-- A log line as `Logf` makes it. -/
def Tx.line (t : Tx) (msg : Bytes) : Bytes :=
  b!"[client " ++ t.srcIp ++ b!":" ++ t.srcPort ++ b!"] (phase " ++ itoa t.phase ++ b!") " ++ msg

/-- C85, the value model and the memory model agree on what the calls and actions do. -/
theorem C85_calls (t : Tx) (msg : Bytes) (code : Int) (err : Err) (g : Nat) :
    (t.touch.verdict, some t.intervention) = t.verdict.step .intervention ∧
    (t.result.1.verdict, some t.result.2) = t.verdict.step .result ∧
    t.resetIntervention.verdict = (t.verdict.run [.reset]).1 ∧
    (t.log msg).verdict = (t.verdict.run [.logf (t.line msg) g]).1 ∧
    (t.abortWithStatus code).verdict = (t.verdict.run [.setAbort, .assign (some code) (some true)]).1 ∧
    (t.abortWithError code err).verdict =
      (t.verdict.run [.setAbort, .assign (some code) (some true), .logf (t.line (b!"abort process with error " ++ err)) g]).1 ∧
    ∃ st, (denyDo t).verdict =
      (t.verdict.run [.intervention, .assign st (some true), .logf (t.line b!"ModSecurity: Access denied with code 403") g]).1 := by
  have hcur : t.verdict.cur = t.intervention := rfl
  refine ⟨rfl, ?_, rfl, rfl, rfl, rfl, ?_⟩
  · simp only [Tx.result, Verdict.step, hcur]
    cases h : t.abort <;> simp [Tx.touch, h, Tx.verdict, Tx.setIntervention, Tx.intervention]
  · simp only [denyDo]
    split
    · split <;> split <;> exact ⟨some _, rfl⟩
    · exact ⟨none, rfl⟩

/-- A call history of a transaction together with an execution in memory: each call does
some library operations that change the verdict as the call does, `Result` does exactly
its own.  `kept` lists the records returned by `Result` with the verdicts they stand for. -/
inductive Spec.Kept (env : Env) (rs : RuleSet) (n : Nat) : Tx → List Op → Mem → List (Nat × Intervention) → Mem → Prop
  | nil {t m} : Kept env rs n t [] m [] m
  | call {t op ops t' o tr block m kept m'} : t.step env rs n op = .ok (t', o, tr) → (t.verdict.run block).1 = t'.verdict →
      Kept env rs n t' ops (m.run block).1 kept m' → Kept env rs n t (op :: ops) m kept m'
  | result {t ops t' v tr a m kept m'} : t.step env rs n .result = .ok (t', .intervention v, tr) → (m.step .result).2 = some a →
      Kept env rs n t' ops (m.step .result).1 kept m' → Kept env rs n t (.result :: ops) m ((a, v) :: kept) m'

/-- C85 for whole histories: however the calls of a transaction change its verdict in
memory, every record returned by `Result` shows at the end what `Result` returned. -/
theorem C85_history {env : Env} {rs : RuleSet} {n : Nat} {l : Limits} {ops : List Op} {kept : List (Nat × Intervention)} {m' : Mem}
    (h : Kept env rs n (newTransaction l) ops {} kept m') : ∀ e ∈ kept, m'.read e.1 = e.2 := by
  have key : ∀ {t ops m kept m'}, Kept env rs n t ops m kept m' → Shows m t.verdict →
      (∀ e ∈ kept, m'.read e.1 = e.2) ∧ ∀ b, b < m.nCells → m.live ≠ some b → m'.read b = m.read b := by
    intro t ops m kept m' h
    induction h with
    | nil => exact fun _ => ⟨(fun e he => by cases he), fun _ _ _ => rfl⟩
    | @call t op ops t' o tr block m kept m' h1 h2 _ ih =>
      intro hs
      obtain ⟨r1, r2, r3, r4⟩ := run_shows block hs
      rw [h2] at r1
      obtain ⟨i1, i2⟩ := ih r1
      refine ⟨i1, fun b hb hl => ?_⟩
      obtain ⟨g1, g2⟩ := r4 b hb hl
      exact (i2 b (by omega) g1).trans g2
    | @result t ops t' v tr a m kept m' h1 h2 _ ih =>
      intro hs
      obtain ⟨k1, k2, k3, k4, k5, _⟩ := step_shows hs .result
      obtain ⟨b, g1, g2, g3, g4⟩ := k5 rfl
      have hv := (C85_calls t [] 0 [] 0).2.1
      simp only [Tx.step, Res.ok.injEq, Prod.mk.injEq, Out.intervention.injEq] at h1
      obtain ⟨rfl, rfl, rfl⟩ := h1
      rw [← hv] at k1 g4
      obtain ⟨i1, i2⟩ := ih k1
      rw [g1] at h2; cases h2
      refine ⟨?_, fun c hc hl => ?_⟩
      · intro e he
        rcases List.mem_cons.1 he with rfl | he
        · exact (i2 _ g2 g3).trans (Option.some.inj g4).symm
        · exact i1 e he
      · obtain ⟨f1, f2⟩ := k4 c hc hl
        exact (i2 c (by omega) f1).trans f2
  exact (key h empty_shows).1

/-- A history with two results, the first from before an abort: in memory the two
records differ although the log of the second shares its array with the transaction's. -/
example : let ops : List LibOp := [.logf b!"a" 3, .result, .setAbort, .logf b!"b" 3, .result, .logf b!"c" 0]
    let m := ({} : Mem).run ops
    m.2 = [none, some 1, none, none, some 2, none] ∧ (m.1.read 1).log = [b!"a"] ∧ (m.1.read 2).log = [b!"b"] ∧
    (m.1.read 0).log = [b!"b", b!"c"] ∧ (m.1.cells 2).log.arr = (m.1.cells 0).log.arr := by decide

/-- A transaction that is aborted, read, and logs on. -/
example : ∃ kept m', Kept Sample.env (Sample.rules []) 0 (newTransaction Sample.limits)
    [.abortWithStatus 503, .result, .logf b!"late"] {} kept m' ∧ kept ≠ [] ∧ (m'.read 0).log ≠ [] := by
  refine ⟨_, _, .call (block := [.setAbort, .assign (some 503) (some true)]) rfl rfl (.result rfl rfl (.call (block := [.logf _ 0]) rfl rfl .nil)), ?_, ?_⟩
  · simp
  · decide

/-! ### What a host does with a verdict it was given -/

/-- Library operations mixed with what the host does. -/
inductive MOp where
  | lib (op : LibOp)
  | host (op : KeeperOp)

/-- The record a host operation is about. -/
def KeeperOp.addr : KeeperOp → Nat
  | .assign a _ _ | .setLine a _ _ | .append a _ _ | .cut a _ => a

/-- The record returned by `Result`. -/
def Mem.returned (m : Mem) (op : LibOp) : List Nat := if op = .result then (m.step op).2.toList else []

/-- Run a mixed history; the values are those of the records returned by `Result`, read
at once. -/
def Mem.mixed (m : Mem) : List MOp → Mem × List Intervention
  | [] => (m, [])
  | .lib op :: ops =>
    (((m.step op).1.mixed ops).1, (m.returned op).map (m.step op).1.read ++ ((m.step op).1.mixed ops).2)
  | .host op :: ops => (m.host op).mixed ops

/-- What the results would be if the host did nothing. -/
def Spec.Verdict.results (v : Verdict) : List MOp → Verdict × List Intervention
  | [] => (v, [])
  | .lib op :: ops =>
    (((v.step op).1.results ops).1, (if op = .result then [v.cur] else []) ++ ((v.step op).1.results ops).2)
  | .host _ :: ops => v.results ops

/-- The host operations are about records returned by `Result` (`all`) and satisfy
`may`; `own` are those returned while the transaction was not aborted. -/
def Spec.Plays (may : List Nat → List Nat → KeeperOp → Prop) : Mem → List Nat → List Nat → List MOp → Prop
  | _, _, _, [] => True
  | m, all, own, .lib op :: ops =>
    Plays may (m.step op).1 (all ++ m.returned op) (own ++ if m.abort then [] else m.returned op) ops
  | m, all, own, .host op :: ops => op.addr ∈ all ∧ may all own op ∧ Plays may (m.host op) all own ops

/-- C86 as one would want it: whatever a host does to the records `Result` gave it,
later results and the current verdict are as if it had done nothing. -/
def C86_statement : Prop := ∀ ops : List MOp, Plays (fun _ _ _ => True) {} [] [] ops →
  (({} : Mem).mixed ops).2 = (({} : Verdict).results ops).2 ∧
  ∀ a, (({} : Mem).mixed ops).1.live = some a → (({} : Mem).mixed ops).1.read a = (({} : Verdict).results ops).1.cur

/-- C86 is false: after an abort, the returned log is still the transaction's own. -/
theorem C86_refuted : ¬ C86_statement := by
  intro h
  have := (h [.lib .setAbort, .lib (.logf b!"a" 0), .lib .result, .host (.setLine 1 0 b!"x"), .lib .result]
    ⟨by decide, trivial, trivial⟩).1
  revert this; decide

/-- The record shares its array with no other. -/
def Mem.Excl (m : Mem) (a : Nat) : Prop := ∀ b, b < m.nCells → b ≠ a → 0 < (m.cells b).log.cap → 0 < (m.cells a).log.cap →
  (m.cells b).log.arr ≠ (m.cells a).log.arr

/-- The records of `own`, and the transaction's own one until it is aborted, share
their arrays with no other. -/
structure Apart (m : Mem) (own : List Nat) : Prop where
  own : ∀ h ∈ own, h < m.nCells ∧ m.live ≠ some h ∧ m.Excl h
  live : m.abort = false → ∀ a, m.live = some a → m.Excl a

theorem intervention_apart {m : Mem} {own : List Nat} (h : Apart m own) : Apart m.intervention.1 own := by
  unfold Mem.intervention
  cases hl : m.live with
  | some a => exact h
  | none =>
    refine ⟨fun x hx => ?_, fun _ a e => ?_⟩
    · obtain ⟨h1, h2, h3⟩ := h.own x hx
      refine ⟨Nat.lt_succ_of_lt h1, fun e => by have := Option.some.inj e; omega, ?_⟩
      intro b hb hne hb0 hx0
      have hb : b < m.nCells + 1 := hb
      have ex : x ≠ m.nCells := by omega
      by_cases e : b = m.nCells
      · subst e; simp only [put_same, IvCell.neutral] at hb0; omega
      · simp only [put_other m _ e, put_other m _ ex] at hb0 hx0 ⊢
        exact h3 b (by omega) hne hb0 hx0
    · cases e
      intro b hb hne hb0 ha0
      simp only [put_same, IvCell.neutral] at ha0; omega

theorem append_apart {m : Mem} {own : List Nat} {a : Nat} (hok : m.Ok) (h : Apart m own) (ha : m.live = some a) (line : Bytes) (grow : Nat) :
    let r := m.append (m.cells a).log line grow
    Apart (r.1.put a { r.1.cells a with log := r.2 }) own := by
  have hlt := hok.live a ha
  dsimp only
  unfold Mem.append
  by_cases hcap : (m.cells a).log.len < (m.cells a).log.cap
  · rw [if_pos hcap]
    have key : ∀ x, m.Excl x → Mem.Excl (Mem.put { m with arrays := fun b => if b = (m.cells a).log.arr then (m.arrays b).set (m.cells a).log.len line else m.arrays b }
        a { m.cells a with log := { (m.cells a).log with len := (m.cells a).log.len + 1 } }) x := by
      intro x hx b hb hne hb0 hx0
      have hb : b < m.nCells := hb
      have e : ∀ y, ((Mem.put { m with arrays := fun b => if b = (m.cells a).log.arr then (m.arrays b).set (m.cells a).log.len line else m.arrays b }
          a { m.cells a with log := { (m.cells a).log with len := (m.cells a).log.len + 1 } }).cells y).log.arr = (m.cells y).log.arr ∧
          ((Mem.put { m with arrays := fun b => if b = (m.cells a).log.arr then (m.arrays b).set (m.cells a).log.len line else m.arrays b }
          a { m.cells a with log := { (m.cells a).log with len := (m.cells a).log.len + 1 } }).cells y).log.cap = (m.cells y).log.cap := by
        intro y
        by_cases ey : y = a
        · subst ey; simp only [put_same, and_self]
        · simp only [put_other _ _ ey, and_self]
      rw [(e b).2] at hb0
      rw [(e x).2] at hx0
      rw [(e b).1, (e x).1]
      exact hx b hb hne hb0 hx0
    exact ⟨fun x hx => ⟨(h.own x hx).1, (h.own x hx).2.1, key x (h.own x hx).2.2⟩, fun hA c hc => key c (h.live hA c hc)⟩
  · rw [if_neg hcap]
    refine ⟨fun x hx => ?_, fun hA c hc => ?_⟩
    · obtain ⟨h1, h2, h3⟩ := h.own x hx
      refine ⟨h1, h2, ?_⟩
      intro b hb hne hb0 hx0
      have hb : b < m.nCells := hb
      have ex : x ≠ a := fun e => h2 (by rw [ha, e])
      rw [put_other _ _ ex] at hx0 ⊢
      by_cases e : b = a
      · subst e
        rw [put_same]
        have := (hok.arr x h1 hx0).1
        show m.nArrays ≠ _
        exact fun e => absurd this (by rw [e]; exact Nat.lt_irrefl _)
      · rw [put_other _ _ e] at hb0 ⊢
        exact h3 b hb hne hb0 hx0
    · have : c = a := Option.some.inj (hc.symm.trans ha)
      subst this
      intro b hb hne hb0 hx0
      rw [put_other _ _ hne] at hb0 ⊢
      rw [put_same]
      have := (hok.arr b hb hb0).1
      exact fun e => absurd this (by rw [show (m.cells b).log.arr = m.nArrays from e]; exact Nat.lt_irrefl _)

theorem put_apart {m : Mem} {own : List Nat} {a : Nat} (h : Apart m own) {c : IvCell} (hcl : c.log = (m.cells a).log ∨ c.log = {}) :
    Apart (m.put a c) own := by
  have key : ∀ x, m.Excl x → (m.put a c).Excl x := by
    intro x hx b hb hne hb0 hx0
    have e : ∀ y, 0 < ((m.put a c).cells y).log.cap → ((m.put a c).cells y).log = (m.cells y).log := by
      intro y hy
      by_cases ey : y = a
      · subst ey; rw [put_same] at hy ⊢
        rcases hcl with hcl | hcl
        · exact hcl
        · rw [hcl] at hy; exact absurd hy (Nat.lt_irrefl _)
      · rw [put_other _ _ ey]
    have eb := e b hb0
    have ex := e x hx0
    rw [eb] at hb0 ⊢
    rw [ex] at hx0 ⊢
    exact hx b hb hne hb0 hx0
  exact ⟨fun x hx => ⟨(h.own x hx).1, (h.own x hx).2.1, key x (h.own x hx).2.2⟩, fun hA c hc => key c (h.live hA c hc)⟩

theorem step_apart {m : Mem} {v : Verdict} {own : List Nat} (hs : Shows m v) (h : Apart m own) (op : LibOp) :
    Apart (m.step op).1 (own ++ if m.abort then [] else m.returned op) := by
  obtain ⟨a, h1, h2, h3, _⟩ := intervention_shows hs
  have hi := intervention_apart h
  have nil : ∀ own : List Nat, (own ++ if m.abort = true then [] else []) = own := by intro own; split <;> simp
  cases op with
  | intervention =>
    rw [show m.returned (.intervention) = [] from rfl, nil]
    exact hi
  | logf line grow =>
    rw [show m.returned (.logf line grow) = [] from rfl, nil]
    have := append_apart h3.ok hi h2 line grow
    simp only [Mem.step, h1]
    exact this
  | assign st d =>
    rw [show m.returned (.assign st d) = [] from rfl, nil]
    simp only [Mem.step, h1]
    exact put_apart hi (.inl rfl)
  | setAbort =>
    rw [show m.returned (.setAbort) = [] from rfl, nil]
    exact ⟨h.own, fun e => by cases e⟩
  | reset =>
    rw [show m.returned (.reset) = [] from rfl, nil]
    simp only [Mem.step, h1]
    exact put_apart hi (.inr rfl)
  | result =>
    have hab : m.intervention.1.abort = m.abort := h3.abort.trans hs.abort.symm
    have hlt := h3.ok.live a h2
    have hs' : m.step .result = (if m.intervention.1.abort = true then
        { m.intervention.1.put m.intervention.1.nCells (m.intervention.1.cells a) with nCells := m.intervention.1.nCells + 1 }
      else Mem.put { m.intervention.1.put m.intervention.1.nCells (m.intervention.1.cells a) with nCells := m.intervention.1.nCells + 1 }
        a .neutral, some m.intervention.1.nCells) := by simp only [Mem.step, h1]; rfl
    have hr : m.returned .result = [m.intervention.1.nCells] := by simp [Mem.returned, hs']
    rw [hr, hs', hab]
    revert hab h2 h3 hi hlt
    generalize m.intervention.1 = m1
    intro h2 h3 hi hab hlt
    have hne : a ≠ m1.nCells := by omega
    have hcell : ∀ x, x < m1.nCells → (m1.put m1.nCells (m1.cells a)).cells x = m1.cells x := fun x hx => put_other _ _ (by omega)
    cases hA : m.abort with
    | true =>
      rw [hA] at hab
      simp only [if_true, List.append_nil]
      refine ⟨fun x hx => ?_, fun e => ?_⟩
      · obtain ⟨g1, g2, g3⟩ := hi.own x hx
        refine ⟨Nat.lt_succ_of_lt g1, g2, ?_⟩
        intro b hb hbx hb0 hx0
        have hb : b < m1.nCells + 1 := hb
        simp only [hcell x g1] at hx0 ⊢
        by_cases e : b = m1.nCells
        · subst e
          simp only [put_same] at hb0 ⊢
          exact g3 a hlt (fun e => g2 (by rw [h2, e])) hb0 hx0
        · simp only [hcell b (by omega)] at hb0 ⊢
          exact g3 b (by omega) hbx hb0 hx0
      · have e : m1.abort = false := e
        rw [hab] at e; cases e
    | false =>
      rw [hA] at hab
      simp only [Bool.false_eq_true, if_false]
      have hexa := hi.live hab a h2
      have c1 : ∀ x, x < m1.nCells → x ≠ a →
          (Mem.put { m1.put m1.nCells (m1.cells a) with nCells := m1.nCells + 1 } a .neutral).cells x = m1.cells x := fun x hx hxa =>
        (put_other _ _ hxa).trans (hcell x hx)
      have c2 : (Mem.put { m1.put m1.nCells (m1.cells a) with nCells := m1.nCells + 1 } a .neutral).cells m1.nCells = m1.cells a :=
        (put_other _ _ (Ne.symm hne)).trans (put_same _ _ _)
      have c3 : (Mem.put { m1.put m1.nCells (m1.cells a) with nCells := m1.nCells + 1 } a .neutral).cells a = .neutral := put_same _ _ _
      refine ⟨fun x hx => ?_, fun _ c hc => ?_⟩
      · rcases List.mem_append.1 hx with hx | hx
        · obtain ⟨g1, g2, g3⟩ := hi.own x hx
          have hxa : x ≠ a := fun e => g2 (by rw [h2, e])
          refine ⟨Nat.lt_succ_of_lt g1, g2, ?_⟩
          intro b hb hbx hb0 hx0
          have hb : b < m1.nCells + 1 := hb
          rw [c1 x g1 hxa] at hx0 ⊢
          by_cases e : b = m1.nCells
          · subst e
            rw [c2] at hb0 ⊢
            exact g3 a hlt (Ne.symm hxa) hb0 hx0
          · by_cases e' : b = a
            · subst e'; rw [c3] at hb0; exact absurd hb0 (Nat.lt_irrefl _)
            · rw [c1 b (by omega) e'] at hb0 ⊢
              exact g3 b (by omega) hbx hb0 hx0
        · have hx : x = m1.nCells := by simpa using hx
          subst hx
          refine ⟨Nat.lt_succ_self _, fun e => ?_, ?_⟩
          · have e : m1.live = some m1.nCells := e
            rw [h2] at e
            exact hne (Option.some.inj e)
          · intro b hb hbx hb0 hx0
            have hb : b < m1.nCells + 1 := hb
            rw [c2] at hx0 ⊢
            by_cases e' : b = a
            · subst e'; rw [c3] at hb0; exact absurd hb0 (Nat.lt_irrefl _)
            · rw [c1 b (by omega) e'] at hb0 ⊢
              exact hexa b (by omega) e' hb0 hx0
      · have hc : m1.live = some c := hc
        have : c = a := Option.some.inj (hc.symm.trans h2)
        subst this
        intro b hb hbx hb0 hx0
        rw [c3] at hx0; exact absurd hx0 (Nat.lt_irrefl _)

/-- A change to one record that is not the transaction's: its slice may change within its
array, which no other record shares, or move to a new array. -/
theorem foreign {m m' : Mem} {v : Verdict} {x : Nat} (h : Shows m v) (hx : x < m.nCells) (hl : m.live ≠ some x)
    (hn : m'.nCells = m.nCells) (hli : m'.live = m.live) (hab : m'.abort = m.abort) (hna : m.nArrays ≤ m'.nArrays)
    (hc : ∀ b, b ≠ x → m'.cells b = m.cells b)
    (hlen : (m'.cells x).log.len ≤ (m'.cells x).log.cap)
    (hold : 0 < (m'.cells x).log.cap → (m'.cells x).log.arr < m'.nArrays ∧ (m'.arrays (m'.cells x).log.arr).length = (m'.cells x).log.cap)
    (harr : ∀ b, b < m.nCells → b ≠ x → 0 < (m.cells b).log.cap → m'.arrays (m.cells b).log.arr = m.arrays (m.cells b).log.arr)
    (hbeh : ∀ a, m.live = some a → 0 < (m'.cells x).log.cap → 0 < (m.cells a).log.cap → (m'.cells x).log.arr = (m.cells a).log.arr →
      (m'.cells x).log.len ≤ (m.cells a).log.len) :
    Shows m' v ∧ ∀ b, b < m.nCells → b ≠ x → m'.read b = m.read b := by
  have hread : ∀ b, b < m.nCells → b ≠ x → m'.read b = m.read b := by
    intro b hb hne
    simp only [Mem.read, hc b hne, Mem.lines]
    by_cases h0 : 0 < (m.cells b).log.cap
    · rw [harr b hb hne h0]
    · have := h.ok.len b hb
      have : (m.cells b).log.len = 0 := by omega
      simp [this]
  have hne : ∀ a, m.live = some a → a ≠ x := fun a ha e => hl (by rw [ha, e])
  refine ⟨⟨⟨?_, ?_, ?_, ?_⟩, hab.trans h.abort, by rw [hli]; exact h.none, ?_⟩, hread⟩
  · rw [hli, hn]; exact h.ok.live
  · intro b hb
    rw [hn] at hb
    by_cases e : b = x
    · subst e; exact hlen
    · rw [hc b e]; exact h.ok.len b hb
  · intro b hb hb0
    rw [hn] at hb
    by_cases e : b = x
    · subst e; exact hold hb0
    · rw [hc b e] at hb0 ⊢
      obtain ⟨g1, g2⟩ := h.ok.arr b hb hb0
      exact ⟨by omega, by rw [harr b hb e hb0]; exact g2⟩
  · intro a b ha hb hb0 ha0 e
    rw [hli] at ha
    rw [hn] at hb
    rw [hc a (hne a ha)] at ha0 e ⊢
    by_cases eb : b = x
    · subst eb; exact hbeh a ha hb0 ha0 e
    · rw [hc b eb] at hb0 e ⊢
      exact h.ok.behind a b ha hb hb0 ha0 e
  · intro a ha
    rw [hli] at ha
    rw [h.some a ha, hread a (h.ok.live a ha) (hne a ha)]

theorem foreign_apart {m m' : Mem} {own : List Nat} {x : Nat} (h : Apart m own) (hok : m.Ok)
    (hn : m'.nCells = m.nCells) (hli : m'.live = m.live) (hab : m'.abort = m.abort)
    (hc : ∀ b, b ≠ x → m'.cells b = m.cells b)
    (harr : ((m'.cells x).log.arr = (m.cells x).log.arr ∧ (m'.cells x).log.cap = (m.cells x).log.cap) ∨ (m'.cells x).log.arr = m.nArrays) :
    Apart m' own := by
  have key : ∀ y, y < m.nCells → m.Excl y → m'.Excl y := by
    intro y hy hex b hb hne hb0 hy0
    rw [hn] at hb
    rcases harr with ⟨h1, h2⟩ | h1
    · have e : ∀ z, (m'.cells z).log.arr = (m.cells z).log.arr ∧ (m'.cells z).log.cap = (m.cells z).log.cap := by
        intro z
        by_cases ez : z = x
        · subst ez; exact ⟨h1, h2⟩
        · rw [hc z ez]; exact ⟨rfl, rfl⟩
      rw [(e b).2] at hb0
      rw [(e y).2] at hy0
      rw [(e b).1, (e y).1]
      exact hex b hb hne hb0 hy0
    · by_cases eb : b = x
      · subst eb
        rw [hc y (Ne.symm hne)] at hy0 ⊢
        have := (hok.arr y hy hy0).1
        rw [h1]; omega
      · rw [hc b eb] at hb0 ⊢
        by_cases ey : y = x
        · subst ey
          have := (hok.arr b hb hb0).1
          rw [h1]; omega
        · rw [hc y ey] at hy0 ⊢
          exact hex b hb hne hb0 hy0
  refine ⟨fun y hy => ?_, fun hA a ha => ?_⟩
  · obtain ⟨h1, h2, h3⟩ := h.own y hy
    exact ⟨by rw [hn]; exact h1, by rw [hli]; exact h2, key y h1 h3⟩
  · rw [hli] at ha
    rw [hab] at hA
    exact key a (hok.live a ha) (h.live hA a ha)

theorem foreign_all {m m' : Mem} {v : Verdict} {own : List Nat} {x : Nat} (h : Shows m v) (hap : Apart m own) (hx : x < m.nCells) (hl : m.live ≠ some x)
    (hn : m'.nCells = m.nCells) (hli : m'.live = m.live) (hab : m'.abort = m.abort) (hna : m.nArrays ≤ m'.nArrays)
    (hc : ∀ b, b ≠ x → m'.cells b = m.cells b)
    (hlen : (m'.cells x).log.len ≤ (m'.cells x).log.cap)
    (hold : 0 < (m'.cells x).log.cap → (m'.cells x).log.arr < m'.nArrays ∧ (m'.arrays (m'.cells x).log.arr).length = (m'.cells x).log.cap)
    (harr : ∀ b, b < m.nCells → b ≠ x → 0 < (m.cells b).log.cap → m'.arrays (m.cells b).log.arr = m.arrays (m.cells b).log.arr)
    (hbeh : ∀ a, m.live = some a → 0 < (m'.cells x).log.cap → 0 < (m.cells a).log.cap → (m'.cells x).log.arr = (m.cells a).log.arr →
      (m'.cells x).log.len ≤ (m.cells a).log.len)
    (hap' : ((m'.cells x).log.arr = (m.cells x).log.arr ∧ (m'.cells x).log.cap = (m.cells x).log.cap) ∨ (m'.cells x).log.arr = m.nArrays) :
    Shows m' v ∧ Apart m' own ∧ m'.nCells = m.nCells ∧ m'.live = m.live ∧ ∀ b, b < m.nCells → b ≠ x → m'.read b = m.read b := by
  obtain ⟨k1, k2⟩ := foreign h hx hl hn hli hab hna hc hlen hold harr hbeh
  exact ⟨k1, foreign_apart hap h.ok hn hli hab hc hap', hn, hli, k2⟩

theorem host_apart {m : Mem} {v : Verdict} {own : List Nat} (h : Shows m v) (hap : Apart m own) (op : KeeperOp) (hx : op.addr < m.nCells)
    (hl : m.live ≠ some op.addr) (hmay : op.addr ∈ own ∨ ∃ a st d, op = .assign a st d) :
    Shows (m.host op) v ∧ Apart (m.host op) own ∧ (m.host op).nCells = m.nCells ∧ (m.host op).live = m.live ∧
    ∀ b, b < m.nCells → b ≠ op.addr → (m.host op).read b = m.read b := by
  have hne : ∀ a, m.live = some a → a ≠ op.addr := fun a ha e => hl (by rw [ha, e])
  have hlen := h.ok.len op.addr hx
  have harr := h.ok.arr op.addr hx
  have hex : (∃ a st d, op = .assign a st d) ∨ m.Excl op.addr := by
    rcases hmay with hmay | e
    · exact .inr (hap.own _ hmay).2.2
    · exact .inl e
  revert hx hl hne hlen harr hex hmay
  cases op with
  | assign x st d =>
    simp only [KeeperOp.addr]
    intro hx hl _ hne hlen harr hex
    refine foreign_all (x := x) h hap hx hl rfl rfl rfl (Nat.le_refl _) (fun b hb => put_other _ _ hb) ?_ ?_ (fun _ _ _ _ => rfl) ?_ ?_
    all_goals simp only [Mem.host, put_same]
    · exact hlen
    · exact harr
    · exact fun a ha => h.ok.behind a x ha hx
    · exact .inl ⟨trivial, trivial⟩
  | setLine x i line =>
    simp only [KeeperOp.addr]
    intro hx hl _ hne hlen harr hex
    have hex := hex.resolve_left (by rintro ⟨_, _, _, e⟩; cases e)
    simp only [Mem.host]
    split
    · rename_i hi
      have hc0 : 0 < (m.cells x).log.cap := by omega
      have hlenset : ∀ y, (if y = (m.cells x).log.arr then (m.arrays y).set i line else m.arrays y).length = (m.arrays y).length := by
        intro y; split <;> simp
      exact foreign_all (x := x) h hap hx hl rfl rfl rfl (Nat.le_refl _) (fun _ _ => rfl) hlen
        (fun h0 => ⟨(harr h0).1, (hlenset _).trans (harr h0).2⟩)
        (fun b hb hbx hb0 => if_neg (hex b hb hbx hb0 hc0)) (fun a ha h1 h2 e => absurd e.symm (hex a (h.ok.live a ha) (hne a ha) h2 h1))
        (.inl ⟨rfl, rfl⟩)
    · exact ⟨h, hap, rfl, rfl, fun _ _ _ => rfl⟩
  | append x line grow =>
    simp only [KeeperOp.addr]
    intro hx hl _ hne hlen harr hex
    have hex := hex.resolve_left (by rintro ⟨_, _, _, e⟩; cases e)
    simp only [Mem.host, Mem.append]
    by_cases hcap : (m.cells x).log.len < (m.cells x).log.cap
    · rw [if_pos hcap]
      have hc0 : 0 < (m.cells x).log.cap := by omega
      have hlenset : ∀ y, (if y = (m.cells x).log.arr then (m.arrays y).set (m.cells x).log.len line else m.arrays y).length = (m.arrays y).length := by
        intro y; split <;> simp
      refine foreign_all (x := x) h hap hx hl rfl rfl rfl (Nat.le_refl _) (fun b hb => put_other _ _ hb) ?_ ?_
        (fun b hb hbx hb0 => if_neg (hex b hb hbx hb0 hc0)) ?_ ?_
      all_goals simp only [put_same]
      · exact hcap
      · exact fun h0 => ⟨(harr h0).1, (hlenset _).trans (harr h0).2⟩
      · exact fun a ha h1 h2 e => absurd e.symm (hex a (h.ok.live a ha) (hne a ha) h2 h1)
      · exact .inl ⟨trivial, trivial⟩
    · rw [if_neg hcap]
      have hlines : (m.lines (m.cells x).log).length = (m.cells x).log.len := by
        simp only [Mem.lines, List.length_take]
        by_cases h0 : 0 < (m.cells x).log.cap
        · have := (harr h0).2; omega
        · omega
      have hfresh : ∀ b, b < m.nCells → 0 < (m.cells b).log.cap → (m.cells b).log.arr ≠ m.nArrays := fun b hb h0 => by
        have := (h.ok.arr b hb h0).1; omega
      refine foreign_all (x := x) h hap hx hl rfl rfl rfl (Nat.le_succ _) (fun b hb => put_other _ _ hb) ?_ ?_
        (fun b hb _ hb0 => if_neg (hfresh b hb hb0)) ?_ ?_
      all_goals simp only [put_same]
      · exact Nat.le_add_right _ _
      · refine fun _ => ⟨Nat.lt_succ_self _, ?_⟩
        show (if m.nArrays = m.nArrays then _ else _ : List Bytes).length = (m.cells x).log.len + 1 + grow
        rw [if_pos rfl]
        simp only [List.length_append, List.length_cons, List.length_replicate, hlines]
        omega
      · exact fun a ha _ h2 e => absurd e.symm (hfresh a (h.ok.live a ha) h2)
      · exact .inr trivial
  | cut x n =>
    simp only [KeeperOp.addr]
    intro hx hl _ hne hlen harr hex
    have hex := hex.resolve_left (by rintro ⟨_, _, _, e⟩; cases e)
    simp only [Mem.host]
    split
    · rename_i hn
      refine foreign_all (x := x) h hap hx hl rfl rfl rfl (Nat.le_refl _) (fun b hb => put_other _ _ hb) ?_ ?_ (fun _ _ _ _ => rfl) ?_ ?_
      all_goals simp only [put_same]
      · exact hn
      · exact harr
      · exact fun a ha h1 h2 e => absurd e.symm (hex a (h.ok.live a ha) (hne a ha) h2 h1)
      · exact .inl ⟨trivial, trivial⟩
    · exact ⟨h, hap, rfl, rfl, fun _ _ _ => rfl⟩

/-- C86, as far as it holds: a host may do anything to records returned while the
transaction was not aborted, and assign the fields of any other; nothing of it shows
in later results or in the current verdict. -/
theorem C86_host_partial (ops : List MOp)
    (h : Plays (fun _ own op => op.addr ∈ own ∨ ∃ a st d, op = .assign a st d) {} [] [] ops) :
    (({} : Mem).mixed ops).2 = (({} : Verdict).results ops).2 ∧
    ∀ a, (({} : Mem).mixed ops).1.live = some a → (({} : Mem).mixed ops).1.read a = (({} : Verdict).results ops).1.cur := by
  have key : ∀ {m : Mem} {v : Verdict} {all own : List Nat}, Shows m v → Apart m own → (∀ x ∈ all, x < m.nCells ∧ m.live ≠ some x) →
      Plays (fun _ own op => op.addr ∈ own ∨ ∃ a st d, op = .assign a st d) m all own ops →
      (m.mixed ops).2 = (v.results ops).2 ∧ Shows (m.mixed ops).1 (v.results ops).1 := by
    clear h
    induction ops with
    | nil => intro m v all own h _ _ _; exact ⟨rfl, h⟩
    | cons op ops ih =>
      intro m v all own h hap hall hp
      cases op with
      | host op =>
        obtain ⟨p1, p2, p3⟩ := hp
        obtain ⟨k1, k2, k3, k4, _⟩ := host_apart h hap op (hall _ p1).1 (hall _ p1).2 p2
        exact ih k1 k2 (by rw [k3, k4]; exact hall) p3
      | lib op =>
        obtain ⟨k1, k2, k3, k4, k5, _⟩ := step_shows h op
        have hret : ∀ x, x ∈ m.returned op → op = .result ∧ (m.step op).2 = some x := by
          intro x hx
          simp only [Mem.returned] at hx
          split at hx
          · exact ⟨by assumption, Option.mem_toList.1 hx⟩
          · cases hx
        have hall' : ∀ x ∈ all ++ m.returned op, x < (m.step op).1.nCells ∧ (m.step op).1.live ≠ some x := by
          intro x hx
          rcases List.mem_append.1 hx with hx | hx
          · exact ⟨Nat.lt_of_lt_of_le (hall x hx).1 k2, (k4 x (hall x hx).1 (hall x hx).2).1⟩
          · obtain ⟨e, g⟩ := hret x hx
            obtain ⟨b, g1, g2, g3, _⟩ := k5 e
            rw [g] at g1; cases g1
            exact ⟨g2, g3⟩
        obtain ⟨i1, i2⟩ := ih k1 (step_apart h hap op) hall' hp
        refine ⟨?_, i2⟩
        simp only [Mem.mixed, Verdict.results, i1]
        congr 1
        by_cases e : op = .result
        · obtain ⟨b, g1, _, _, g4⟩ := k5 e
          subst e
          simp only [Verdict.step, Option.some.injEq] at g4
          simp [Mem.returned, g1, g4]
        · simp [Mem.returned, e]
  obtain ⟨k1, k2⟩ := key empty_shows ⟨fun x hx => (by cases hx), fun _ _ e => (by cases e)⟩ (fun x hx => by cases hx) h
  exact ⟨k1, fun a ha => by simp [Verdict.cur, k2.some a ha]⟩

/-- A host that rewrites, extends and cuts the log it was given, and assigns a field of
one returned after an abort. -/
example : Plays (fun _ own op => op.addr ∈ own ∨ ∃ a st d, op = .assign a st d) {} [] []
    [.lib (.logf b!"a" 2), .lib .result, .host (.setLine 1 0 b!"x"), .host (.append 1 b!"y" 0), .host (.cut 1 1), .lib .setAbort,
      .lib (.logf b!"b" 2), .lib .result, .host (.assign 2 200 false), .lib .result] :=
  ⟨by decide, .inl (by decide), by decide, .inl (by decide), by decide, .inl (by decide), by decide, .inr ⟨_, _, _, rfl⟩, trivial⟩

/-- The other way round: what the transaction logs after an abort can overwrite a line the
host has appended to the record it was given. -/
theorem C86_overwritten : ∃ ops, Plays (fun _ _ _ => True) {} [] [] ops ∧
    ((({} : Mem).mixed (ops.take 4)).1.read 1).log = [b!"a", b!"mine"] ∧ ((({} : Mem).mixed ops).1.read 1).log = [b!"a", b!"late"] :=
  ⟨[.lib .setAbort, .lib (.logf b!"a" 3), .lib .result, .host (.append 1 b!"mine" 0), .lib (.logf b!"late" 0)],
    ⟨by decide, trivial, trivial⟩, by decide, by decide⟩

end Verif
