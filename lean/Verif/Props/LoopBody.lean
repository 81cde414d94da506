import Verif.Props.Loop
import Verif.Props.PolicyBody
/-!
C92 for texts that read bodies.
-/
namespace Verif
open Sample Spec

/-- C92 for rules that may read bodies, as in C88: if the walk over each phase ends on the
reference machine, all calls return and show its verdicts; if some walk does not end, the
call never returns. -/
theorem C92_exact_bodies {lib : Lib} {vo : VarOrd} {ord : IterOrd} {text : Bytes} {dirs : List PDir} (ht : Program text dirs)
    (hok : ∀ d ∈ dirs, DirOk lib d) :
    ∃ set, DireSet.addSecLangString lib vo [] text = .ok (set, none) ∧
      ∀ {ops : List Op} {q : Int}, (sent false ops).length ≤ 131072 →
      (∀ c ∈ chainsOf (rulesIn dirs), 1 ≤ chainPhase c → (∃ p ∈ c, ∃ v ∈ p.vars, readsArgs v.tk = true) → q ≤ chainPhase c ∧ FormSettled lib q ops) →
      ∀ n, (chainsOf (rulesIn dirs)).length + 2 ≤ n →
        match runOr (bodySight lib (reqAccess dirs) (respAccess dirs)) (chainsOf (rulesIn dirs)) { known := {} } ops with
        | some (_, is) => ∃ t' os tr,
          (set.execute newEngine).newTransaction.steps ((set.execute newEngine).env lib ord) (set.execute newEngine).ruleSet n ops = .ok (t', os, tr) ∧
          shown os = is
        | none => (set.execute newEngine).newTransaction.steps ((set.execute newEngine).env lib ord) (set.execute newEngine).ruleSet n ops = .fuel := by
  obtain ⟨ds, hds, hload, hcar⟩ := loaded_carried (vo := vo) ht hok
  refine ⟨group ds, hload, fun {ops q} hsize hform n hn => ?_⟩
  have hlim := loaded_limits hds
  have e : (DireSet.execute (group ds) newEngine).newTransaction = newTransaction
      { newDefaultLimits with requestBodyAccess := reqAccess dirs, responseBodyAccess := respAccess dirs } := by rw [← hlim]; rfl
  obtain ⟨k1, k2⟩ := steps_or (env := (DireSet.execute (group ds) newEngine).env lib ord)
    (V := bodyView _ (FormSettled lib q ops) q) (S := bodySight lib (reqAccess dirs) (respAccess dirs)) (h := []) (m := { known := {} })
    (t := (DireSet.execute (group ds) newEngine).newTransaction) (n := n) (ops := ops)
    ⟨rfl, fun k p => by
      show HoldsAll lib (reqAccess dirs) (respAccess dirs) k p ↔ HoldsBy lib (ListsAll lib (DireSet.execute (group ds) newEngine).limits.requestBodyAccess
        (DireSet.execute (group ds) newEngine).limits.responseBodyAccess k) p
      rw [hlim]
      exact .rfl⟩ hcar
    (fun c hcm h1 p hp v hv ha => ((hform c hcm h1 ⟨p, hp, v, hv, ha⟩).symm)) hn
    (fun a op b e => body_follows e id hsize) {
      know := rfl, phase := rfl, verdict := rfl, chosen := rfl, aborted := rfl
      low := Int.le_refl 0
      high := by show (0 : Int) ≤ 7; omega
      fine := by
        rw [e]
        exact {
          req := ⟨rfl, rfl, rfl, rfl, rfl⟩
          resp := ⟨rfl, rfl, rfl, rfl, rfl⟩
          told := rfl
          early := fun _ _ => rfl
          cache := fun _ => .inl rfl
          good := fun _ ⟨o, ho, _⟩ => by cases ho
          plain := fun hA => hA.plain [] (List.nil_prefix) } }
  cases hr : runOr (bodySight lib (reqAccess dirs) (respAccess dirs)) (chainsOf (rulesIn dirs)) { known := {} } ops with
  | none => exact k2 hr
  | some x =>
    obtain ⟨t', os, tr, g1, _, g3⟩ := k1 x.1 x.2 hr
    exact ⟨t', os, tr, g1, g3⟩

/-- The form text of C88 meets the hypotheses; its calls return. -/
example (x y : Bytes) (hsize : x.length + y.length ≤ 131072) : ∃ set, DireSet.addSecLangString lib varOrd [] formText = .ok (set, none) ∧
    ∃ t' os tr, (set.execute newEngine).newTransaction.steps ((set.execute newEngine).env lib Sample.ord) (set.execute newEngine).ruleSet 3
        (formOps x y ++ [.result]) = .ok (t', os, tr) := by
  obtain ⟨set, h1, h2⟩ := C92_exact_bodies (vo := varOrd) (ord := Sample.ord) formText_program formText_ok
  refine ⟨set, h1, ?_⟩
  have h2 := h2 (ops := formOps x y ++ [.result]) (q := 3) (by simpa [formOps, sent, chunkOf] using hsize) (by
    intro c hc _ _
    have hc : c = [formRule] := by simpa using (show c ∈ [[formRule]] from hc)
    subst hc
    exact ⟨by decide, (formOps_settled x y).result⟩) 3 (by decide)
  have hr : NoReturn (chainsOf (rulesIn formDirs)) := by
    intro c hc _ p hp a ha
    have hc : c = [formRule] := by simpa using (show c ∈ [[formRule]] from hc)
    subst hc
    rw [List.mem_singleton.1 hp] at ha
    rw [List.mem_singleton.1 ha]
    intro h; cases h
  rw [runOr_run (fun c hc => chain_five formText_program hc) hr _ (Int.le_refl 0)] at h2
  obtain ⟨t', os, tr, g1, _⟩ := h2
  exact ⟨t', os, tr, g1⟩

end Verif
