import Verif.Props.Laws
/-! C112 with bodies, and with rules that allow in part. -/
namespace Verif
open Sample Spec

/-! ### The first refusal -/

/-- As soon as a verdict of the first list is disruptive, one of the second is, or was. -/
def Spec.RefusesAsSoon (xs ys : List Intervention) : Prop := ∀ n, (∃ v ∈ xs.take n, v.disruptive = true) → ∃ v ∈ ys.take n, v.disruptive = true

theorem Spec.RefusesAsSoon.nil : RefusesAsSoon [] [] := fun _ h => h

theorem Spec.RefusesAsSoon.now (xs : List Intervention) {v : Intervention} (h : v.disruptive = true) (ys : List Intervention) (x : Intervention) :
    RefusesAsSoon (x :: xs) (v :: ys) := by
  intro n hn
  cases n with
  | zero => simp at hn
  | succ n => exact ⟨v, by simp, h⟩

theorem Spec.RefusesAsSoon.later {xs ys : List Intervention} (h : RefusesAsSoon xs ys) {x : Intervention} (hx : x.disruptive = false) (y : Intervention) :
    RefusesAsSoon (x :: xs) (y :: ys) := by
  intro n hn
  cases n with
  | zero => simp at hn
  | succ n =>
    obtain ⟨v, h1, h2⟩ := hn
    simp only [List.take_succ_cons, List.mem_cons] at h1
    rcases h1 with rfl | h1
    · rw [hx] at h2; cases h2
    · obtain ⟨w, h3, h4⟩ := h n ⟨v, h1, h2⟩
      exact ⟨w, by simp [h3], h4⟩

section
variable {K : Type} {S : Sight K}

theorem firm_act (a : PAct) {m : Mach K} (h : m.verdict.disruptive = true) : (act S m a).verdict.disruptive = true := by
  cases hk : a.tk <;> simp only [act, hk] <;> try exact h
  case deny => rfl
  case allow =>
    repeat' split
    all_goals exact h

theorem firm_acts : ∀ (as : List PAct) {m : Mach K}, m.verdict.disruptive = true → (as.foldl (act S) m).verdict.disruptive = true
  | [], _, h => h
  | a :: as, _, h => firm_acts as (firm_act a h)

theorem firm_fire : ∀ (c : List PRule) {m : Mach K}, m.verdict.disruptive = true → (fire S m c).verdict.disruptive = true
  | [], _, h => h
  | _ :: c, _, h => firm_fire c (firm_acts _ h)

/-- A verdict is not taken back by rules. -/
theorem firm_walk {q : Int} : ∀ (cs : List (List PRule)) (i : Nat) (b : Bool) {m : Mach K}, m.verdict.disruptive = true →
    (walk S q i b cs m).verdict.disruptive = true
  | [], _, _, _, h => by simp only [walk]; exact h
  | c :: cs, i, true, m, h => by simp only [walk]; exact firm_walk cs _ _ h
  | c :: cs, i, false, m, h => by
    simp only [walk]
    have h1 : (fire S { m with rule := (i : Int) } c).verdict.disruptive = true := firm_fire c h
    split
    · rw [if_pos (.inl h1)]; exact h1
    · exact h

/-- Nor by calls, unless it is shown or reset. -/
theorem firm_call (cs : List (List PRule)) {op : Op} (h1 : op ≠ .resetIntervention) (h2 : op ≠ .result) {m : Mach K} (h : m.verdict.disruptive = true) :
    (call S cs m op).1.verdict.disruptive = true := by
  cases hq : phaseOf op with
  | some q =>
    simp only [call, hq]
    split
    · exact h
    · split
      · exact h
      · exact firm_walk _ _ _ h
  | none =>
    cases op <;> simp only [phaseOf, reduceCtorEq] at hq <;> simp only [call, phaseOf] <;>
      first
        | exact h
        | exact absurd rfl h1
        | exact absurd rfl h2
        | rfl

theorem noSkip_skips {c : List PRule} (h : ∀ p ∈ c, ∀ a ∈ p.acts.action, a.tk ≠ .skip) : skips c = false := by
  simp only [skips, List.any_eq_false, Bool.not_eq_true]
  intro p hp a ha
  rw [decide_eq_false_iff_not]
  exact h p hp a ha

/-- Side by side, or the second has refused. -/
theorem level_walk {q : Int} : ∀ {cs ds : List (List PRule)}, Adds cs ds → (∀ c ∈ cs, ∀ p ∈ c, ∀ a ∈ p.acts.action, a.tk ≠ .skip) →
    ∀ (i j : Nat) {m m' : Mach K}, Beside m m' → m.phase = q →
      (walk S q j false ds m').verdict.disruptive = true ∨ Beside (walk S q i false cs m) (walk S q j false ds m') := by
  intro cs ds hcs
  induction hcs with
  | nil => intro _ i j m m' h _; right; simp only [walk]; exact h
  | @same c cs ds _ ih =>
    intro hc i j m m' h hq
    have hcs := fun c' h' => hc c' (List.mem_cons_of_mem c h')
    have h0 : Beside { m with rule := (i : Int) } { m' with rule := (j : Int) } := ⟨h.known, h.aborted, h.phase, h.verdict⟩
    rw [h.known] at h0
    have h1 := beside_fire (S := S) c h0
    simp only [walk]
    rw [h.known]
    split
    · rw [noSkip_skips (hc c List.mem_cons_self)]
      by_cases hs : (fire S { m with rule := (i : Int) } c).verdict.disruptive = true ∨ (fire S { m with rule := (i : Int) } c).phase ≠ q
      · rw [if_pos hs, if_pos (by rw [h1.phase]; exact hs.imp h1.verdict id)]
        exact .inr h1
      · rw [if_neg hs]
        have hp : (fire S { m with rule := (i : Int) } c).phase = q := Decidable.byContradiction fun e => hs (.inr e)
        split
        · rename_i hs'
          left
          rcases hs' with hd | hq
          · exact hd
          · rw [h1.phase] at hq; exact absurd hp hq
        · exact ih hcs _ _ h1 hp
    · by_cases hs : m.verdict.disruptive = true
      · rw [if_pos hs, if_pos (h.verdict hs)]
        exact .inr h0
      · rw [if_neg hs]
        split
        · rename_i hd
          exact .inl hd
        · exact ih hcs _ _ h0 hq
  | @extra c cs ds hx _ ih =>
    intro hc i j m m' h hq
    have h0 : Beside m { m' with rule := (j : Int) } := ⟨h.known, h.aborted, h.phase, h.verdict⟩
    have hf := calm_fire (S := S) (fun p hp a ha => strict_calm (hx p hp a ha)) { m' with rule := (j : Int) }
    have h1 : Beside m (fire S { m' with rule := (j : Int) } c) :=
      ⟨hf.known.trans h.known, hf.aborted.trans h.aborted, (strict_fire hx _).trans h.phase, fun d => hf.verdict (h.verdict d)⟩
    conv => lhs; simp only [walk]
    conv => rhs; rhs; simp only [walk]
    split
    · rw [calm_skips (fun p hp a ha => strict_calm (hx p hp a ha))]
      split
      · rename_i hs
        left
        rcases hs with hd | hne
        · exact hd
        · exact absurd (h1.phase.trans hq) hne
      · exact ih hc _ _ h1 hq
    · split
      · rename_i hd
        exact .inl hd
      · exact ih hc _ _ h0 hq

theorem level_call {cs ds : List (List PRule)} (h : Adds cs ds) (hc : ∀ c ∈ cs, ∀ p ∈ c, ∀ a ∈ p.acts.action, a.tk ≠ .skip)
    (h5 : ∀ c ∈ ds, 0 ≤ chainPhase c ∧ chainPhase c ≤ 5) (op : Op) {m m' : Mach K} (hm : Beside m m') :
    (call S ds m' op).1.verdict.disruptive = true ∨ Beside (call S cs m op).1 (call S ds m' op).1 := by
  obtain ⟨h1, h2, h3, h4⟩ := hm
  have hk : S.learn m'.known op = S.learn m.known op := by rw [h1]
  cases hq : phaseOf op with
  | some q =>
    simp only [call, hq]
    by_cases g1 : q ≤ m.phase
    · rw [if_pos g1, if_pos (by rw [h3]; exact g1)]
      exact .inr ⟨hk, h2, h3, h4⟩
    · rw [if_neg g1, if_neg (by rw [h3]; exact g1), h2]
      have hb : Beside (goto q { m with known := S.learn m.known op }) (goto q { m' with known := S.learn m'.known op }) := ⟨hk, h2, rfl, h4⟩
      rw [h2] at hb
      split
      · exact .inr hb
      · by_cases he : (ds.filter fun c => chainPhase c = q) = []
        · have he' : (cs.filter fun c => chainPhase c = q) = [] := by
            rw [List.filter_eq_nil_iff] at he ⊢
            exact fun c hcm => he c (h.mem c hcm)
          rw [he, he']
          simp only [walk]
          exact .inr hb
        · obtain ⟨c, hcm⟩ := List.exists_mem_of_ne_nil _ he
          obtain ⟨c1, c2⟩ := List.mem_filter.1 hcm
          have := h5 c c1
          have c2 : chainPhase c = q := by simpa using c2
          refine level_walk (h.filter _) (fun c hcm => hc c (List.mem_filter.1 hcm).1) 0 0 hb ?_
          show max 0 (min q 7) = q
          omega
  | none =>
    right
    cases op <;> simp only [phaseOf, reduceCtorEq] at hq <;> simp only [call, phaseOf]
    case result =>
      rw [h2]
      split
      · exact ⟨hk, rfl, h3, h4⟩
      · exact ⟨hk, rfl, h3, id⟩
    case intervention => exact ⟨hk, h2, h3, h4⟩
    case resetIntervention => exact ⟨hk, h2, h3, id⟩
    case abortWithStatus => exact ⟨hk, rfl, h3, fun _ => rfl⟩
    case abortWithError => exact ⟨hk, rfl, h3, fun _ => rfl⟩
    case jumpToPhase i => exact ⟨hk, h2, rfl, h4⟩
    case nextPhase => exact ⟨hk, h2, by simp only [goto, h3], h4⟩
    all_goals exact ⟨hk, h2, h3, h4⟩

/-- What a call shows: the verdict, or nothing. -/
theorem call_shows (cs ds : List (List PRule)) (op : Op) (m m' : Mach K) :
    ((call S cs m op).2 = [m.verdict] ∧ (call S ds m' op).2 = [m'.verdict]) ∨ (op ≠ .result ∧ (call S cs m op).2 = [] ∧ (call S ds m' op).2 = []) := by
  cases hq : phaseOf op with
  | some q =>
    right
    have hne : op ≠ .result := by rintro rfl; cases hq
    simp only [call, hq]
    refine ⟨hne, ?_, ?_⟩
    · repeat' split
      all_goals rfl
    · repeat' split
      all_goals rfl
  | none =>
    cases op <;> simp only [phaseOf, reduceCtorEq] at hq <;> simp [call, phaseOf]

theorem level_run {cs ds : List (List PRule)} (h : Adds cs ds) (hc : ∀ c ∈ cs, ∀ p ∈ c, ∀ a ∈ p.acts.action, a.tk ≠ .skip)
    (h5 : ∀ c ∈ ds, 0 ≤ chainPhase c ∧ chainPhase c ≤ 5) : ∀ (ops : List Op), (∀ op ∈ ops, op ≠ .resetIntervention) → ∀ {m m' : Mach K},
    (m'.verdict.disruptive = true ∨ Beside m m') → RefusesAsSoon (Spec.run S cs m ops).2 (Spec.run S ds m' ops).2
  | [], _, _, _, _ => .nil
  | op :: ops, hr, m, m', hm => by
    have ih := fun {m m'} => level_run h hc h5 ops (fun o ho => hr o (List.mem_cons_of_mem _ ho)) (m := m) (m' := m')
    simp only [Spec.run]
    rcases call_shows (S := S) cs ds op m m' with ⟨e1, e2⟩ | ⟨e0, e1, e2⟩
    · rw [e1, e2]
      rcases hm with hd | hb
      · exact .now _ hd _ _
      · by_cases hd : m'.verdict.disruptive = true
        · exact .now _ hd _ _
        · refine .later (ih (level_call h hc h5 op hb)) ?_ _
          cases hv : m.verdict.disruptive with
          | true => exact absurd (hb.verdict hv) hd
          | false => rfl
    · rw [e1, e2]
      refine ih ?_
      rcases hm with hd | hb
      · exact .inl (firm_call ds (hr op List.mem_cons_self) e0 hd)
      · exact level_call h hc h5 op hb

end

/-! ### C112 -/

/-- Both texts load, and with enough rounds the calls return in both; the verdicts shown are
related by `R`. -/
def Spec.BothShow (R : List Intervention → List Intervention → Prop) (lib : Lib) (vo : VarOrd) (ord : IterOrd) (text text' : Bytes) (k : Nat) (ops : List Op) : Prop :=
  ∃ set set', DireSet.addSecLangString lib vo [] text = .ok (set, none) ∧ DireSet.addSecLangString lib vo [] text' = .ok (set', none) ∧
    ∀ n ≥ k, ∃ t t' os os' tr tr',
      (set.execute newEngine).newTransaction.steps ((set.execute newEngine).env lib ord) (set.execute newEngine).ruleSet n ops = .ok (t, os, tr) ∧
      (set'.execute newEngine).newTransaction.steps ((set'.execute newEngine).env lib ord) (set'.execute newEngine).ruleSet n ops = .ok (t', os', tr') ∧
      R (shown os) (shown os')

theorem Spec.Adds.noReturn {cs ds : List (List PRule)} (h : Adds cs ds) (hr : NoReturn cs) : NoReturn ds := by
  induction h with
  | nil => exact hr
  | same _ ih =>
    intro c hc
    rcases List.mem_cons.1 hc with rfl | hc
    · exact hr _ List.mem_cons_self
    · exact ih (fun c h => hr c (List.mem_cons_of_mem _ h)) c hc
  | extra hx _ ih =>
    intro c hc
    rcases List.mem_cons.1 hc with rfl | hc
    · intro _ p hp a ha e
      exact absurd e (hx p hp a ha).2
    · exact ih hr c hc

/-- C112 with bodies of up to 131072 bytes, if rules read arguments from the body only once the
form is settled, and well-formed; the old rules do not skip, and if they allow then everything.
Missing: larger bodies, malformed forms; for multipart
forms see `Props/FormLaws.lean`. -/
theorem C112_bodies_partial {lib : Lib} {vo : VarOrd} {ord : IterOrd} {text text' : Bytes} {dirs dirs' : List PDir}
    (ht : Program text dirs) (ht' : Program text' dirs') (hok : ∀ d ∈ dirs, DirOk lib d) (hok' : ∀ d ∈ dirs', DirOk lib d) (hsw : switches dirs = switches dirs')
    (hadd : Adds (chainsOf (rulesIn dirs)) (chainsOf (rulesIn dirs'))) (hc : ∀ p ∈ rulesIn dirs, ∀ a ∈ p.acts.action, Calm a)
    {ops : List Op} {q : Int} (hsize : (sent false ops).length ≤ 131072)
    (hform : ∀ c ∈ chainsOf (rulesIn dirs'), 1 ≤ chainPhase c → (∃ p ∈ c, ∃ v ∈ p.vars, readsArgs v.tk = true) → q ≤ chainPhase c ∧ FormSettled lib q ops) :
    BothShow (Pairs fun v v' => v.disruptive = true → v'.disruptive = true) lib vo ord text text' (enough dirs dirs') ops := by
  have hc0 : ∀ c ∈ chainsOf (rulesIn dirs), ∀ p ∈ c, ∀ a ∈ p.acts.action, Calm a := fun c h p hp => hc p (mem_chainsOf h hp)
  obtain ⟨set, h1, h2⟩ := C88_machine (vo := vo) (ord := ord) ht hok (calm_noReturn hc0)
  obtain ⟨set', h1', h2'⟩ := C88_machine (vo := vo) (ord := ord) ht' hok' (calm_noReturn (hadd.calm hc0))
  refine ⟨set, set', h1, h1', fun n hn => ?_⟩
  obtain ⟨t, os, tr, g1, g2⟩ := h2 (q := q) hsize (fun c h => hform c (hadd.mem c h)) n (by simp only [enough] at hn; omega)
  obtain ⟨t', os', tr', g1', g2'⟩ := h2' hsize hform n (by simp only [enough] at hn; omega)
  refine ⟨t, t', os, os', tr, tr', g1, g1', ?_⟩
  obtain ⟨e1, e2⟩ := switches_access hsw
  rw [g2, g2', ← e1, ← e2]
  exact behind_run hadd hc0 (fun c h => ⟨chain_low ht' h, chain_five ht' h⟩) ops ⟨rfl, rfl, .inl rfl, id⟩

/-- Whatever the old rules allow: what is refused is refused, and no later, if they do not skip
and no rule reads a body, and the host does not reset a verdict it has not looked at. -/
theorem C112_first_refusal_partial {lib : Lib} {vo : VarOrd} {ord : IterOrd} {text text' : Bytes} {dirs dirs' : List PDir}
    (ht : Program text dirs) (ht' : Program text' dirs') (hok : ∀ d ∈ dirs, DirOk lib d) (hok' : ∀ d ∈ dirs', DirOk lib d)
    (hadd : Adds (chainsOf (rulesIn dirs)) (chainsOf (rulesIn dirs'))) (hv : ∀ p ∈ rulesIn dirs', ∀ v ∈ p.vars, readsBody v.tk = false)
    (hc : ∀ p ∈ rulesIn dirs, ∀ a ∈ p.acts.action, a.tk ≠ .skip) (hret : NoReturn (chainsOf (rulesIn dirs))) {ops : List Op} (hr : ∀ op ∈ ops, op ≠ .resetIntervention) :
    BothShow RefusesAsSoon lib vo ord text text' (enough dirs dirs') ops := by
  have hc0 : ∀ c ∈ chainsOf (rulesIn dirs), ∀ p ∈ c, ∀ a ∈ p.acts.action, a.tk ≠ .skip := fun c h p hp => hc p (mem_chainsOf h hp)
  have hv0 : ∀ p ∈ rulesIn dirs, ∀ v ∈ p.vars, readsBody v.tk = false := by
    intro p hp
    obtain ⟨c, h1, h2⟩ := in_chain hp
    exact hv p (mem_chainsOf (hadd.mem c h1) h2)
  obtain ⟨set, h1, h2⟩ := C87_machine (vo := vo) (ord := ord) ht hok hv0 hret
  obtain ⟨set', h1', h2'⟩ := C87_machine (vo := vo) (ord := ord) ht' hok' hv (hadd.noReturn hret)
  refine ⟨set, set', h1, h1', fun n hn => ?_⟩
  obtain ⟨t, os, tr, g1, g2⟩ := h2 ops n (by simp only [enough] at hn; omega)
  obtain ⟨t', os', tr', g1', g2'⟩ := h2' ops n (by simp only [enough] at hn; omega)
  refine ⟨t, t', os, os', tr, tr', g1, g1', ?_⟩
  rw [g2, g2']
  exact level_run hadd hc0 (fun c h => ⟨chain_low ht' h, chain_five ht' h⟩) ops hr (.inr ⟨rfl, rfl, rfl, id⟩)

/-- The same with bodies, under the conditions of `C112_bodies_partial`. -/
theorem C112_first_refusal_bodies_partial {lib : Lib} {vo : VarOrd} {ord : IterOrd} {text text' : Bytes} {dirs dirs' : List PDir}
    (ht : Program text dirs) (ht' : Program text' dirs') (hok : ∀ d ∈ dirs, DirOk lib d) (hok' : ∀ d ∈ dirs', DirOk lib d) (hsw : switches dirs = switches dirs')
    (hadd : Adds (chainsOf (rulesIn dirs)) (chainsOf (rulesIn dirs'))) (hc : ∀ p ∈ rulesIn dirs, ∀ a ∈ p.acts.action, a.tk ≠ .skip)
    (hret : NoReturn (chainsOf (rulesIn dirs))) {ops : List Op} (hr : ∀ op ∈ ops, op ≠ .resetIntervention) {q : Int} (hsize : (sent false ops).length ≤ 131072)
    (hform : ∀ c ∈ chainsOf (rulesIn dirs'), 1 ≤ chainPhase c → (∃ p ∈ c, ∃ v ∈ p.vars, readsArgs v.tk = true) → q ≤ chainPhase c ∧ FormSettled lib q ops) :
    BothShow RefusesAsSoon lib vo ord text text' (enough dirs dirs') ops := by
  have hc0 : ∀ c ∈ chainsOf (rulesIn dirs), ∀ p ∈ c, ∀ a ∈ p.acts.action, a.tk ≠ .skip := fun c h p hp => hc p (mem_chainsOf h hp)
  obtain ⟨set, h1, h2⟩ := C88_machine (vo := vo) (ord := ord) ht hok hret
  obtain ⟨set', h1', h2'⟩ := C88_machine (vo := vo) (ord := ord) ht' hok' (hadd.noReturn hret)
  refine ⟨set, set', h1, h1', fun n hn => ?_⟩
  obtain ⟨t, os, tr, g1, g2⟩ := h2 (q := q) hsize (fun c h => hform c (hadd.mem c h)) n (by simp only [enough] at hn; omega)
  obtain ⟨t', os', tr', g1', g2'⟩ := h2' hsize hform n (by simp only [enough] at hn; omega)
  refine ⟨t, t', os, os', tr, tr', g1, g1', ?_⟩
  obtain ⟨e1, e2⟩ := switches_access hsw
  rw [g2, g2', ← e1, ← e2]
  exact level_run hadd hc0 (fun c h => ⟨chain_low ht' h, chain_five ht' h⟩) ops hr (.inr ⟨rfl, rfl, rfl, id⟩)

/-- Posted: allowed for the phase; if not, allowed everything in the next; if not, refused. -/
def Sample.inTurn : Bytes :=
  b!"SecRule REQUEST_METHOD \"@rx POST\" \"id:1,phase:2,allow:phase\"\nSecRule REQUEST_METHOD \"@rx POST\" \"id:2,phase:3,allow\"\nSecRule REQUEST_METHOD \"@rx POST\" \"id:3,phase:4,deny\"\n"

/-- Posted: refused. -/
def Sample.atOnce : Bytes := b!"SecRule REQUEST_METHOD \"@rx POST\" \"id:9,phase:2,deny\"\n"

def Sample.goOnOps : List Op :=
  [.processRequestURL none b!"POST" [], .processRequestHeader none, .result, .processRequestBody, .processResponseHeaders 200 [] none, .result]

/-- Verdict by verdict the claim is false without skip, too, if rules allow in part: with a
rule that refuses at first, a host that goes on is shown nothing where it was refused before. -/
theorem C112_allow_phase : textVerdicts lib inTurn 9 goOnOps = some [false, true] ∧ textVerdicts lib (atOnce ++ inTurn) 9 goOnOps = some [true, false] := by
  decide +kernel

/-- And with a host that resets what it has not looked at, so is the claim on the first refusal. -/
theorem C112_reset_unseen :
    textVerdicts lib inTurn 9 [.processRequestURL none b!"POST" [], .processRequestHeader none, .resetIntervention, .processRequestBody,
      .processResponseHeaders 200 [] none, .result] = some [true] ∧
    textVerdicts lib (atOnce ++ inTurn) 9 [.processRequestURL none b!"POST" [], .processRequestHeader none, .resetIntervention, .processRequestBody,
      .processResponseHeaders 200 [] none, .result] = some [false] := by
  decide +kernel

def Sample.atOnceRule : PRule := methodIs 9 false b!"POST" [⟨.deny, []⟩]

def Sample.inTurnRules : List PRule :=
  [methodIs 1 false b!"POST" [⟨.allow, b!"phase"⟩],
    { methodIs 2 false b!"POST" [⟨.allow, []⟩] with acts := { id := 2, phase := 3, action := [⟨.allow, []⟩] } },
    { methodIs 3 false b!"POST" [⟨.deny, []⟩] with acts := { id := 3, phase := 4, action := [⟨.deny, []⟩] } }]

theorem Sample.inTurn_ok : ∀ p ∈ atOnceRule :: inTurnRules, DirOk lib (.rule p) ∧ (∀ v ∈ p.vars, readsBody v.tk = false) ∧
    (∀ a ∈ p.acts.action, a.tk ≠ .skip ∧ (a.tk = .allow → ¬ Unquoted a.arg b!"request")) := by
  have act : ∀ a ∈ [(⟨.allow, b!"phase"⟩ : PAct), ⟨.allow, []⟩, ⟨.deny, []⟩], ActOk a ∧ a.tk ≠ .skip ∧ (a.tk = .allow → ¬ Unquoted a.arg b!"request") := by
    intro a ha
    simp only [List.mem_cons, List.not_mem_nil, or_false] at ha
    rcases ha with rfl | rfl | rfl
    · have h : Unquoted b!"phase" b!"phase" := (trimQuote_iff _ _).1 (by decide)
      exact ⟨.inl ⟨.allow _, .allow h⟩, nofun, fun _ h' => absurd (h.unique h') (by decide)⟩
    · have h : Unquoted ([] : Bytes) [] := (trimQuote_iff _ _).1 (by decide)
      exact ⟨.inl ⟨.allow _, .allow h⟩, nofun, fun _ h' => absurd (h.unique h') (by decide)⟩
    · exact ⟨.inl ⟨_, .deny⟩, nofun, nofun⟩
  intro p hp
  simp only [inTurnRules, List.mem_cons, List.not_mem_nil, or_false] at hp
  have one : ∀ {a : PAct} {q : PRule}, q.acts.action = [a] → a ∈ [(⟨.allow, b!"phase"⟩ : PAct), ⟨.allow, []⟩, ⟨.deny, []⟩] →
      ∀ b ∈ q.acts.action, ActOk b ∧ b.tk ≠ .skip ∧ (b.tk = .allow → ¬ Unquoted b.arg b!"request") := by
    intro a q h1 h2 b hb
    rw [h1, List.mem_singleton] at hb
    subst hb
    exact act _ h2
  rcases hp with rfl | rfl | rfl | rfl
  · exact ⟨methodIs_ok (fun a ha => (one (q := atOnceRule) rfl (by simp) a ha).1), fun v hv => by rw [List.mem_singleton.1 hv]; rfl, fun a ha => (one (q := atOnceRule) rfl (by simp) a ha).2⟩
  · exact ⟨methodIs_ok (fun a ha => (act a (by rw [List.mem_singleton.1 ha]; simp)).1), fun v hv => by rw [List.mem_singleton.1 hv]; rfl,
      fun a ha => (act a (by rw [List.mem_singleton.1 ha]; simp)).2⟩
  · have := methodIs_ok (id := 2) (not := false) (meth := b!"POST") (as := [⟨.allow, []⟩]) (fun a ha => (act a (by rw [List.mem_singleton.1 ha]; simp)).1)
    exact ⟨⟨this.vars, this.op, fun a ha => (act a (by rw [List.mem_singleton.1 ha]; simp)).1⟩, fun v hv => by rw [List.mem_singleton.1 hv]; rfl,
      fun a ha => (act a (by rw [List.mem_singleton.1 ha]; simp)).2⟩
  · have := methodIs_ok (id := 3) (not := false) (meth := b!"POST") (as := [⟨.deny, []⟩]) (fun a ha => (act a (by rw [List.mem_singleton.1 ha]; simp)).1)
    exact ⟨⟨this.vars, this.op, fun a ha => (act a (by rw [List.mem_singleton.1 ha]; simp)).1⟩, fun v hv => by rw [List.mem_singleton.1 hv]; rfl,
      fun a ha => (act a (by rw [List.mem_singleton.1 ha]; simp)).2⟩

/-- The text of `C112_allow_phase` refuses no later with the rule added. -/
example : BothShow RefusesAsSoon lib varOrd Sample.ord inTurn (atOnce ++ inTurn) 6 goOnOps := by
  refine C112_first_refusal_partial (dirs := inTurnRules.map .rule) (dirs' := (atOnceRule :: inTurnRules).map .rule)
    ((C53_exact id _ _).1 (by decide +kernel)) ((C53_exact id _ _).1 (by decide +kernel)) ?_ ?_ ?_ ?_ ?_ ?_ ?_
  · intro d hd
    obtain ⟨p, hp, rfl⟩ := List.mem_map.1 hd
    exact (inTurn_ok p (List.mem_cons_of_mem _ hp)).1
  · intro d hd
    obtain ⟨p, hp, rfl⟩ := List.mem_map.1 hd
    exact (inTurn_ok p hp).1
  · exact .extra (by intro p hp a ha; rw [List.mem_singleton.1 hp] at ha; rw [List.mem_singleton.1 ha]; exact ⟨nofun, nofun⟩) (.same (.same (.same .nil)))
  · intro p hp
    exact (inTurn_ok p hp).2.1
  · intro p hp a ha
    exact ((inTurn_ok p (List.mem_cons_of_mem _ hp)).2.2 a ha).1
  · intro c hc _ p hp a ha e
    exact ((inTurn_ok p (List.mem_cons_of_mem _ (mem_chainsOf (ps := inTurnRules) hc hp))).2.2 a ha).2 e
  · decide

/-- A rule on the form, and one more. -/
example (x y : Bytes) (hsize : x.length + y.length ≤ 131072) :
    BothShow (Pairs fun v v' => v.disruptive = true → v'.disruptive = true) lib varOrd Sample.ord formText
      (formText ++ b!"SecRule ARGS_POST:q \"@rx evil\" \"id:1,phase:3,deny\"\n") 4 (formOps x y ++ [.result]) ∧
    BothShow RefusesAsSoon lib varOrd Sample.ord formText
      (formText ++ b!"SecRule ARGS_POST:q \"@rx evil\" \"id:1,phase:3,deny\"\n") 4 (formOps x y ++ [.result]) := by
  have hp : Program (formText ++ b!"SecRule ARGS_POST:q \"@rx evil\" \"id:1,phase:3,deny\"\n") (formDirs ++ [.rule formRule]) := (C53_exact id _ _).1 (by decide +kernel)
  have hok : ∀ d ∈ formDirs ++ [.rule formRule], DirOk lib d := by
    intro d hd
    rcases List.mem_append.1 hd with hd | hd
    · exact formText_ok d hd
    · rw [List.mem_singleton.1 hd]; exact formText_ok _ (.tail _ (.head _))
  have hact : ∀ p ∈ rulesIn formDirs, ∀ a ∈ p.acts.action, a = ⟨.deny, []⟩ := by
    intro p hp a ha
    have hp : p ∈ [formRule] := hp
    rw [List.mem_singleton.1 hp] at ha
    exact List.mem_singleton.1 ha
  have hadd : Adds (chainsOf (rulesIn formDirs)) (chainsOf (rulesIn (formDirs ++ [.rule formRule]))) :=
    .same (.extra (by intro p hp a ha; rw [List.mem_singleton.1 hp] at ha; rw [List.mem_singleton.1 ha]; exact ⟨nofun, nofun⟩) .nil)
  have hform : ∀ c ∈ chainsOf (rulesIn (formDirs ++ [.rule formRule])), 1 ≤ chainPhase c → (∃ p ∈ c, ∃ v ∈ p.vars, readsArgs v.tk = true) →
      (3 : Int) ≤ chainPhase c ∧ FormSettled lib 3 (formOps x y ++ [.result]) := by
    intro c hc _ _
    have hc : c = [formRule] := by simpa using (show c ∈ [[formRule], [formRule]] from hc)
    subst hc
    exact ⟨by decide, (formOps_settled x y).result⟩
  refine ⟨C112_bodies_partial (q := 3) formText_program hp formText_ok hok rfl hadd ?_ (by simpa [formOps, sent, chunkOf] using hsize) hform,
    C112_first_refusal_bodies_partial (q := 3) formText_program hp formText_ok hok rfl hadd ?_ ?_ ?_ (by simpa [formOps, sent, chunkOf] using hsize) hform⟩
  · intro p hp a ha
    rw [hact p hp a ha]
    exact ⟨nofun, nofun⟩
  · intro p hp a ha
    rw [hact p hp a ha]
    nofun
  · intro c hc _ p hp a ha
    rw [hact p (mem_chainsOf hc hp) a ha]
    nofun
  · intro op ho
    simp only [formOps, List.cons_append, List.nil_append, List.mem_cons, List.not_mem_nil, or_false] at ho
    rcases ho with rfl | rfl | rfl | rfl | rfl | rfl | rfl <;> nofun

end Verif
