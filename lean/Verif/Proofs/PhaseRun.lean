import Verif.Proofs.Phase
/-! The loop over a phase refines the reference semantics `PhaseRun`. -/
namespace Verif

theorem Tx.next_sans (t : Tx) (k : Nat) : (t.next k).1.sansCursor = t.sansCursor := by
  simp only [Tx.next]
  split
  · rfl
  · split <;> rfl

theorem Tx.touch_sans (t : Tx) : t.touch.sansCursor = t.sansCursor := rfl

theorem Tx.jump_sans (t : Tx) (p : Int) : (t.jumpToPhase p).sansCursor = t.sansCursor := rfl

theorem sans_intervention {t u : Tx} (h : t.sansCursor = u.sansCursor) : t.intervention = u.intervention := by
  have := congrArg Tx.interv h
  simpa [Tx.sansCursor] using this

theorem sans_abort {t u : Tx} (h : t.sansCursor = u.sansCursor) : t.abort = u.abort :=
  by have := congrArg (fun x : Tx => x.abort) h; simpa [Tx.sansCursor] using this

theorem Exec.out_of_phase {env : Env} {rs : RuleSet} {p i : Int} {t t' : Tx} {tr : Trace}
    (h : Exec env rs p i t tr t') (hp : t.phase ≠ p ∨ i = statusEndOfRules) : tr = [] ∧ t' = t := by
  cases h with
  | out _ => exact ⟨rfl, rfl⟩
  | stop h1 h2 _ _ => exact hp.elim (fun h => absurd h1 h) (fun h => absurd h h2)
  | go h1 h2 _ _ _ => exact hp.elim (fun h => absurd h1 h) (fun h => absurd h h2)

theorem event_some {rs : RuleSet} {p : Int} {k : Nat} {r : Rule} (h : (rs.phases p)[k]? = some r) :
    event rs p k = [(p, (k : Int))] := by
  have hl : k < (rs.phases p).length := by
    rcases List.getElem?_eq_some_iff.1 h with ⟨h, _⟩; exact h
  simp only [event]
  rw [if_pos (by omega)]

theorem event_none {rs : RuleSet} {p i : Int} (h : (rs.phases p).length ≤ i) : event rs p i = [] := by
  simp only [event]
  rw [if_neg (by omega)]

theorem exec_phaseRun {p : Int} (h0 : 0 ≤ p) (h7 : p ≤ 7) {env : Env} {rs : RuleSet} (hrs : rs.Forward)
    {i : Int} {t t' : Tx} {tr : Trace} (h : Exec env rs p i t tr t') :
    PosInv p (rs.phases p).length i t → t.phase = p →
    ∀ k : Nat, (i = k ∨ (i = statusEndOfRules ∧ (rs.phases p).length ≤ k)) →
    ∀ t0 : Tx, t0.sansCursor = t.sansCursor → t0.phase = p →
    ∃ es s, tr = evTrace p es ∧ PhaseRun env rs p k t0 es s ∧
      s.sansCursor = t'.sansCursor ∧ s.phase = t'.phase ∧ p ≤ t'.phase ∧ t'.phase ≤ 7 := by
  induction h with
  | @out i t hout =>
    intro _ hp k hk t0 ht0 hp0
    have hi : i = statusEndOfRules := hout.resolve_left (fun h => h hp)
    have hl : (rs.phases p).length ≤ k := by
      rcases hk with hk | ⟨_, hk⟩
      · simp only [statusEndOfRules] at hi; omega
      · exact hk
    exact ⟨[], t0, rfl, .done hl, ht0, by omega, by omega, by omega⟩
  | @stop i t n t1 hp hi hproc hd =>
    intro hI _ k hk t0 ht0 hp0
    have hik : i = k := hk.resolve_right (fun h => hi h.1)
    refine process_at h0 h7 hrs hp hi hI hproc ?_ ?_
    · rintro _ hl rfl _ _
      refine ⟨[], t0, by rw [event_none hl]; rfl, .done (by omega), ?_, ?_, ?_, ?_⟩
      · rw [ht0, Tx.touch_sans]
      · simp [hp0, hp]
      · simp [hp]
      · simp [hp, h7]
    · intro k' r hk' hr _ hcur hrun hc
      have : k' = k := by omega
      subst this
      refine ⟨[⟨k', r, t, t1⟩], t1, by rw [hk', event_some hr]; rfl, ?_, ?_, ?_, ?_⟩
      · exact .stop (e := ⟨k', r, t, t1⟩) ⟨hr, ⟨hp, by rw [hcur, hk'], ht0.symm⟩, _, hrun⟩ hd
      · rfl
      · rfl
      · simp only [Tx.touch_phase]
        rcases hc with hc | ⟨hc, _⟩
        · omega
        · omega
  | @go i t n t1 tr t' hp hi hproc hd hrest ih =>
    intro hI _ k hk t0 ht0 hp0
    have hik : i = k := hk.resolve_right (fun h => hi h.1)
    obtain ⟨n1, n2, _, _⟩ := Tx.next_spec t1.touch (rs.phases t1.phase).length
    have hnr : t1.touch.nextRule = t1.nextRule := rfl
    refine process_at h0 h7 hrs hp hi hI hproc ?_ ?_
    · intro hge hl he hend hc
      have hp1 : t1.phase = p := by rw [he, hp]
      obtain ⟨is, s, g1, g2, g3⟩ := ih (PosInv.step hge (by intro h; rw [h]) hc) (by rw [n2]; exact hp1) k
        (.inr ⟨by rw [n1, hnr, hend], by omega⟩) t0 (by rw [ht0, Tx.next_sans, Tx.touch_sans, he]) hp0
      exact ⟨is, s, by rw [event_none hl]; exact g1, g2, g3⟩
    · intro k' r hk' hr _ hcur hrun hc
      have : k' = k := by omega
      subst this
      have hat : At p k' t0 t := ⟨hp, by rw [hcur, hk'], ht0.symm⟩
      have hval : Ev.Valid env rs p t0 ⟨k', r, t, t1⟩ := ⟨hr, hat, _, hrun⟩
      have hev : event rs p i = [(p, (k' : Int))] := by rw [hk', event_some hr]
      by_cases hp1 : t1.phase = p
      · have hcpos := hc
        rcases hc with hc | ⟨_, _, hc⟩
        · omega
        · have hI' := PosInv.step (k := (rs.phases t1.phase).length) (show 0 ≤ i by omega) (by intro h; rw [h]) hcpos
          have hsans : t1.sansCursor = (t1.touch.next (rs.phases t1.phase).length).1.sansCursor := by
            rw [Tx.next_sans, Tx.touch_sans]
          rcases hc with ⟨hns, hnx⟩ | ⟨hs, hnx⟩
          · obtain ⟨is, s, g1, g2, g3⟩ := ih hI' (by rw [n2]; exact hp1) (k' + 1) (by
              rw [n1, hnr, hnx]
              rcases nextOf_cases (rs.phases p).length i with c | c
              · exact .inr ⟨c.1, by omega⟩
              · left; rw [c.1]; omega) t1 hsans hp1
            exact ⟨⟨k', r, t, t1⟩ :: is, s, by rw [hev, g1]; rfl, .next (e := ⟨k', r, t, t1⟩) hval hd hp1 hns g2, g3⟩
          · obtain ⟨is, s, g1, g2, g3⟩ := ih hI' (by rw [n2]; exact hp1) (k' + 2) (by
              rw [n1, hnr, hnx]
              rcases nextOf_cases (rs.phases p).length (i + 1) with c | c
              · exact .inr ⟨c.1, by omega⟩
              · left; rw [c.1]; omega) t1 hsans hp1
            exact ⟨⟨k', r, t, t1⟩ :: is, s, by rw [hev, g1]; rfl, .skip (e := ⟨k', r, t, t1⟩) hval hd hp1 hs g2, g3⟩
      · obtain ⟨e1, e2⟩ := hrest.out_of_phase (.inl (by rw [n2]; exact hp1))
        refine ⟨[⟨k', r, t, t1⟩], t1, by rw [hev, e1]; rfl, .leave (e := ⟨k', r, t, t1⟩) hval hd hp1, ?_, ?_, ?_⟩
        · rw [e2, Tx.next_sans, Tx.touch_sans]
        · rw [e2, n2]; rfl
        · rw [e2, n2, Tx.touch_phase]
          rcases hc with hc | ⟨hc, _⟩
          · omega
          · exact absurd hc hp1

/-- `ProcessPhase` on a phase not yet reached. -/
theorem processPhase_run {p : Int} {env : Env} {rs : RuleSet} (hrs : rs.Forward) {n : Nat} {t t' : Tx} {tr : Trace}
    (h0 : 0 ≤ p) (h7 : p ≤ 7) (hp : t.phase < p) (ha : t.abort = false) (h : processPhase env rs n p t = .ok (t', tr)) :
    ∃ es s, tr = evTrace p es ∧ PhaseRun env rs p 0 (t.jumpToPhase p) es s ∧
      s.sansCursor = t'.sansCursor ∧ s.phase = t'.phase ∧ p ≤ t'.phase ∧ t'.phase ≤ 7 := by
  refine processPhase_cases h (fun h => by omega) (fun _ h => by rw [ha] at h; cases h) ?_
  intro _ _ he
  obtain ⟨i1, i2, i3⟩ := PosInv.init h0 h7 rs t
  rw [i1] at he
  refine exec_phaseRun h0 h7 hrs he i3 i2 0 (.inl rfl) _ ?_ (jumpToPhase_self h0 h7 t)
  rw [Tx.next_sans]

/-- `ProcessPhase` when nothing is evaluated: the phase was reached before, the
transaction is aborted, or the phase number does not exist. -/
theorem processPhase_idle {p : Int} {env : Env} {rs : RuleSet} {n : Nat} {t t' : Tx} {tr : Trace}
    (hp : p ≤ t.phase ∨ t.abort = true ∨ p < 0 ∨ 7 < p) (h : processPhase env rs n p t = .ok (t', tr)) :
    tr = [] ∧ t'.sansCursor = t.sansCursor ∧
      ((p ≤ t.phase ∧ t' = t) ∨ (t.phase < p ∧ t'.phase = (t.jumpToPhase p).phase)) := by
  refine processPhase_cases h ?_ ?_ ?_
  · rintro hh rfl rfl; exact ⟨rfl, rfl, .inl ⟨hh, rfl⟩⟩
  · rintro hh _ rfl rfl; exact ⟨rfl, rfl, .inr ⟨hh, rfl⟩⟩
  · intro h1 h2 he
    have hb := jumpToPhase_bounds p t
    obtain ⟨_, n2, _, _⟩ := Tx.next_spec (t.jumpToPhase p) (rs.phases (t.jumpToPhase p).phase).length
    have hne : (t.jumpToPhase p).phase ≠ p := by
      rcases hp with hp | hp | hp | hp
      · omega
      · rw [h2] at hp; cases hp
      · omega
      · omega
    obtain ⟨e1, e2⟩ := he.out_of_phase (.inl (by rw [n2]; exact hne))
    refine ⟨e1, ?_, .inr ⟨h1, ?_⟩⟩
    · rw [e2, Tx.next_sans, Tx.jump_sans]
    · rw [e2, n2]

theorem Walk.mono {sk sk' : Nat → Prop} {c : Prop} {len : Nat} (hs : ∀ j, sk j → sk' j) : ∀ {is : List Nat} {k : Nat},
    Walk sk c len k is → Walk sk' c len k is := by
  intro is
  induction is with
  | nil => intro k h; exact h
  | cons i is ih =>
    rintro k ⟨h1, h2, h3⟩
    refine ⟨h1, h2, ?_⟩
    rcases h3 with h3 | ⟨h3, h4⟩
    · exact .inl (ih h3)
    · exact .inr ⟨hs _ h3, ih h4⟩

theorem PhaseRun.walk {env : Env} {rs : RuleSet} {p : Int} {k : Nat} {t s : Tx} {es : List Ev}
    (h : PhaseRun env rs p k t es s) :
    Walk (fun j => ∃ e ∈ es, e.pos = j ∧ e.rule.SkipsAt env rs e.before)
      (s.intervention.disruptive = false ∧ s.phase = p) (rs.phases p).length k (es.map Ev.pos) := by
  have hlt : ∀ {t : Tx} {e : Ev}, e.Valid env rs p t → e.pos < (rs.phases p).length := by
    intro t e h; rcases List.getElem?_eq_some_iff.1 h.rule with ⟨h, _⟩; exact h
  induction h with
  | done hl => exact fun _ => hl
  | stop hv hd => exact ⟨rfl, hlt hv, .inl fun hc => by rw [hd] at hc; cases hc.1⟩
  | leave hv _ hp => exact ⟨rfl, hlt hv, .inl fun hc => absurd hc.2 hp⟩
  | next hv _ _ _ _ ih =>
    refine ⟨rfl, hlt hv, .inl (ih.mono ?_)⟩
    rintro j ⟨e', he', h⟩; exact ⟨e', by simp [he'], h⟩
  | @skip t e es t' hv _ _ hs _ ih =>
    refine ⟨rfl, hlt hv, .inr ⟨⟨e, by simp, rfl, hs⟩, ih.mono ?_⟩⟩
    rintro j ⟨e', he', h⟩; exact ⟨e', by simp [he'], h⟩

theorem Walk.ge {sk : Nat → Prop} {c : Prop} {len : Nat} : ∀ {is : List Nat} {k : Nat},
    Walk sk c len k is → ∀ j ∈ is, k ≤ j ∧ j < len := by
  intro is
  induction is with
  | nil => intro k _ j hj; cases hj
  | cons i is ih =>
    rintro k ⟨rfl, hl, hr⟩ j hj
    rcases List.mem_cons.1 hj with rfl | hj
    · omega
    · rcases hr with hr | ⟨_, hr⟩
      · have := ih hr j hj; omega
      · have := ih hr j hj; omega

theorem Walk.sorted {sk : Nat → Prop} {c : Prop} {len : Nat} : ∀ {is : List Nat} {k : Nat},
    Walk sk c len k is → is.Pairwise (· < ·) := by
  intro is
  induction is with
  | nil => intro k _; exact .nil
  | cons i is ih =>
    rintro k ⟨rfl, hl, hr⟩
    rcases hr with hr | ⟨_, hr⟩
    · exact .cons (fun j hj => by have := hr.ge j hj; omega) (ih hr)
    · exact .cons (fun j hj => by have := hr.ge j hj; omega) (ih hr)

theorem PhaseRun.evaluated {env : Env} {rs : RuleSet} {p : Int} {k : Nat} {t s : Tx} {es : List Ev}
    (h : PhaseRun env rs p k t es s) :
    Evaluated env rs p t es s ∧ ∀ e ∈ es.dropLast, e.after.intervention.disruptive = false := by
  have hcons : ∀ {e : Ev} {es : List Ev}, e.after.intervention.disruptive = false →
      (∀ e ∈ es.dropLast, e.after.intervention.disruptive = false) →
      ∀ x ∈ (e :: es).dropLast, x.after.intervention.disruptive = false := by
    intro e es hd hes
    cases es with
    | nil => simp
    | cons e' es =>
      intro x hx
      simp only [List.dropLast_cons_cons, List.mem_cons] at hx
      rcases hx with rfl | hx
      · exact hd
      · exact hes x hx
  induction h with
  | done _ => exact ⟨.nil, by simp⟩
  | stop hv _ => exact ⟨.cons hv .nil, by simp⟩
  | leave hv _ _ => exact ⟨.cons hv .nil, by simp⟩
  | next hv hd _ _ _ ih => exact ⟨.cons hv ih.1, hcons hd ih.2⟩
  | skip hv hd _ _ _ ih => exact ⟨.cons hv ih.1, hcons hd ih.2⟩

/-! ### calls -/

/-- A call either evaluates nothing and changes no cursor, or processes a phase. -/
theorem step_cases {env : Env} {rs : RuleSet} {n : Nat} {t t' : Tx} {op : Op} {o : Out} {tr : Trace} {P : Prop}
    (hop : op.keepsCursor = true) (h : t.step env rs n op = .ok (t', o, tr))
    (h1 : tr = [] → t'.phase = t.phase → P)
    (h2 : ∀ u p, u.phase = t.phase → u.abort = t.abort → u.interv = t.interv → u.data = t.data →
      processPhase env rs n p u = .ok (t', tr) → P) : P := by
  cases op <;> first | cases hop | skip
  case processConnection =>
    obtain ⟨⟨t1, tr1⟩, g1, g2⟩ := Res.bind_eq_ok.1 h
    cases g2; refine h2 _ _ ?_ ?_ ?_ ?_ g1 <;> rfl
  case processRequestHeader =>
    obtain ⟨⟨t1, tr1⟩, g1, g2⟩ := Res.bind_eq_ok.1 h
    cases g2; refine h2 _ _ ?_ ?_ ?_ ?_ g1 <;> rfl
  case processRequestBody =>
    obtain ⟨⟨t1, tr1⟩, g1, g2⟩ := Res.bind_eq_ok.1 h
    cases g2; refine h2 _ _ ?_ ?_ ?_ ?_ g1 <;> rfl
  case processResponseHeaders =>
    obtain ⟨⟨t1, tr1⟩, g1, g2⟩ := Res.bind_eq_ok.1 h
    cases g2; refine h2 _ _ ?_ ?_ ?_ ?_ g1 <;> rfl
  case processResponseBody =>
    obtain ⟨⟨t1, tr1⟩, g1, g2⟩ := Res.bind_eq_ok.1 h
    cases g2; refine h2 _ _ ?_ ?_ ?_ ?_ g1 <;> rfl
  case processLogging =>
    obtain ⟨⟨t1, tr1⟩, g1, g2⟩ := Res.bind_eq_ok.1 h
    cases g2; refine h2 _ _ ?_ ?_ ?_ ?_ g1 <;> rfl
  case processPhase =>
    obtain ⟨⟨t1, tr1⟩, g1, g2⟩ := Res.bind_eq_ok.1 h
    cases g2; refine h2 _ _ ?_ ?_ ?_ ?_ g1 <;> rfl
  case appendRequestBody =>
    obtain ⟨⟨b, k, e⟩, g1, g2⟩ := Res.bind_eq_ok.1 h
    cases g2; exact h1 rfl rfl
  case appendResponseBody =>
    obtain ⟨⟨b, k, e⟩, g1, g2⟩ := Res.bind_eq_ok.1 h
    cases g2; exact h1 rfl rfl
  case result =>
    simp only [Tx.step, Tx.result, Res.ok.injEq, Prod.mk.injEq] at h
    obtain ⟨rfl, _, rfl⟩ := h
    refine h1 rfl ?_
    split <;> rfl
  all_goals
    simp only [Tx.step, Res.ok.injEq, Prod.mk.injEq] at h
    obtain ⟨rfl, _, rfl⟩ := h
    exact h1 rfl rfl

/-- Effect of a call on the phase, and the phase of the rules it evaluates. -/
theorem step_phase {env : Env} {rs : RuleSet} (hrs : rs.Forward) {n : Nat} {t t' : Tx} {op : Op} {o : Out} {tr : Trace}
    (h7 : t.phase ≤ 7) (hop : op.keepsCursor = true) (h : t.step env rs n op = .ok (t', o, tr)) :
    t.phase ≤ t'.phase ∧ t'.phase ≤ 7 ∧
    ∃ (p : Int) (is : List Nat), tr = is.map (fun j : Nat => (p, (j : Int))) ∧ is.Pairwise (· < ·) ∧
      (is ≠ [] → t.phase < p ∧ p ≤ t'.phase) := by
  refine step_cases hop h ?_ ?_
  · intro e1 e2; exact ⟨by omega, by omega, 0, [], e1, .nil, fun h => absurd rfl h⟩
  · intro u p hu _ _ _ hpp
    by_cases hidle : p ≤ u.phase ∨ u.abort = true ∨ p < 0 ∨ 7 < p
    · obtain ⟨e1, _, e3⟩ := processPhase_idle hidle hpp
      have := jumpToPhase_phase p u
      refine ⟨?_, ?_, 0, [], e1, .nil, fun h => absurd rfl h⟩
      · rcases e3 with ⟨_, rfl⟩ | ⟨_, e⟩
        · omega
        · omega
      · rcases e3 with ⟨_, rfl⟩ | ⟨_, e⟩
        · omega
        · omega
    · obtain ⟨is, s, g1, g2, g3, g4, g5, g6⟩ := processPhase_run hrs (by omega) (by omega) (by omega)
        (by cases hh : u.abort with
          | false => rfl
          | true => exact absurd (.inr (.inl hh)) hidle) hpp
      exact ⟨by omega, g6, p, is.map Ev.pos, by rw [g1, evTrace, List.map_map]; rfl, g2.walk.sorted, fun _ => ⟨by omega, g5⟩⟩

theorem steps_append {env : Env} {rs : RuleSet} {n : Nat} : ∀ {ops ops' : List Op} {t t'' : Tx} {os : List Out} {tr : Trace},
    t.steps env rs n (ops ++ ops') = .ok (t'', os, tr) →
    ∃ t' os1 tr1 os2 tr2, t.steps env rs n ops = .ok (t', os1, tr1) ∧ t'.steps env rs n ops' = .ok (t'', os2, tr2) ∧
      os = os1 ++ os2 ∧ tr = tr1 ++ tr2 := by
  intro ops
  induction ops with
  | nil => intro ops' t t'' os tr h; exact ⟨t, [], [], os, tr, rfl, h, rfl, rfl⟩
  | cons op ops ih =>
    intro ops' t t'' os tr h
    simp only [List.cons_append, Tx.steps] at h
    obtain ⟨⟨t1, o, tr0⟩, h1, h2⟩ := Res.bind_eq_ok.1 h
    obtain ⟨⟨t2, os', tr'⟩, h3, h4⟩ := Res.bind_eq_ok.1 h2
    simp only [Res.ok.injEq, Prod.mk.injEq] at h4
    obtain ⟨rfl, rfl, rfl⟩ := h4
    obtain ⟨t', os1, tr1, os2, tr2, g1, g2, rfl, rfl⟩ := ih h3
    refine ⟨t', o :: os1, tr0 ++ tr1, os2, tr2, ?_, g2, rfl, by simp⟩
    simp only [Tx.steps, h1, g1, Res.bind_ok']

theorem steps_cons {env : Env} {rs : RuleSet} {n : Nat} {op : Op} {ops : List Op} {t t'' : Tx} {os : List Out} {tr : Trace}
    (h : t.steps env rs n (op :: ops) = .ok (t'', os, tr)) :
    ∃ t' o tr1 os2 tr2, t.step env rs n op = .ok (t', o, tr1) ∧ t'.steps env rs n ops = .ok (t'', os2, tr2) ∧
      os = o :: os2 ∧ tr = tr1 ++ tr2 := by
  simp only [Tx.steps] at h
  obtain ⟨⟨t1, o, tr0⟩, h1, h2⟩ := Res.bind_eq_ok.1 h
  obtain ⟨⟨t2, os', tr'⟩, h3, h4⟩ := Res.bind_eq_ok.1 h2
  simp only [Res.ok.injEq, Prod.mk.injEq] at h4
  obtain ⟨rfl, rfl, rfl⟩ := h4
  exact ⟨t1, o, tr0, os', tr', h1, h3, rfl, rfl⟩

/-- Phases only grow along a sequence of calls, and the rules evaluated lie
strictly above the starting phase, up to the final one, in increasing order. -/
theorem steps_phase {env : Env} {rs : RuleSet} (hrs : rs.Forward) {n : Nat} : ∀ {ops : List Op} {t t' : Tx} {os : List Out} {tr : Trace},
    t.phase ≤ 7 → (∀ op ∈ ops, op.keepsCursor = true) → t.steps env rs n ops = .ok (t', os, tr) →
    t.phase ≤ t'.phase ∧ t'.phase ≤ 7 ∧ (∀ e ∈ tr, t.phase < e.1 ∧ e.1 ≤ t'.phase) ∧
    tr.Pairwise (fun a b => a.1 < b.1 ∨ (a.1 = b.1 ∧ a.2 < b.2)) := by
  intro ops
  induction ops with
  | nil =>
    intro t t' os tr h7 _ h
    simp only [Tx.steps] at h; cases h
    exact ⟨by omega, h7, by simp, .nil⟩
  | cons op ops ih =>
    intro t t' os tr h7 hops h
    obtain ⟨t1, o, tr1, os2, tr2, h1, h2, rfl, rfl⟩ := steps_cons h
    obtain ⟨a1, a2, p, is, a3, a4, a5⟩ := step_phase hrs h7 (hops op (by simp)) h1
    obtain ⟨b1, b2, b3, b4⟩ := ih a2 (fun op h => hops op (by simp [h])) h2
    have hin : ∀ e ∈ tr1, t.phase < e.1 ∧ e.1 ≤ t1.phase := by
      intro e he
      rw [a3] at he
      obtain ⟨j, hj, rfl⟩ := List.mem_map.1 he
      exact a5 (by rintro rfl; cases hj)
    refine ⟨by omega, b2, ?_, ?_⟩
    · intro e he
      rcases List.mem_append.1 he with he | he
      · have := hin e he; omega
      · have := b3 e he; omega
    · refine List.pairwise_append.2 ⟨?_, b4, ?_⟩
      · rw [a3]
        refine List.pairwise_map.2 (a4.imp ?_)
        intro a b hab
        exact .inr ⟨rfl, by simp only; omega⟩
      · intro e he e' he'
        have := hin e he
        have := b3 e' he'
        exact .inl (by omega)

/-! ### invariants of calls -/

/-- Calls that only concern the intervention and abort state. -/
def Op.verdictOp : Op → Bool
  | .result | .intervention | .resetIntervention | .abortWithStatus _ | .abortWithError _ _ | .logf _ => true
  | _ => false

/-- The input fields of a transaction (connection, request, response). -/
def Tx.withInput (t : Tx) (a b c d : Bytes) (u : Option URL) (m pr : Bytes) (h : Option GoMap) (code : Int) (rp : Bytes)
    (rh : Option GoMap) : Tx :=
  { t with srcIp := a, srcPort := b, dstIp := c, dstPort := d, url := u, method := m, reqProto := pr, reqHeader := h,
           respCode := code, respProto := rp, respHeader := rh }

/-- What has to be checked for a transaction invariant. -/
structure TxInv (env : Env) (rs : RuleSet) (I : Tx → Prop) (ok : Action → Prop) (okOp : Op → Prop) : Prop where
  touch : ∀ t, I t → I t.touch
  cur : ∀ t (ph c nx : Int), I t → I { t with phase := ph, currentRule := c, nextRule := nx }
  fetch : ∀ t t', I t → Fetched t t' → I t'
  prim : ∀ a, a ≠ .block → ok a → ∀ n t t', I t → Action.run rs n a t = .ok t' → I t'
  default : ∀ a ∈ rs.defaultActions, ok a
  act : ∀ p, ∀ r ∈ rs.phases p, ∀ a ∈ r.allActions, ok a
  input : ∀ t a b c d u m pr h code rp rh, I t → I (t.withInput a b c d u m pr h code rp rh)
  req : ∀ (t : Tx) p io b k e, okOp (.appendRequestBody p io) → I t → t.reqBody.write p io = .ok (b, k, e) →
    I { t with reqBody := b }
  resp : ∀ (t : Tx) p io b k e, okOp (.appendResponseBody p io) → I t → t.respBody.write p io = .ok (b, k, e) →
    I { t with respBody := b }
  verdict : ∀ op, op.verdictOp = true → okOp op → ∀ n t t' o tr, I t → t.step env rs n op = .ok (t', o, tr) → I t'

theorem TxInv.phase {env : Env} {rs : RuleSet} {I : Tx → Prop} {ok : Action → Prop} {okOp : Op → Prop}
    (hi : TxInv env rs I ok okOp) {n : Nat} {p : Int} {t t' : Tx} {tr : Trace} (hI : I t)
    (h : processPhase env rs n p t = .ok (t', tr)) : I t' :=
  processPhase_inv hi.touch hi.cur hi.fetch hi.prim hi.default hi.act hI h

theorem TxInv.step {env : Env} {rs : RuleSet} {I : Tx → Prop} {ok : Action → Prop} {okOp : Op → Prop}
    (hi : TxInv env rs I ok okOp) {n : Nat} {op : Op} {t t' : Tx} {o : Out} {tr : Trace} (hop : okOp op) (hI : I t)
    (h : t.step env rs n op = .ok (t', o, tr)) : I t' := by
  cases hv : op.verdictOp with
  | true => exact hi.verdict op hv hop n t t' o tr hI h
  | false =>
    cases op
    case processConnection =>
      obtain ⟨⟨t1, tr1⟩, g1, g2⟩ := Res.bind_eq_ok.1 h
      cases g2; exact hi.phase (hi.input t _ _ _ _ t.url t.method t.reqProto t.reqHeader t.respCode t.respProto t.respHeader hI) g1
    case processRequestHeader =>
      obtain ⟨⟨t1, tr1⟩, g1, g2⟩ := Res.bind_eq_ok.1 h
      cases g2
      exact hi.phase (hi.input t t.srcIp t.srcPort t.dstIp t.dstPort t.url t.method t.reqProto _ t.respCode t.respProto t.respHeader hI) g1
    case processRequestURL =>
      simp only [Tx.step, Res.ok.injEq, Prod.mk.injEq] at h
      obtain ⟨rfl, _⟩ := h
      exact hi.input t t.srcIp t.srcPort t.dstIp t.dstPort _ _ _ t.reqHeader t.respCode t.respProto t.respHeader hI
    case processResponseHeaders =>
      obtain ⟨⟨t1, tr1⟩, g1, g2⟩ := Res.bind_eq_ok.1 h
      cases g2
      exact hi.phase (hi.input t t.srcIp t.srcPort t.dstIp t.dstPort t.url t.method t.reqProto t.reqHeader _ _ _ hI) g1
    case processRequestBody =>
      obtain ⟨⟨t1, tr1⟩, g1, g2⟩ := Res.bind_eq_ok.1 h
      cases g2; exact hi.phase hI g1
    case processResponseBody =>
      obtain ⟨⟨t1, tr1⟩, g1, g2⟩ := Res.bind_eq_ok.1 h
      cases g2; exact hi.phase hI g1
    case processLogging =>
      obtain ⟨⟨t1, tr1⟩, g1, g2⟩ := Res.bind_eq_ok.1 h
      cases g2; exact hi.phase hI g1
    case processPhase =>
      obtain ⟨⟨t1, tr1⟩, g1, g2⟩ := Res.bind_eq_ok.1 h
      cases g2; exact hi.phase hI g1
    case appendRequestBody =>
      obtain ⟨⟨b, k, e⟩, g1, g2⟩ := Res.bind_eq_ok.1 h
      cases g2; exact hi.req t _ _ b k e hop hI g1
    case appendResponseBody =>
      obtain ⟨⟨b, k, e⟩, g1, g2⟩ := Res.bind_eq_ok.1 h
      cases g2; exact hi.resp t _ _ b k e hop hI g1
    case jumpToPhase =>
      simp only [Tx.step, Res.ok.injEq, Prod.mk.injEq] at h
      obtain ⟨rfl, _⟩ := h
      exact hi.cur t _ _ _ hI
    case nextPhase =>
      simp only [Tx.step, Res.ok.injEq, Prod.mk.injEq] at h
      obtain ⟨rfl, _⟩ := h
      exact hi.cur t _ _ _ hI
    case jumpTo =>
      simp only [Tx.step, Res.ok.injEq, Prod.mk.injEq] at h
      obtain ⟨rfl, _⟩ := h
      simp only [Tx.jumpTo]
      split
      · exact hi.cur t t.phase t.currentRule _ hI
      · exact hi.cur t t.phase t.currentRule _ hI
    case next =>
      simp only [Tx.step, Res.ok.injEq, Prod.mk.injEq] at h
      obtain ⟨rfl, _⟩ := h
      simp only [Tx.next]
      split
      · exact hi.cur t t.phase t.nextRule t.nextRule hI
      · split
        · exact hi.cur t t.phase t.nextRule statusEndOfRules hI
        · exact hi.cur t t.phase t.nextRule (t.nextRule + 1) hI
    all_goals cases hv

theorem TxInv.steps {env : Env} {rs : RuleSet} {I : Tx → Prop} {ok : Action → Prop} {okOp : Op → Prop}
    (hi : TxInv env rs I ok okOp) {n : Nat} : ∀ {ops : List Op} {t t' : Tx} {os : List Out} {tr : Trace},
    (∀ op ∈ ops, okOp op) → I t → t.steps env rs n ops = .ok (t', os, tr) → I t' := by
  intro ops
  induction ops with
  | nil => intro t t' os tr _ hI h; simp only [Tx.steps] at h; cases h; exact hI
  | cons op ops ih =>
    intro t t' os tr hops hI h
    obtain ⟨t1, o, tr1, os2, tr2, h1, h2, rfl, rfl⟩ := steps_cons h
    exact ih (fun op ho => hops op (by simp [ho])) (hi.step (hops op (by simp)) hI h1) h2

end Verif
