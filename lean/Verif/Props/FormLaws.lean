import Verif.Props.PolicyForm
import Verif.Props.LoopBody
import Verif.Props.MoreBody
import Verif.Props.Laws
import Verif.Props.ChainOrder
/-! C92, C112, C115, C116 and C121 for requests with a multipart form. -/
namespace Verif
open Sample Spec

/-- Rules that read arguments from the body do so from phase `q` on, by which the calls `ops` send
a multipart form with the parts `ps`, of at most 131072 bytes. -/
structure Spec.ReadsSentForm (cs : List (List PRule)) (q : Int) (bnd : Bytes) (ps : List (Option Bytes × Bytes)) (ops : List Op) : Prop where
  size : (sent false ops).length ≤ 131072
  form : ∀ c ∈ cs, 1 ≤ chainPhase c → (∃ p ∈ c, ∃ v ∈ p.vars, readsArgs v.tk = true) → q ≤ chainPhase c ∧ FormSent q bnd ps ops

/-- C92 for multipart forms: if the walk over each phase ends on the reference machine, all
calls return and show its verdicts; if some walk does not end, the call never returns. -/
theorem C92_exact_forms {lib : Lib} (hm : lib.ReadsMedia) (hl : lib.ReadsForms) {vo : VarOrd} {ord : IterOrd} {text : Bytes} {dirs : List PDir}
    (ht : Program text dirs) (hok : ∀ d ∈ dirs, DirOk lib d) :
    ∃ set, DireSet.addSecLangString lib vo [] text = .ok (set, none) ∧
      ∀ {ops : List Op} {q : Int} {bnd : Bytes} {ps : List (Option Bytes × Bytes)}, ReadsSentForm (chainsOf (rulesIn dirs)) q bnd ps ops →
      ∀ n, (chainsOf (rulesIn dirs)).length + 2 ≤ n →
        match runOr (formSight lib (reqAccess dirs) (respAccess dirs) (fieldsOf ps)) (chainsOf (rulesIn dirs)) { known := {} } ops with
        | some (_, is) => ∃ t' os tr,
          (set.execute newEngine).newTransaction.steps ((set.execute newEngine).env lib ord) (set.execute newEngine).ruleSet n ops = .ok (t', os, tr) ∧
          shown os = is
        | none => (set.execute newEngine).newTransaction.steps ((set.execute newEngine).env lib ord) (set.execute newEngine).ruleSet n ops = .fuel := by
  obtain ⟨ds, hds, hload, hcar⟩ := loaded_carried (vo := vo) ht hok
  refine ⟨group ds, hload, fun {ops q bnd ps} ⟨hsize, hform⟩ n hn => ?_⟩
  have hlim := loaded_limits hds
  have hmem : ((DireSet.execute (group ds) newEngine).env lib ord).limits.requestBodyInMem = 131072 := by
    show (DireSet.execute (group ds) newEngine).limits.requestBodyInMem = 131072
    rw [hlim]; rfl
  have e : (DireSet.execute (group ds) newEngine).newTransaction = newTransaction
      { newDefaultLimits with requestBodyAccess := reqAccess dirs, responseBodyAccess := respAccess dirs } := by rw [← hlim]; rfl
  obtain ⟨k1, k2⟩ := steps_or (env := (DireSet.execute (group ds) newEngine).env lib ord)
    (V := formView _ hm bnd (fieldsOf ps) (FormSent q bnd ps ops) q) (S := formSight lib (reqAccess dirs) (respAccess dirs) (fieldsOf ps)) (h := [])
    (m := { known := {} }) (t := (DireSet.execute (group ds) newEngine).newTransaction) (n := n) (ops := ops)
    ⟨rfl, fun k p => by
      show HoldsForm lib (reqAccess dirs) (respAccess dirs) (fieldsOf ps) k p ↔ HoldsBy lib (ListsForm lib
        (DireSet.execute (group ds) newEngine).limits.requestBodyAccess (DireSet.execute (group ds) newEngine).limits.responseBodyAccess (fieldsOf ps) k) p
      rw [hlim]
      exact .rfl⟩ hcar
    (fun c hcm h1 p hp v hv ha => ((hform c hcm h1 ⟨p, hp, v, hv, ha⟩).symm)) hn
    (fun a op b e => form_follows hm hl hmem e id hsize) {
      know := rfl, phase := rfl, verdict := rfl, chosen := rfl, aborted := rfl
      low := Int.le_refl 0
      high := by show (0 : Int) ≤ 7; omega
      fine := by
        rw [e]
        exact {
          req := ⟨rfl, rfl, rfl, rfl, rfl⟩
          resp := ⟨rfl, rfl, rfl, rfl, rfl⟩
          told := rfl
          early := fun _ _ => rfl
          cache := fun _ => .inl rfl
          good := fun _ ⟨o, ho, _⟩ => by cases ho
          said := fun _ ⟨o, ho, _⟩ => by cases ho } }
  cases hr : runOr (formSight lib (reqAccess dirs) (respAccess dirs) (fieldsOf ps)) (chainsOf (rulesIn dirs)) { known := {} } ops with
  | none => exact k2 hr
  | some x =>
    obtain ⟨t', os, tr, g1, _, g3⟩ := k1 x.1 x.2 hr
    exact ⟨t', os, tr, g1, g3⟩

/-- C112 with a multipart form of up to 131072 bytes; the old rules do not skip, and if they
allow then everything.  Missing: larger bodies, malformed forms. -/
theorem C112_multipart_partial {lib : Lib} (hm : lib.ReadsMedia) (hl : lib.ReadsForms) {vo : VarOrd} {ord : IterOrd} {text text' : Bytes} {dirs dirs' : List PDir}
    (ht : Program text dirs) (ht' : Program text' dirs') (hok : ∀ d ∈ dirs, DirOk lib d) (hok' : ∀ d ∈ dirs', DirOk lib d) (hsw : switches dirs = switches dirs')
    (hadd : Spec.Adds (chainsOf (rulesIn dirs)) (chainsOf (rulesIn dirs'))) (hc : ∀ p ∈ rulesIn dirs, ∀ a ∈ p.acts.action, Calm a)
    {ops : List Op} {q : Int} {bnd : Bytes} {ps : List (Option Bytes × Bytes)} (hf : ReadsSentForm (chainsOf (rulesIn dirs')) q bnd ps ops) :
    BothShow (Pairs fun v v' => v.disruptive = true → v'.disruptive = true) lib vo ord text text' (enough dirs dirs') ops := by
  have hc0 : ∀ c ∈ chainsOf (rulesIn dirs), ∀ p ∈ c, ∀ a ∈ p.acts.action, Calm a := fun c h p hp => hc p (mem_chainsOf h hp)
  obtain ⟨set, h1, h2⟩ := C133_machine hm hl (vo := vo) (ord := ord) ht hok (calm_noReturn hc0)
  obtain ⟨set', h1', h2'⟩ := C133_machine hm hl (vo := vo) (ord := ord) ht' hok' (calm_noReturn (hadd.calm hc0))
  refine ⟨set, set', h1, h1', fun n hn => ?_⟩
  obtain ⟨t, os, tr, g1, g2⟩ := h2 (q := q) hf.size (fun c h => hf.form c (hadd.mem c h)) n (by simp only [enough] at hn; omega)
  obtain ⟨t', os', tr', g1', g2'⟩ := h2' hf.size hf.form n (by simp only [enough] at hn; omega)
  refine ⟨t, t', os, os', tr, tr', g1, g1', ?_⟩
  obtain ⟨e1, e2⟩ := switches_access hsw
  rw [g2, g2', ← e1, ← e2]
  exact behind_run hadd hc0 (fun c h => ⟨chain_low ht' h, chain_five ht' h⟩) ops ⟨rfl, rfl, .inl rfl, id⟩

/-- Whatever the old rules allow: what is refused is refused, and no later. -/
theorem C112_first_refusal_multipart_partial {lib : Lib} (hm : lib.ReadsMedia) (hl : lib.ReadsForms) {vo : VarOrd} {ord : IterOrd} {text text' : Bytes} {dirs dirs' : List PDir}
    (ht : Program text dirs) (ht' : Program text' dirs') (hok : ∀ d ∈ dirs, DirOk lib d) (hok' : ∀ d ∈ dirs', DirOk lib d) (hsw : switches dirs = switches dirs')
    (hadd : Spec.Adds (chainsOf (rulesIn dirs)) (chainsOf (rulesIn dirs'))) (hc : ∀ p ∈ rulesIn dirs, ∀ a ∈ p.acts.action, a.tk ≠ .skip)
    (hret : NoReturn (chainsOf (rulesIn dirs))) {ops : List Op} (hr : ∀ op ∈ ops, op ≠ .resetIntervention)
    {q : Int} {bnd : Bytes} {ps : List (Option Bytes × Bytes)} (hf : ReadsSentForm (chainsOf (rulesIn dirs')) q bnd ps ops) :
    BothShow RefusesAsSoon lib vo ord text text' (enough dirs dirs') ops := by
  have hc0 : ∀ c ∈ chainsOf (rulesIn dirs), ∀ p ∈ c, ∀ a ∈ p.acts.action, a.tk ≠ .skip := fun c h p hp => hc p (mem_chainsOf h hp)
  obtain ⟨set, h1, h2⟩ := C133_machine hm hl (vo := vo) (ord := ord) ht hok hret
  obtain ⟨set', h1', h2'⟩ := C133_machine hm hl (vo := vo) (ord := ord) ht' hok' (hadd.noReturn hret)
  refine ⟨set, set', h1, h1', fun n hn => ?_⟩
  obtain ⟨t, os, tr, g1, g2⟩ := h2 (q := q) hf.size (fun c h => hf.form c (hadd.mem c h)) n (by simp only [enough] at hn; omega)
  obtain ⟨t', os', tr', g1', g2'⟩ := h2' hf.size hf.form n (by simp only [enough] at hn; omega)
  refine ⟨t, t', os, os', tr, tr', g1, g1', ?_⟩
  obtain ⟨e1, e2⟩ := switches_access hsw
  rw [g2, g2', ← e1, ← e2]
  exact level_run hadd hc0 (fun c h => ⟨chain_low ht' h, chain_five ht' h⟩) ops hr (.inr ⟨rfl, rfl, rfl, id⟩)

theorem form_alike {lib : Lib} (hm : lib.ReadsMedia) (hl : lib.ReadsForms) {vo : VarOrd} {ord : IterOrd} {text text' : Bytes} {dirs dirs' : List PDir}
    (ht : Program text dirs) (ht' : Program text' dirs')
    (hok : ∀ d ∈ dirs, DirOk lib d) (hsw : switches dirs = switches dirs') (hst : StemsFrom (chainsOf (rulesIn dirs)) (chainsOf (rulesIn dirs')))
    (hs : StrictRules (chainsOf (rulesIn dirs))) {ops : List Op} {q : Int} {bnd : Bytes} {ps : List (Option Bytes × Bytes)}
    (he : ∀ k q, Case (formSight lib (reqAccess dirs) (respAccess dirs) (fieldsOf ps)) (chainsOf (rulesIn dirs)) k q ↔
      Case (formSight lib (reqAccess dirs) (respAccess dirs) (fieldsOf ps)) (chainsOf (rulesIn dirs')) k q)
    (hf : ReadsSentForm (chainsOf (rulesIn dirs)) q bnd ps ops) :
    AlikeOn lib vo ord text text' (enough dirs dirs') ops := by
  obtain ⟨set, h1, h2⟩ := C133_machine hm hl (vo := vo) (ord := ord) ht hok (strict_noReturn hs)
  obtain ⟨set', h1', h2'⟩ := C133_machine hm hl (vo := vo) (ord := ord) ht' (hst.ok hok) (strict_noReturn (hst.strict hs))
  refine ⟨set, set', h1, h1', fun n hn => ?_⟩
  obtain ⟨t, os, tr, g1, g2⟩ := h2 hf.size hf.form n (by simp only [enough] at hn; omega)
  obtain ⟨t', os', tr', g1', g2'⟩ := h2' (q := q) (bnd := bnd) (ps := ps) hf.size (fun d hd h1 ⟨p', hp, v, hv, ha⟩ => by
    obtain ⟨c, c1, c2, c3⟩ := hst d hd
    obtain ⟨p, p1, _, _, p4⟩ := c3 p' hp
    rw [c2] at h1 ⊢
    exact hf.form c c1 h1 ⟨p, p1, v, p4 v hv, ha⟩) n (by simp only [enough] at hn; omega)
  refine ⟨t, t', os, os', tr, tr', g1, g1', ?_⟩
  obtain ⟨e1, e2⟩ := switches_access hsw
  rw [g2, g2', ← e1, ← e2]
  exact peers_run hs (hst.strict hs) he (fun c h => ⟨chain_low ht h, chain_five ht h⟩) (fun c h => ⟨chain_low ht' h, chain_five ht' h⟩) ops ⟨rfl, rfl, rfl, rfl⟩

/-- C115 with a multipart form of up to 131072 bytes.  Missing: larger bodies, malformed forms. -/
theorem C115_multipart_partial {lib : Lib} (hm : lib.ReadsMedia) (hl : lib.ReadsForms) {vo : VarOrd} {ord : IterOrd} {text text' : Bytes} {dirs dirs' : List PDir}
    (ht : Program text dirs) (ht' : Program text' dirs') (hok : ∀ d ∈ dirs, DirOk lib d) (hsw : switches dirs = switches dirs')
    (h : SameRules (chainsOf (rulesIn dirs)) (chainsOf (rulesIn dirs'))) (hs : StrictRules (chainsOf (rulesIn dirs)))
    {ops : List Op} {q : Int} {bnd : Bytes} {ps : List (Option Bytes × Bytes)} (hf : ReadsSentForm (chainsOf (rulesIn dirs)) q bnd ps ops) :
    AlikeOn lib vo ord text text' (enough dirs dirs') ops :=
  form_alike hm hl ht ht' hok hsw h.stems hs h.case hf

/-- C116 with a multipart form of up to 131072 bytes.  Missing: larger bodies, malformed forms. -/
theorem C116_multipart_partial {lib : Lib} (hm : lib.ReadsMedia) (hl : lib.ReadsForms) {vo : VarOrd} {ord : IterOrd} {text text' : Bytes} {dirs dirs' : List PDir}
    (ht : Program text dirs) (ht' : Program text' dirs') (hok : ∀ d ∈ dirs, DirOk lib d) (hsw : switches dirs = switches dirs')
    (h : Splits NoneShared (chainsOf (rulesIn dirs)) (chainsOf (rulesIn dirs'))) (hs : StrictRules (chainsOf (rulesIn dirs)))
    {ops : List Op} {q : Int} {bnd : Bytes} {ps : List (Option Bytes × Bytes)} (hf : ReadsSentForm (chainsOf (rulesIn dirs)) q bnd ps ops) :
    AlikeOn lib vo ord text text' (enough dirs dirs') ops :=
  form_alike hm hl ht ht' hok hsw h.stems hs (fun k q => h.case (fun _ _ => .rfl) k q) hf

theorem byQuestion_form (lib : Lib) (req resp : Bool) (fs : List (Bytes × Bytes)) : ByQuestion (formSight lib req resp fs) := by
  intro k p p' h
  obtain ⟨e1, e2⟩ := Prod.mk.inj h
  obtain ⟨e2, e3⟩ := Prod.mk.inj e2
  simp only [formSight, HoldsForm, HoldsBy, e1, e2, e3]

/-- C121 with a multipart form of up to 131072 bytes.  Missing: larger bodies, malformed forms. -/
theorem C121_multipart_partial {lib : Lib} (hm : lib.ReadsMedia) (hl : lib.ReadsForms) {vo : VarOrd} {ord : IterOrd} {text text' : Bytes} {dirs dirs' : List PDir}
    (ht : Program text dirs) (ht' : Program text' dirs') (hok : ∀ d ∈ dirs, DirOk lib d) (hsw : switches dirs = switches dirs')
    (h : Pairs Shuffled (chainsOf (rulesIn dirs)) (chainsOf (rulesIn dirs'))) (hret : NoReturn (chainsOf (rulesIn dirs)))
    {ops : List Op} {q : Int} {bnd : Bytes} {ps : List (Option Bytes × Bytes)} (hf : ReadsSentForm (chainsOf (rulesIn dirs)) q bnd ps ops) :
    JudgedAlikeOn lib vo ord text text' ((chainsOf (rulesIn dirs)).length + 2) ops := by
  obtain ⟨set, h1, h2⟩ := C133_machine hm hl (vo := vo) (ord := ord) ht hok hret
  obtain ⟨set', h1', h2'⟩ := C133_machine hm hl (vo := vo) (ord := ord) ht' (shuffled_ok h hok) (shuffled_noReturn h hret)
  refine ⟨set, set', h1, h1', fun n hn => ?_⟩
  obtain ⟨t, os, tr, g1, g2⟩ := h2 hf.size hf.form n hn
  obtain ⟨t', os', tr', g1', g2'⟩ := h2' (q := q) (bnd := bnd) (ps := ps) hf.size (fun d hd l1 ⟨p', hp, v, hv, ha⟩ => by
    obtain ⟨c, c1, c2⟩ := h.right d hd
    obtain ⟨p, p1, p2, _⟩ := c2.rule hp
    rw [c2.phase] at l1 ⊢
    exact hf.form c c1 l1 ⟨p, p1, v, p2 ▸ hv, ha⟩) n (by rw [← h.length_eq]; exact hn)
  obtain ⟨e1, e2⟩ := switches_access hsw
  exact ⟨t, t', os, os', tr, tr', g1, g1', by rw [g2, g2', ← e1, ← e2, shuffled_run (byQuestion_form lib _ _ _) h]⟩

/-! ### Examples -/

/-- A rule that tests some variables for "evil". -/
def Sample.evilIn (vs : List PVar) (chain : Bool) : PRule where
  vars := vs
  op := { tk := .rx, arg := b!"evil" }
  acts := { id := 1, phase := 3, chain := chain, action := [⟨.deny, []⟩] }

/-- Field `a` of a form; the method. -/
def Sample.fieldA : PVar := { tk := .argsPost, index := b!"a" }
def Sample.theMethod : PVar := { tk := .requestMethod }

theorem Sample.evilIn_ok {rs : List PRule} (h : ∀ p ∈ rs, ∃ vs b, p = evilIn vs b ∧ ∀ v ∈ vs, v = fieldA ∨ v = theMethod) :
    ∀ d ∈ PDir.reqBody true :: rs.map .rule, DirOk formLib d := by
  have no : ∀ {s : Bytes} {P : Bytes → Prop}, isRegex s = false → ∀ re, IsRegex s re → P re := by
    intro s P h re hre
    rw [(isRegex_iff s).2 ⟨re, hre⟩] at h; cases h
  intro d hd
  rcases List.mem_cons.1 hd with rfl | hd
  · trivial
  · obtain ⟨p, hp, rfl⟩ := List.mem_map.1 hd
    obtain ⟨vs, b, rfl, hv⟩ := h p hp
    exact {
      vars := by
        intro v h
        rcases hv v h with rfl | rfl
        · exact ⟨by simp [fieldA], fun _ => no (by decide)⟩
        · exact ⟨by simp [theMethod], fun h => by cases h⟩
      op := ⟨_, .rx rfl rfl⟩
      acts := by intro a ha; rw [List.mem_singleton.1 ha]; exact .inl ⟨_, .deny⟩ }

theorem Sample.evil_reads {cs : List (List PRule)} (hcs : ∀ c ∈ cs, ∃ p r vs b, c = p :: r ∧ p = evilIn vs b)
    {x y v : Bytes} (hxy : x ++ y = sentBody v) (h : 13 ∉ v) (hd : v.head? ≠ some 45) (hlen : (sentBody v).length ≤ 4096) :
    ReadsSentForm cs 3 b!"foo" [(some b!"a", v), (none, b!"evil")] (sentOps x y ++ [.result]) where
  size := by
    have e : sent false (sentOps x y ++ [.result]) = sentBody v := by
      rw [← hxy]; simp [sentOps, sent, chunkOf]
    rw [e]; omega
  form := by
    intro c hc _ _
    obtain ⟨p, r, vs, b, rfl, rfl⟩ := hcs c hc
    exact ⟨by show (3 : Int) ≤ 3; omega, (sentOps_sent hxy h hd hlen).result⟩

def Sample.evilText : Bytes := b!"SecRequestBodyAccess On\nSecRule ARGS_POST:a \"@rx evil\" \"id:1,phase:3,deny\"\nSecRule REQUEST_METHOD \"@rx evil\" \"id:1,phase:3,deny\"\n"
def Sample.evilDirs : List PDir := .reqBody true :: [evilIn [fieldA] false, evilIn [theMethod] false].map .rule

theorem Sample.evilText_program : Program evilText evilDirs := (C53_exact id _ _).1 (by decide +kernel)

theorem Sample.evilDirs_ok : ∀ d ∈ evilDirs, DirOk formLib d := by
  refine evilIn_ok fun p hp => ?_
  simp only [List.mem_cons, List.not_mem_nil, or_false] at hp
  rcases hp with rfl | rfl
  · exact ⟨_, _, rfl, fun v hv => .inl (List.mem_singleton.1 hv)⟩
  · exact ⟨_, _, rfl, fun v hv => .inr (List.mem_singleton.1 hv)⟩

theorem Sample.evilDirs_chains {c : List PRule} (hc : c ∈ chainsOf (rulesIn evilDirs)) : ∃ p r vs b, c = p :: r ∧ p = evilIn vs b := by
  have hc : c ∈ [[evilIn [fieldA] false], [evilIn [theMethod] false]] := hc
  simp only [List.mem_cons, List.not_mem_nil, or_false] at hc
  rcases hc with rfl | rfl <;> exact ⟨_, _, _, _, rfl, rfl⟩

/-- C92 and C112: the rule on field `a`, and one more. -/
example {x y v : Bytes} (hxy : x ++ y = sentBody v) (h : 13 ∉ v) (hd : v.head? ≠ some 45) (hlen : (sentBody v).length ≤ 4096) :
    (∃ set, DireSet.addSecLangString formLib varOrd [] sentText = .ok (set, none) ∧
      ∃ t' os tr, (set.execute newEngine).newTransaction.steps ((set.execute newEngine).env formLib Sample.ord) (set.execute newEngine).ruleSet 3
        (sentOps x y ++ [.result]) = .ok (t', os, tr)) ∧
    BothShow (Pairs fun v v' => v.disruptive = true → v'.disruptive = true) formLib varOrd Sample.ord sentText evilText 4 (sentOps x y ++ [.result]) ∧
    BothShow RefusesAsSoon formLib varOrd Sample.ord sentText evilText 4 (sentOps x y ++ [.result]) := by
  have hact : ∀ p ∈ rulesIn sentDirs, ∀ a ∈ p.acts.action, a = ⟨.deny, []⟩ := by
    intro p hp a ha
    have hp : p ∈ [sentRule] := hp
    rw [List.mem_singleton.1 hp] at ha
    exact List.mem_singleton.1 ha
  have hadd : Spec.Adds (chainsOf (rulesIn sentDirs)) (chainsOf (rulesIn evilDirs)) :=
    .same (.extra (by intro p hp a ha; rw [List.mem_singleton.1 hp] at ha; rw [List.mem_singleton.1 ha]; exact ⟨nofun, nofun⟩) .nil)
  have hret : NoReturn (chainsOf (rulesIn sentDirs)) := by
    intro c hc _ p hp a ha
    rw [hact p (mem_chainsOf hc hp) a ha]
    nofun
  have hf := evil_reads (fun c => evilDirs_chains) hxy h hd hlen
  refine ⟨?_, C112_multipart_partial formEnv_media formLib_reads sentText_program evilText_program sentText_ok evilDirs_ok rfl hadd ?_ hf,
    C112_first_refusal_multipart_partial formEnv_media formLib_reads sentText_program evilText_program sentText_ok evilDirs_ok rfl hadd ?_ hret ?_ hf⟩
  · obtain ⟨set, h1, h2⟩ := C92_exact_forms formEnv_media formLib_reads (vo := varOrd) (ord := Sample.ord) sentText_program sentText_ok
    refine ⟨set, h1, ?_⟩
    have h2 := h2 ⟨hf.size, fun c hc => hf.form c (hadd.mem c hc)⟩ 3 (by decide)
    rw [runOr_run (fun c hc => chain_five sentText_program hc) hret _ (Int.le_refl 0)] at h2
    obtain ⟨t', os, tr, g1, _⟩ := h2
    exact ⟨t', os, tr, g1⟩
  · intro p hp a ha
    rw [hact p hp a ha]
    exact ⟨nofun, nofun⟩
  · intro p hp a ha
    rw [hact p hp a ha]
    nofun
  · intro op ho
    simp only [sentOps, List.cons_append, List.nil_append, List.mem_cons, List.not_mem_nil, or_false] at ho
    rcases ho with rfl | rfl | rfl | rfl | rfl | rfl | rfl <;> nofun

/-- C115: the two rules in the other order. -/
example {x y v : Bytes} (hxy : x ++ y = sentBody v) (h : 13 ∉ v) (hd : v.head? ≠ some 45) (hlen : (sentBody v).length ≤ 4096) :
    AlikeOn formLib varOrd Sample.ord evilText
      b!"SecRequestBodyAccess On\nSecRule REQUEST_METHOD \"@rx evil\" \"id:1,phase:3,deny\"\nSecRule ARGS_POST:a \"@rx evil\" \"id:1,phase:3,deny\"\n" 4
      (sentOps x y ++ [.result]) :=
  C115_multipart_partial (dirs' := .reqBody true :: [evilIn [theMethod] false, evilIn [fieldA] false].map .rule)
    formEnv_media formLib_reads evilText_program ((C53_exact id _ _).1 (by decide +kernel)) evilDirs_ok rfl
    (by
      intro c
      show c ∈ [[evilIn [fieldA] false], [evilIn [theMethod] false]] ↔ c ∈ [[evilIn [theMethod] false], [evilIn [fieldA] false]]
      simp only [List.mem_cons, List.not_mem_nil, or_false]
      exact Or.comm)
    (by
      intro c hc p hp a ha
      have hc : c ∈ [[evilIn [fieldA] false], [evilIn [theMethod] false]] := hc
      simp only [List.mem_cons, List.not_mem_nil, or_false] at hc
      rcases hc with rfl | rfl <;> (rw [List.mem_singleton.1 hp] at ha; rw [List.mem_singleton.1 ha]; exact ⟨nofun, nofun⟩))
    (evil_reads (fun c => evilDirs_chains) hxy h hd hlen)

/-- C116: one rule for both. -/
example {x y v : Bytes} (hxy : x ++ y = sentBody v) (h : 13 ∉ v) (hd : v.head? ≠ some 45) (hlen : (sentBody v).length ≤ 4096) :
    AlikeOn formLib varOrd Sample.ord b!"SecRequestBodyAccess On\nSecRule ARGS_POST:a|REQUEST_METHOD \"@rx evil\" \"id:1,phase:3,deny\"\n" evilText 4
      (sentOps x y ++ [.result]) :=
  C116_multipart_partial (dirs := .reqBody true :: [evilIn [fieldA, theMethod] false].map .rule)
    formEnv_media formLib_reads ((C53_exact id _ _).1 (by decide +kernel)) evilText_program
    (evilIn_ok fun p hp => by
      rw [List.mem_singleton.1 hp]
      exact ⟨_, _, rfl, fun v hv => by simpa using hv⟩) rfl
    (.split (a := []) (b := []) (vs := [fieldA]) (ws := [theMethod]) rfl
      (by intro v hv w hw; rw [List.mem_singleton.1 hv, List.mem_singleton.1 hw]; decide) .nil)
    (by
      intro c hc p hp a ha
      have hc : c ∈ [[evilIn [fieldA, theMethod] false]] := hc
      rw [List.mem_singleton.1 hc] at hp
      rw [List.mem_singleton.1 hp] at ha; rw [List.mem_singleton.1 ha]; exact ⟨nofun, nofun⟩)
    (evil_reads (fun c hc => by
      have hc : c ∈ [[evilIn [fieldA, theMethod] false]] := hc
      exact ⟨_, _, _, _, List.mem_singleton.1 hc, rfl⟩) hxy h hd hlen)

/-- C121: the two tests in a chain. -/
example {x y v : Bytes} (hxy : x ++ y = sentBody v) (h : 13 ∉ v) (hd : v.head? ≠ some 45) (hlen : (sentBody v).length ≤ 4096) :
    JudgedAlikeOn formLib varOrd Sample.ord
      b!"SecRequestBodyAccess On\nSecRule ARGS_POST:a \"@rx evil\" \"id:1,phase:3,deny,chain\"\nSecRule REQUEST_METHOD \"@rx evil\" \"id:1,phase:3,deny\"\n"
      b!"SecRequestBodyAccess On\nSecRule REQUEST_METHOD \"@rx evil\" \"id:1,phase:3,deny,chain\"\nSecRule ARGS_POST:a \"@rx evil\" \"id:1,phase:3,deny\"\n" 3
      (sentOps x y ++ [.result]) :=
  C121_multipart_partial (dirs := .reqBody true :: [evilIn [fieldA] true, evilIn [theMethod] false].map .rule)
    (dirs' := .reqBody true :: [evilIn [theMethod] true, evilIn [fieldA] false].map .rule)
    formEnv_media formLib_reads ((C53_exact id _ _).1 (by decide +kernel)) ((C53_exact id _ _).1 (by decide +kernel))
    (evilIn_ok fun p hp => by
      simp only [List.mem_cons, List.not_mem_nil, or_false] at hp
      rcases hp with rfl | rfl
      · exact ⟨_, _, rfl, fun v hv => .inl (List.mem_singleton.1 hv)⟩
      · exact ⟨_, _, rfl, fun v hv => .inr (List.mem_singleton.1 hv)⟩) rfl
    (.cons ⟨rfl, List.Perm.swap _ _ _⟩ .nil)
    (by
      intro c hc h4
      have hc : c ∈ [[evilIn [fieldA] true, evilIn [theMethod] false]] := hc
      rw [List.mem_singleton.1 hc] at h4; cases h4)
    (evil_reads (fun c hc => by
      have hc : c ∈ [[evilIn [fieldA] true, evilIn [theMethod] false]] := hc
      exact ⟨_, _, _, _, List.mem_singleton.1 hc, rfl⟩) hxy h hd hlen)

end Verif
