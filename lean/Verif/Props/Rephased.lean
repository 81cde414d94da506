import Verif.Props.Whole
/-! C145: rules that are moved to another phase. -/
namespace Verif
open Sample Spec

/-- The variables made from the connection, the request line and the headers of the request. -/
def Spec.ofRequest : VarTok → Bool
  | .remoteAddr | .requestMethod | .requestProtocol | .queryString | .requestFilename | .requestUri | .requestBasename
  | .requestHeaders | .requestHeadersNames | .argsGet | .argsGetNames | .requestCookies | .requestCookiesNames => true
  | _ => false

/-- The calls that tell of these. -/
def Spec.tellsRequest : Op → Bool
  | .processConnection .. | .processRequestURL .. | .processRequestHeader _ => true
  | _ => false

/-- Phase `q` is processed, and so is `q'`, later, with nothing told of the request in between. -/
def Spec.StandsFrom (ops : List Op) (q q' : Int) : Prop :=
  ∃ pre mid, ProcessedBy id ops q pre ∧ ProcessedBy id ops q' (pre ++ mid) ∧ ∀ o ∈ mid, tellsRequest o = false

/-- The same rule, but for its number and phase. -/
structure Spec.SameButPhase (p p' : PRule) : Prop where
  vars : p'.vars = p.vars
  op : p'.op = p.op
  trans : p'.acts.trans = p.acts.trans
  action : p'.acts.action = p.acts.action

/-- The same chain, in the same phase or, if it is about the request, in one that sees the same request. -/
structure Spec.Rephase (ops : List Op) (c d : List PRule) : Prop where
  rules : Pairs SameButPhase c d
  phase : chainPhase d = chainPhase c ∨ 1 ≤ chainPhase c ∧ 1 ≤ chainPhase d ∧ (∀ p ∈ c, ∀ v ∈ p.vars, ofRequest v.tk = true) ∧
    (StandsFrom ops (chainPhase c) (chainPhase d) ∨ StandsFrom ops (chainPhase d) (chainPhase c))

/-- The chains of two texts are the same but for such moves, in any order. -/
def Spec.Rephased (ops : List Op) (cs ds : List (List PRule)) : Prop :=
  (∀ c ∈ cs, ∃ d ∈ ds, Rephase ops c d) ∧ ∀ d ∈ ds, ∃ c ∈ cs, Rephase ops c d

/-- Both texts load, and with both the calls end with the same verdict. -/
def Spec.EndsAlike (lib : Lib) (vo : VarOrd) (ord : IterOrd) (text text' : Bytes) (N : Nat) (ops : List Op) : Prop :=
  ∃ set set', DireSet.addSecLangString lib vo [] text = .ok (set, none) ∧ DireSet.addSecLangString lib vo [] text' = .ok (set', none) ∧
    ∀ n ≥ N, ∃ t t' os os' i i' tr tr',
      (set.execute newEngine).newTransaction.steps ((set.execute newEngine).env lib ord) (set.execute newEngine).ruleSet n (ops ++ [.result]) =
        .ok (t, os ++ [.intervention i], tr) ∧
      (set'.execute newEngine).newTransaction.steps ((set'.execute newEngine).env lib ord) (set'.execute newEngine).ruleSet n (ops ++ [.result]) =
        .ok (t', os' ++ [.intervention i'], tr') ∧
      i'.disruptive = i.disruptive ∧ i'.status = i.status

/-! ### The proof -/

theorem pairs_left {α β : Type} {R : α → β → Prop} {as : List α} {bs : List β} (h : Pairs R as bs) : ∀ a ∈ as, ∃ b ∈ bs, R a b := by
  induction h with
  | nil => exact fun _ h => nomatch h
  | cons h _ ih =>
    intro a ha
    rcases List.mem_cons.1 ha with rfl | ha
    · exact ⟨_, .head _, h⟩
    · obtain ⟨b, h1, h2⟩ := ih a ha
      exact ⟨b, .tail _ h1, h2⟩

theorem pairs_right {α β : Type} {R : α → β → Prop} {as : List α} {bs : List β} (h : Pairs R as bs) : ∀ b ∈ bs, ∃ a ∈ as, R a b := by
  induction h with
  | nil => exact fun _ h => nomatch h
  | cons h _ ih =>
    intro a ha
    rcases List.mem_cons.1 ha with rfl | ha
    · exact ⟨_, .head _, h⟩
    · obtain ⟨b, h1, h2⟩ := ih a ha
      exact ⟨b, .tail _ h1, h2⟩

/-- A phase is processed once. -/
theorem processedBy_sole {K : Type} {after : List Op → K} {ops : List Op} {q : Int} {pre : List Op} {k : K} (h : ProcessedBy id ops q pre)
    (h' : ProcessedBy after ops q k) : k = after pre := by
  obtain ⟨a, x, b, e, hx, ha, rfl⟩ := h
  obtain ⟨a', x', b', e', hx', ha', rfl⟩ := h'
  rw [e] at e'
  rcases List.append_eq_append_iff.1 e' with ⟨l, h1, h2⟩ | ⟨l, h1, h2⟩
  · cases l with
    | nil => simp only [List.nil_append, List.cons.injEq] at h2; simp [h1, h2.1]
    | cons y l =>
      simp only [List.cons_append, List.cons.injEq] at h2
      have := ha' x (by rw [h1, h2.1]; simp) q hx
      omega
  · cases l with
    | nil => simp only [List.nil_append, List.cons.injEq] at h2; simp [h1, h2.1]
    | cons y l =>
      simp only [List.cons_append, List.cons.injEq] at h2
      have := ha x' (by rw [h1, h2.1]; simp) q hx'
      omega

theorem processedBy_after {K : Type} (after : List Op → K) {ops : List Op} {q : Int} {pre : List Op} (h : ProcessedBy id ops q pre) : ProcessedBy after ops q (after pre) := by
  obtain ⟨a, x, b, e, hx, ha, rfl⟩ := h
  exact ⟨a, x, b, e, hx, ha, rfl⟩

/-- What the host told of the request. -/
def askedOf (k : Facts) : Facts := { k with status := 0, respProto := [], respHeaders := none }

theorem askedOf_told {k : Facts} {o : Op} (h : tellsRequest o = false) : askedOf (told k o) = askedOf k := by
  cases o <;> simp only [tellsRequest, Bool.true_eq_false] at h <;> try rfl
  case processResponseHeaders c p m => cases m <;> rfl

theorem lists_asked {lib : Lib} {k : Facts} {P : Bytes → Prop} {vals : List Bytes} {tk : VarTok} (h : ofRequest tk = true) :
    Lists lib k P vals tk ↔ Lists lib (askedOf k) P vals tk := by
  cases tk <;> simp only [ofRequest, Bool.false_eq_true] at h <;> exact .rfl

theorem lists_later {lib : Lib} {k k' : Facts} (he : askedOf k = askedOf k') {P : Bytes → Prop} {vals : List Bytes} {tk : VarTok} (h : ofRequest tk = true) :
    Lists lib k P vals tk ↔ Lists lib k' P vals tk := by
  rw [lists_asked h, he, ← lists_asked h]

/-- The conditions of two rules alike, where their variables list the same. -/
theorem holdsBy_alike {lib : Lib} {L L' : (Bytes → Prop) → List Bytes → VarTok → Prop} {p p' : PRule} (h : SameButPhase p p')
    (hl : ∀ v ∈ p.vars, ∀ P vals, L P vals v.tk ↔ L' P vals v.tk) : HoldsBy lib L p ↔ HoldsBy lib L' p' := by
  simp only [HoldsBy, TestedBy, h.vars, h.op, h.trans]
  constructor
  · rintro ⟨v, hv, y, ⟨vals, h1, h2⟩, h3⟩
    exact ⟨v, hv, y, ⟨vals, (hl v hv _ _).1 h1, h2⟩, h3⟩
  · rintro ⟨v, hv, y, ⟨vals, h1, h2⟩, h3⟩
    exact ⟨v, hv, y, ⟨vals, (hl v hv _ _).2 h1, h2⟩, h3⟩

theorem denies_alike {c d : List PRule} (h : Pairs SameButPhase c d) : Denies c ↔ Denies d := by
  constructor
  · rintro ⟨p, hp, a, ha, e⟩
    obtain ⟨p', h1, h2⟩ := pairs_left h p hp
    exact ⟨p', h1, a, h2.action ▸ ha, e⟩
  · rintro ⟨p', hp, a, ha, e⟩
    obtain ⟨p, h1, h2⟩ := pairs_right h p' hp
    exact ⟨p, h1, a, h2.action ▸ ha, e⟩

section
variable {K : Type} {lib : Lib} {S : Sight K} {L : K → (Bytes → Prop) → List Bytes → VarTok → Prop} {k0 : K} {ops : List Op}

/-- Some chain denies what is known when its phase is processed. -/
def Caught (S : Sight K) (k0 : K) (ops : List Op) (cs : List (List PRule)) : Prop :=
  ∃ c ∈ cs, ∃ k, 1 ≤ chainPhase c ∧ ProcessedBy (fun pre => pre.foldl S.learn k0) ops (chainPhase c) k ∧ Denies c ∧ ∀ p ∈ c, S.holds k p

theorem rephase_stands (hS : ∀ k p, S.holds k p ↔ HoldsBy lib (L k) p)
    (hL : ∀ k o tk P vals, tellsRequest o = false → ofRequest tk = true → (L (S.learn k o) P vals tk ↔ L k P vals tk)) {c d : List PRule}
    (hr : Pairs SameButPhase c d) (ho : ∀ p ∈ c, ∀ v ∈ p.vars, ofRequest v.tk = true) {mid : List Op} (hmid : ∀ o ∈ mid, tellsRequest o = false) (k : K) :
    (∀ p ∈ c, S.holds k p) ↔ ∀ p ∈ d, S.holds (mid.foldl S.learn k) p := by
  have e : ∀ (mid : List Op), (∀ o ∈ mid, tellsRequest o = false) → ∀ k tk P vals, ofRequest tk = true → (L (mid.foldl S.learn k) P vals tk ↔ L k P vals tk) := by
    intro mid
    induction mid with
    | nil => exact fun _ _ _ _ _ _ => .rfl
    | cons o mid ih => exact fun h k tk P vals ht => (ih (fun o ho => h o (.tail _ ho)) _ tk P vals ht).trans (hL k o tk P vals (h o (.head _)) ht)
  constructor
  · intro h p' hp
    obtain ⟨p, h1, h2⟩ := pairs_right hr p' hp
    exact (hS _ _).2 ((holdsBy_alike h2 fun v hv P vals => (e mid hmid k v.tk P vals (ho p h1 v hv)).symm).1 ((hS _ _).1 (h p h1)))
  · intro h p hp
    obtain ⟨p', h1, h2⟩ := pairs_left hr p hp
    exact (hS _ _).2 ((holdsBy_alike h2 fun v hv P vals => (e mid hmid k v.tk P vals (ho p hp v hv)).symm).2 ((hS _ _).1 (h p' h1)))

theorem rephase_same (hS : ∀ k p, S.holds k p ↔ HoldsBy lib (L k) p) {c d : List PRule} (hr : Pairs SameButPhase c d) (k : K) :
    (∀ p ∈ c, S.holds k p) ↔ ∀ p ∈ d, S.holds k p := by
  constructor
  · intro h p' hp
    obtain ⟨p, h1, h2⟩ := pairs_right hr p' hp
    exact (hS _ _).2 ((holdsBy_alike h2 fun _ _ _ _ => .rfl).1 ((hS _ _).1 (h p h1)))
  · intro h p hp
    obtain ⟨p', h1, h2⟩ := pairs_left hr p hp
    exact (hS _ _).2 ((holdsBy_alike h2 fun _ _ _ _ => .rfl).2 ((hS _ _).1 (h p' h1)))

theorem sameButPhase_symm {c d : List PRule} (h : Pairs SameButPhase c d) : Pairs SameButPhase d c := by
  induction h with
  | nil => exact .nil
  | cons h _ ih => exact .cons ⟨h.vars.symm, h.op.symm, h.trans.symm, h.action.symm⟩ ih

theorem Spec.Rephase.symm {c d : List PRule} (h : Rephase ops c d) : Rephase ops d c where
  rules := sameButPhase_symm h.rules
  phase := h.phase.imp Eq.symm fun ⟨h1, h2, h3, h4⟩ => ⟨h2, h1, fun p' hp v hv => by
    obtain ⟨p, g1, g2⟩ := pairs_right h.rules p' hp
    exact h3 p g1 v (g2.vars ▸ hv), h4.symm⟩

theorem rephase_caught (hS : ∀ k p, S.holds k p ↔ HoldsBy lib (L k) p)
    (hL : ∀ k o tk P vals, tellsRequest o = false → ofRequest tk = true → (L (S.learn k o) P vals tk ↔ L k P vals tk)) {cs ds : List (List PRule)}
    (h : ∀ c ∈ cs, ∃ d ∈ ds, Rephase ops c d) (hc : Caught S k0 ops cs) : Caught S k0 ops ds := by
  obtain ⟨c, hc, k, h1, hk, hd, hh⟩ := hc
  obtain ⟨d, hdm, hr⟩ := h c hc
  refine ⟨d, hdm, ?_⟩
  rcases hr.phase with e | ⟨_, g1, g2, ⟨pre, mid, s1, s2, s3⟩ | ⟨pre, mid, s1, s2, s3⟩⟩
  · exact ⟨k, e ▸ h1, e ▸ hk, (denies_alike hr.rules).1 hd, (rephase_same hS hr.rules k).1 hh⟩
  · refine ⟨_, g1, processedBy_after _ s2, (denies_alike hr.rules).1 hd, ?_⟩
    rw [processedBy_sole s1 hk] at hh
    simp only [List.foldl_append]
    exact (rephase_stands hS hL hr.rules g2 s3 _).1 hh
  · refine ⟨_, g1, processedBy_after _ s1, (denies_alike hr.rules).1 hd, ?_⟩
    rw [processedBy_sole s2 hk] at hh
    simp only [List.foldl_append] at hh
    exact (rephase_stands hS hL (sameButPhase_symm hr.rules) (fun p' hp v hv => by
      obtain ⟨p, g1, g3⟩ := pairs_right hr.rules p' hp
      exact g2 p g1 v (g3.vars ▸ hv)) s3 _).2 hh

theorem Spec.Rephased.symm {cs ds : List (List PRule)} (h : Rephased ops cs ds) : Rephased ops ds cs :=
  ⟨fun d hd => (h.2 d hd).imp fun _ h => ⟨h.1, h.2.symm⟩, fun c hc => (h.1 c hc).imp fun _ h => ⟨h.1, h.2.symm⟩⟩

theorem rephased_caught (hS : ∀ k p, S.holds k p ↔ HoldsBy lib (L k) p)
    (hL : ∀ k o tk P vals, tellsRequest o = false → ofRequest tk = true → (L (S.learn k o) P vals tk ↔ L k P vals tk)) {cs ds : List (List PRule)}
    (h : Rephased ops cs ds) : Caught S k0 ops cs ↔ Caught S k0 ops ds :=
  ⟨rephase_caught hS hL h.1, rephase_caught hS hL h.symm.1⟩

end

theorem rephased_rule {ops : List Op} {dirs dirs' : List PDir} (h : Rephased ops (chainsOf (rulesIn dirs)) (chainsOf (rulesIn dirs'))) {p' : PRule}
    (hp : p' ∈ rulesIn dirs') : ∃ p ∈ rulesIn dirs, SameButPhase p p' := by
  obtain ⟨d, d1, d2⟩ := in_chain hp
  obtain ⟨c, c1, c2⟩ := h.2 d d1
  obtain ⟨p, p1, p2⟩ := pairs_right c2.rules p' d2
  exact ⟨p, mem_chainsOf c1 p1, p2⟩

theorem rephased_ok {lib : Lib} {ops : List Op} {dirs dirs' : List PDir} (h : Rephased ops (chainsOf (rulesIn dirs)) (chainsOf (rulesIn dirs')))
    (hok : ∀ d ∈ dirs, DirOk lib d) : ∀ d ∈ dirs', DirOk lib d := by
  intro d hd
  cases d with
  | rule p' =>
    obtain ⟨p, h1, h2⟩ := rephased_rule h (mem_rulesIn.2 hd)
    have := hok _ (mem_rulesIn.1 h1)
    exact ⟨h2.vars ▸ this.vars, h2.op ▸ this.op, h2.action ▸ this.acts⟩
  | _ => exact trivial

theorem learn_facts {k : Known} {o : Op} (h : tellsRequest o = false) : askedOf (learn k o).facts = askedOf k.facts := by
  cases o <;> simp only [tellsRequest, Bool.true_eq_false] at h <;> try exact askedOf_told rfl
  case appendRequestBody => rfl
  case appendResponseBody => simp only [learn]; split <;> rfl

/-- C145.  Move rules about the request to other phases in which they see the same request.  If all
rules deny, log, block or describe, and no rule reads a body, every transaction in which both phases are
processed ends with the same verdict, if the host looks at it in the end. -/
theorem C145_rephased {lib : Lib} {vo : VarOrd} {ord : IterOrd} {text text' : Bytes} {dirs dirs' : List PDir} (ht : Program text dirs)
    (ht' : Program text' dirs') (hok : ∀ d ∈ dirs, DirOk lib d) {ops : List Op} (h : Rephased ops (chainsOf (rulesIn dirs)) (chainsOf (rulesIn dirs')))
    (hv : ∀ p ∈ rulesIn dirs, ∀ v ∈ p.vars, readsBody v.tk = false) (hm : ∀ p ∈ rulesIn dirs, ∀ a ∈ p.acts.action, Spec.Mild a)
    (hops : ∀ o ∈ ops, o.keepsCursor = true ∧ o.aborts = false ∧ o.readsVerdict = false) : EndsAlike lib vo ord text text' (enough dirs dirs') ops := by
  obtain ⟨set, h1, h2⟩ := C83_policy (vo := vo) (ord := ord) ht hok hv hm hops
  obtain ⟨set', h1', h2'⟩ := C83_policy (vo := vo) (ord := ord) ht' (rephased_ok h hok) (fun p' hp v hv' => by
      obtain ⟨p, g1, g2⟩ := rephased_rule h hp
      exact hv p g1 v (g2.vars ▸ hv')) (fun p' hp a ha => by
      obtain ⟨p, g1, g2⟩ := rephased_rule h hp
      exact hm p g1 a (g2.action ▸ ha)) hops
  refine ⟨set, set', h1, h1', fun n hn => ?_⟩
  obtain ⟨t, os, i, tr, g1, g2, g3⟩ := h2 n (by simp only [enough] at hn; omega)
  obtain ⟨t', os', i', tr', g1', g2', g3'⟩ := h2' n (by simp only [enough] at hn; omega)
  have e : i'.disruptive = i.disruptive := by
    rw [Bool.eq_iff_iff]
    exact g2'.trans ((rephased_caught (S := toldSight lib) (L := Lists lib) (k0 := {}) (fun _ _ => .rfl)
      (fun k o tk P vals ho htk => lists_later (askedOf_told ho) htk) h).symm.trans g2.symm)
  exact ⟨t, t', os, os', i, i', tr, tr', g1, g1', e, by rw [g3, g3', e]⟩

/-- The same with bodies of up to 131072 bytes, if rules read arguments from the body only once the
form is settled, and well-formed. -/
theorem C145_bodies {lib : Lib} {vo : VarOrd} {ord : IterOrd} {text text' : Bytes} {dirs dirs' : List PDir} (ht : Program text dirs)
    (ht' : Program text' dirs') (hok : ∀ d ∈ dirs, DirOk lib d) (hsw : switches dirs = switches dirs') {ops : List Op}
    (h : Rephased ops (chainsOf (rulesIn dirs)) (chainsOf (rulesIn dirs')))
    (hm : ∀ p ∈ rulesIn dirs, ∀ a ∈ p.acts.action, Spec.Mild a)
    (hops : ∀ o ∈ ops, o.keepsCursor = true ∧ o.aborts = false ∧ o.readsVerdict = false) (hsize : (sent false ops).length ≤ 131072) {q : Int}
    (hform : ∀ c ∈ chainsOf (rulesIn dirs), 1 ≤ chainPhase c → (∃ p ∈ c, ∃ v ∈ p.vars, readsArgs v.tk = true) → q ≤ chainPhase c ∧ FormSettled lib q ops) :
    EndsAlike lib vo ord text text' (enough dirs dirs') ops := by
  obtain ⟨set, h1, h2⟩ := C84_policy (vo := vo) (ord := ord) ht hok hm hops hsize hform
  obtain ⟨set', h1', h2'⟩ := C84_policy (vo := vo) (ord := ord) ht' (rephased_ok h hok) (fun p' hp a ha => by
      obtain ⟨p, g1, g2⟩ := rephased_rule h hp
      exact hm p g1 a (g2.action ▸ ha)) hops hsize (q := q) (fun d hd h1 ⟨p', hp, v, hv, ha⟩ => by
      obtain ⟨c, c1, c2⟩ := h.2 d hd
      obtain ⟨p, p1, p2⟩ := pairs_right c2.rules p' hp
      rcases c2.phase with e | ⟨_, _, g, _⟩
      · rw [e] at h1 ⊢
        exact hform c c1 h1 ⟨p, p1, v, p2.vars ▸ hv, ha⟩
      · have := g p p1 v (p2.vars ▸ hv)
        cases hk : v.tk <;> simp [hk, ofRequest, readsArgs] at this ha)
  refine ⟨set, set', h1, h1', fun n hn => ?_⟩
  obtain ⟨t, os, i, tr, g1, g2, g3⟩ := h2 n (by simp only [enough] at hn; omega)
  obtain ⟨t', os', i', tr', g1', g2', g3'⟩ := h2' n (by simp only [enough] at hn; omega)
  obtain ⟨e1, e2⟩ := switches_access hsw
  have e : i'.disruptive = i.disruptive := by
    rw [Bool.eq_iff_iff]
    rw [← e1, ← e2] at g2'
    exact g2'.trans ((rephased_caught (S := bodySight lib (reqAccess dirs) (respAccess dirs)) (L := ListsAll lib (reqAccess dirs) (respAccess dirs)) (k0 := {}) (fun _ _ => .rfl)
      (fun k o tk P vals ho htk => by
        have e : ∀ k, ListsAll lib (reqAccess dirs) (respAccess dirs) k P vals tk ↔ Lists lib k.facts P vals tk := fun k => by
          cases tk <;> simp only [ofRequest, Bool.false_eq_true] at htk <;> exact .rfl
        rw [e, e]; exact lists_later (learn_facts ho) htk) h).symm.trans g2.symm)
  exact ⟨t, t', os, os', i, i', tr, tr', g1, g1', e, by rw [g3, g3', e]⟩

/-- The same with a multipart form of up to 131072 bytes, as in C133. -/
theorem C145_multipart {lib : Lib} (hmt : lib.ReadsMedia) (hl : lib.ReadsForms) {vo : VarOrd} {ord : IterOrd} {text text' : Bytes} {dirs dirs' : List PDir} (ht : Program text dirs)
    (ht' : Program text' dirs') (hok : ∀ d ∈ dirs, DirOk lib d) (hsw : switches dirs = switches dirs') {ops : List Op}
    (h : Rephased ops (chainsOf (rulesIn dirs)) (chainsOf (rulesIn dirs')))
    (hm : ∀ p ∈ rulesIn dirs, ∀ a ∈ p.acts.action, Spec.Mild a)
    (hops : ∀ o ∈ ops, o.keepsCursor = true ∧ o.aborts = false ∧ o.readsVerdict = false) {q : Int} {bnd : Bytes} {ps : List (Option Bytes × Bytes)}
    (hf : ReadsSentForm (chainsOf (rulesIn dirs)) q bnd ps ops) :
    EndsAlike lib vo ord text text' (enough dirs dirs') ops := by
  obtain ⟨set, h1, h2⟩ := C133_policy hmt hl (vo := vo) (ord := ord) ht hok hm hops hf.size hf.form
  obtain ⟨set', h1', h2'⟩ := C133_policy hmt hl (vo := vo) (ord := ord) ht' (rephased_ok h hok) (fun p' hp a ha => by
      obtain ⟨p, g1, g2⟩ := rephased_rule h hp
      exact hm p g1 a (g2.action ▸ ha)) hops hf.size (q := q) (bnd := bnd) (ps := ps) (fun d hd h1 ⟨p', hp, v, hv, ha⟩ => by
      obtain ⟨c, c1, c2⟩ := h.2 d hd
      obtain ⟨p, p1, p2⟩ := pairs_right c2.rules p' hp
      rcases c2.phase with e | ⟨_, _, g, _⟩
      · rw [e] at h1 ⊢
        exact hf.form c c1 h1 ⟨p, p1, v, p2.vars ▸ hv, ha⟩
      · have := g p p1 v (p2.vars ▸ hv)
        cases hk : v.tk <;> simp [hk, ofRequest, readsArgs] at this ha)
  refine ⟨set, set', h1, h1', fun n hn => ?_⟩
  obtain ⟨t, os, i, tr, g1, g2, g3⟩ := h2 n (by simp only [enough] at hn; omega)
  obtain ⟨t', os', i', tr', g1', g2', g3'⟩ := h2' n (by simp only [enough] at hn; omega)
  obtain ⟨e1, e2⟩ := switches_access hsw
  have e : i'.disruptive = i.disruptive := by
    rw [Bool.eq_iff_iff]
    rw [← e1, ← e2] at g2'
    exact g2'.trans ((rephased_caught (S := formSight lib (reqAccess dirs) (respAccess dirs) (fieldsOf ps)) (L := ListsForm lib (reqAccess dirs) (respAccess dirs) (fieldsOf ps)) (k0 := {}) (fun _ _ => .rfl)
      (fun k o tk P vals ho htk => by
        have e : ∀ k, ListsForm lib (reqAccess dirs) (respAccess dirs) (fieldsOf ps) k P vals tk ↔ Lists lib k.facts P vals tk := fun k => by
          cases tk <;> simp only [ofRequest, Bool.false_eq_true] at htk <;> exact .rfl
        rw [e, e]; exact lists_later (learn_facts ho) htk) h).symm.trans g2.symm)
  exact ⟨t, t', os, os', i, i', tr, tr', g1, g1', e, by rw [g3, g3', e]⟩

/-! ### Examples -/

/-- The rule on a variable of the request, in phase 2. -/
def Sample.soon (tk : VarTok) : PRule :=
  { evilAt tk with acts := { id := 1, phase := 2, action := [⟨.deny, []⟩] } }

theorem Sample.soon_same (tk : VarTok) : SameButPhase (evilAt tk) (soon tk) := ⟨rfl, rfl, rfl, rfl⟩

theorem Sample.soon_rephased {ops : List Op} {tk tk' : VarTok} (htk : ofRequest tk = true) (h : StandsFrom ops 2 3) :
    Rephased ops [[evilAt tk], [evilAt tk']] [[soon tk], [evilAt tk']] := by
  have h1 : Rephase ops [evilAt tk] [soon tk] := {
    rules := .cons (soon_same tk) .nil
    phase := .inr ⟨(by show (1 : Int) ≤ 3; decide), (by show (1 : Int) ≤ 2; decide), (by
      intro p hp v hv
      rw [List.mem_singleton.1 hp] at hv
      rw [List.mem_singleton.1 hv]; exact htk), .inr h⟩ }
  have h2 : Rephase ops [evilAt tk'] [evilAt tk'] := { rules := .cons ⟨rfl, rfl, rfl, rfl⟩ .nil, phase := .inl rfl }
  constructor
  · intro c hc
    simp only [List.mem_cons, List.not_mem_nil, or_false] at hc
    rcases hc with rfl | rfl
    · exact ⟨_, .head _, h1⟩
    · exact ⟨_, .tail _ (.head _), h2⟩
  · intro c hc
    simp only [List.mem_cons, List.not_mem_nil, or_false] at hc
    rcases hc with rfl | rfl
    · exact ⟨_, .head _, h1⟩
    · exact ⟨_, .tail _ (.head _), h2⟩

theorem Sample.soon_mild {tk tk' : VarTok} : ∀ p ∈ [evilAt tk, evilAt tk'], ∀ a ∈ p.acts.action, Spec.Mild a := by
  intro p hp a ha
  simp only [List.mem_cons, List.not_mem_nil, or_false] at hp
  rcases hp with rfl | rfl <;> rw [List.mem_singleton.1 ha] <;> exact .inl rfl

/-- The first three calls of a request with a body, and the others. -/
theorem Sample.posted_stands {a b c : Op} {x y : Bytes} {io io' : IOFault} (ha : phaseOf a = some 1) (hb : phaseOf b = none) (hc : phaseOf c = some 2) :
    StandsFrom [a, b, c, .appendRequestBody x io, .appendRequestBody y io', .processRequestBody] 2 3 := by
  refine ⟨[a, b, c], [.appendRequestBody x io, .appendRequestBody y io', .processRequestBody], ⟨[a, b], c, _, rfl, hc, ?_, rfl⟩,
    ⟨[a, b, c, .appendRequestBody x io, .appendRequestBody y io'], .processRequestBody, [], rfl, rfl, ?_, rfl⟩, ?_⟩
  · intro o ho q hq
    simp only [List.mem_cons, List.not_mem_nil, or_false] at ho
    rcases ho with rfl | rfl
    · rw [ha, Option.some.injEq] at hq; omega
    · rw [hb] at hq; cases hq
  · intro o ho q hq
    simp only [List.mem_cons, List.not_mem_nil, or_false] at ho
    rcases ho with rfl | rfl | rfl | rfl | rfl
    · rw [ha, Option.some.injEq] at hq; omega
    · rw [hb] at hq; cases hq
    · rw [hc, Option.some.injEq] at hq; omega
    all_goals simp [phaseOf] at hq
  · intro o ho
    simp only [List.mem_cons, List.not_mem_nil, or_false] at ho
    rcases ho with rfl | rfl | rfl <;> rfl

/-- A rule on headers and one on cookies; any request with a body. -/
example (u : Option URL) (method : Bytes) (h : Option GoMap) (x y : Bytes) : EndsAlike lib varOrd Sample.ord
    b!"SecRequestBodyAccess On\nSecRule REQUEST_HEADERS \"@rx evil\" \"id:1,phase:3,deny\"\nSecRule REQUEST_COOKIES \"@rx evil\" \"id:1,phase:3,deny\"\n"
    b!"SecRequestBodyAccess On\nSecRule REQUEST_HEADERS \"@rx evil\" \"id:1,phase:2,deny\"\nSecRule REQUEST_COOKIES \"@rx evil\" \"id:1,phase:3,deny\"\n" 4
    [.processConnection [] [] [] [], .processRequestURL u method [], .processRequestHeader h, .appendRequestBody x {}, .appendRequestBody y {}, .processRequestBody] := by
  refine C145_rephased (dirs := .reqBody true :: [evilAt .requestHeaders, evilAt .requestCookies].map .rule)
    (dirs' := .reqBody true :: [soon .requestHeaders, evilAt .requestCookies].map .rule) ((C53_exact id _ _).1 (by decide +kernel)) ((C53_exact id _ _).1 (by decide +kernel))
    (both_ok ⟨_, rfl⟩ (by decide) (by decide)) (soon_rephased rfl (posted_stands rfl rfl rfl)) ?_ soon_mild ?_
  · intro p hp v hv
    have hp : p ∈ [evilAt .requestHeaders, evilAt .requestCookies] := hp
    simp only [List.mem_cons, List.not_mem_nil, or_false] at hp
    rcases hp with rfl | rfl <;> rw [List.mem_singleton.1 hv] <;> rfl
  · intro o ho
    simp only [List.mem_cons, List.not_mem_nil, or_false] at ho
    rcases ho with rfl | rfl | rfl | rfl | rfl | rfl <;> exact ⟨rfl, rfl, rfl⟩

/-- A rule on headers and one on the fields of a form. -/
example (x y : Bytes) (hsize : x.length + y.length ≤ 131072) : EndsAlike lib varOrd Sample.ord
    b!"SecRequestBodyAccess On\nSecRule REQUEST_HEADERS \"@rx evil\" \"id:1,phase:3,deny\"\nSecRule ARGS_POST \"@rx evil\" \"id:1,phase:3,deny\"\n"
    b!"SecRequestBodyAccess On\nSecRule REQUEST_HEADERS \"@rx evil\" \"id:1,phase:2,deny\"\nSecRule ARGS_POST \"@rx evil\" \"id:1,phase:3,deny\"\n" 4
    (formOps x y) := by
  refine C145_bodies (dirs := .reqBody true :: [evilAt .requestHeaders, evilAt .argsPost].map .rule)
    (dirs' := .reqBody true :: [soon .requestHeaders, evilAt .argsPost].map .rule) ((C53_exact id _ _).1 (by decide +kernel)) ((C53_exact id _ _).1 (by decide +kernel))
    (both_ok ⟨_, rfl⟩ (by decide) (by decide)) rfl (soon_rephased rfl (posted_stands rfl rfl rfl)) soon_mild ?_ (by simpa [formOps, sent, chunkOf] using hsize) (q := 3) ?_
  · intro o ho
    simp only [formOps, List.mem_cons, List.not_mem_nil, or_false] at ho
    rcases ho with rfl | rfl | rfl | rfl | rfl | rfl <;> exact ⟨rfl, rfl, rfl⟩
  · intro c hc _ _
    have hc : c ∈ [[evilAt .requestHeaders], [evilAt .argsPost]] := hc
    simp only [List.mem_cons, List.not_mem_nil, or_false] at hc
    rcases hc with rfl | rfl <;> exact ⟨by show (3 : Int) ≤ 3; omega, formOps_settled x y⟩

/-- A rule on headers and one on the fields of a multipart form. -/
example {x y v : Bytes} (hxy : x ++ y = sentBody v) (h : 13 ∉ v) (hd : v.head? ≠ some 45) (hlen : (sentBody v).length ≤ 4096) : EndsAlike formLib varOrd Sample.ord
    b!"SecRequestBodyAccess On\nSecRule REQUEST_HEADERS \"@rx evil\" \"id:1,phase:3,deny\"\nSecRule ARGS_POST \"@rx evil\" \"id:1,phase:3,deny\"\n"
    b!"SecRequestBodyAccess On\nSecRule REQUEST_HEADERS \"@rx evil\" \"id:1,phase:2,deny\"\nSecRule ARGS_POST \"@rx evil\" \"id:1,phase:3,deny\"\n" 4
    (sentOps x y) := by
  refine C145_multipart formEnv_media formLib_reads (dirs := .reqBody true :: [evilAt .requestHeaders, evilAt .argsPost].map .rule)
    (dirs' := .reqBody true :: [soon .requestHeaders, evilAt .argsPost].map .rule) ((C53_exact id _ _).1 (by decide +kernel)) ((C53_exact id _ _).1 (by decide +kernel))
    (both_ok ⟨_, rfl⟩ (by decide) (by decide)) rfl (soon_rephased rfl (posted_stands rfl rfl rfl)) soon_mild ?_ (q := 3) (bnd := b!"foo")
    (ps := [(some b!"a", v), (none, b!"evil")]) ⟨?_, ?_⟩
  · intro o ho
    simp only [sentOps, List.mem_cons, List.not_mem_nil, or_false] at ho
    rcases ho with rfl | rfl | rfl | rfl | rfl | rfl <;> exact ⟨rfl, rfl, rfl⟩
  · have e : sent false (sentOps x y) = sentBody v := by
      rw [← hxy]; simp [sentOps, sent, chunkOf]
    rw [e]; omega
  · intro c hc _ _
    have hc : c ∈ [[evilAt .requestHeaders], [evilAt .argsPost]] := hc
    simp only [List.mem_cons, List.not_mem_nil, or_false] at hc
    rcases hc with rfl | rfl <;> exact ⟨by show (3 : Int) ≤ 3; omega, sentOps_sent hxy h hd hlen⟩

/-- The verdicts of the rule on headers in phases 2 and 3: a request that is evil, one of which headers
are told again after phase 2, one without a body phase, and a verdict taken in between. -/
example : (([[.processRequestHeader (some [(b!"A", [b!"evil"])]), .processRequestBody, .result],
      [.processRequestHeader none, .processRequestHeader (some [(b!"A", [b!"evil"])]), .processRequestBody, .result],
      [.processRequestHeader (some [(b!"A", [b!"evil"])]), .result],
      [.processRequestHeader (some [(b!"A", [b!"evil"])]), .result, .processRequestBody, .result]] : List (List Op)).map fun ops =>
    (textVerdicts lib b!"SecRule REQUEST_HEADERS \"@rx evil\" \"id:1,phase:2,deny\"\n" 9 ops,
      textVerdicts lib b!"SecRule REQUEST_HEADERS \"@rx evil\" \"id:1,phase:3,deny\"\n" 9 ops)) =
    [(some [true], some [true]), (some [false], some [true]), (some [true], some [false]), (some [true, false], some [false, true])] := by decide +kernel

end Verif
