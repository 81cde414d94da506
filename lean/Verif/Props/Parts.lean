import Verif.Props.Reorder
import Verif.Props.Narrow
/-! C146 for the parts of multipart forms. -/
namespace Verif
open Sample Spec

/-- C146 for the parts of a multipart form: two histories of calls that are the same but for request headers and the chunks of
the request body, by the time it is read forms with the same fields in another order, whatever their boundaries, their parts
that are no fields and how their fields are written, are shown the same verdicts, if no rule looks at request headers, cookies or
the bytes of the request body. -/
theorem C146_parts {lib : Lib} (hme : lib.ReadsMedia) (hlf : lib.ReadsForms) {vo : VarOrd} {ord : IterOrd} {text : Bytes} {dirs : List PDir} (ht : Program text dirs)
    (hok : ∀ d ∈ dirs, DirOk lib d) (hret : NoReturn (chainsOf (rulesIn dirs))) (hv : ∀ r ∈ rulesIn dirs, ∀ v ∈ r.vars, pastEncoding v.tk = true)
    {ops ops' : List Op} {q : Int} {bnd bnd' : Bytes} {ps qs : List (Option Bytes × Bytes)} (ho : SameCalls ops ops') (hf : (fieldsOf ps).Perm (fieldsOf qs))
    (hs : ReadsSentForm (chainsOf (rulesIn dirs)) q bnd ps ops) (hs' : ReadsSentForm (chainsOf (rulesIn dirs)) q bnd' qs ops') :
    ShowsBoth (· = ·) lib vo ord text ((chainsOf (rulesIn dirs)).length + 2) ops ops' := by
  obtain ⟨set, h1, h2⟩ := C133_machine hme hlf (vo := vo) (ord := ord) ht hok hret
  refine ⟨set, h1, fun n hn => ?_⟩
  obtain ⟨t, os, tr, g1, g2⟩ := h2 hs.size hs.form n hn
  obtain ⟨t', os', tr', g1', g2'⟩ := h2 hs'.size hs'.form n hn
  refine ⟨t, t', os, os', tr, tr', g1, g1', g2.trans (.trans ?_ g2'.symm)⟩
  refine run_alike (S := formSight lib (reqAccess dirs) (respAccess dirs) (fieldsOf ps)) (S' := formSight lib (reqAccess dirs) (respAccess dirs) (fieldsOf qs)) rfl rfl rfl rfl
    (fun {pre pre' post post' op op' p} e e' hp hp' hpos hk c hc hcp r hr => ?_) ho (pre := []) (pre' := []) rfl rfl (m := { known := {} }) (Int.le_refl 0) rfl ⟨rfl, rfl⟩
  refine exists_congr fun v => and_congr_right fun hvr => exists_congr fun y => and_congr_left fun _ => exists_congr fun vals => and_congr_left fun _ => ?_
  have ht' := hv r (mem_chainsOf hc hr) v hvr
  by_cases ha : readsArgs v.tk = true
  · obtain ⟨hqp, hu⟩ := hs.form c hc (by omega) ⟨r, hr, v, hvr, ha⟩
    obtain ⟨_, hw⟩ := hs'.form c hc (by omega) ⟨r, hr, v, hvr, ha⟩
    rw [List.nil_append] at e e'
    have e1 := sent_settled e hp (hcp ▸ hqp) hu.settled
    have e2 := sent_settled e' hp' (hcp ▸ hqp) hw.settled
    have full : ∀ {bnd ps} {ops : List Op}, FormSent q bnd ps ops → sent false ops ≠ [] := by
      intro bnd ps ops h
      obtain ⟨w, rest, ⟨parts, _, e⟩, _⟩ := h.form
      rw [e]; simp
    have hne := full hu
    have hne' := full hw
    rw [← e1] at hne
    rw [← e2] at hne'
    generalize (pre ++ [op]).foldl learn ({} : Known) = k at hk hne ⊢
    generalize (pre' ++ [op']).foldl learn ({} : Known) = k' at hk hne' ⊢
    have hfk := hk.facts
    simp only [Facts.mk.injEq] at hfk
    have hget : getArgs lib k = getArgs lib k' := by simp only [getArgs, hfk.2.2.2.2.1]
    have hmeth : k.facts.method = k'.facts.method := hfk.2.2.2.2.2.1
    have hent : ∀ fs : List (Bytes × Bytes), entriesOf (fs.map fun f => (f.1, [f.2])) = fs := by
      intro fs
      induction fs with
      | nil => rfl
      | cons f fs ih => simp only [entriesOf, List.map_cons, List.flatMap_cons, List.map_nil, List.cons_append, List.nil_append] at ih ⊢; rw [ih]
    have hm : Mixed ((fieldsOf ps).map fun f => (f.1, [f.2])) ((fieldsOf qs).map fun f => (f.1, [f.2])) := by
      refine ⟨by rw [hent, hent]; exact hf, fun n => ?_⟩
      rw [List.map_map, List.map_map]
      exact (hf.map _).mem_iff
    have key : ∃ m m', SentArgs (reqAccess dirs) (fieldsOf ps) k m ∧ SentArgs (reqAccess dirs) (fieldsOf qs) k' m' ∧ Mixed m m' := by
      by_cases a1 : Posted (reqAccess dirs) k
      · exact ⟨_, _, .inl ⟨a1, rfl⟩, .inl ⟨⟨a1.1, hmeth ▸ a1.2.1, hne'⟩, rfl⟩, hm⟩
      · exact ⟨_, _, .inr ⟨a1, rfl⟩, .inr ⟨fun a2 => a1 ⟨a2.1, hmeth ▸ a2.2.1, hne⟩, rfl⟩, .refl _⟩
    obtain ⟨m, m', k1, k2, k3⟩ := key
    have one : ∀ {Q : GoMap → Prop}, (∃ n, SentArgs (reqAccess dirs) (fieldsOf ps) k n ∧ Q n) ↔ Q m := fun {Q} => ⟨fun ⟨n, a, b⟩ => a.unique k1 ▸ b, fun h => ⟨m, k1, h⟩⟩
    have two : ∀ {Q : GoMap → Prop}, (∃ n, SentArgs (reqAccess dirs) (fieldsOf qs) k' n ∧ Q n) ↔ Q m' := fun {Q} => ⟨fun ⟨n, a, b⟩ => a.unique k2 ▸ b, fun h => ⟨m', k2, h⟩⟩
    generalize v.tk = tk at ha
    generalize Picked lib.rx _ = P
    cases tk <;> first | (cases ha; done) | skip
    · exact one.trans (.trans (by rw [hget]; exact mixed_values ((Mixed.refl _).append k3) P vals) two.symm)
    · exact one.trans ((mixed_values k3 P vals).trans (two (Q := fun n => ValuesIn P n vals)).symm)
    · exact one.trans ((mixed_names k3 P vals).trans (two (Q := fun n => NamesIn P n vals)).symm)
    · simp only [ListsForm]
      constructor
      · rintro ⟨n, a, b, x1, x2, x3, x4⟩
        rw [x1.unique k1] at x3
        exact ⟨m', a, b, k2, hget ▸ x2, (mixed_names k3 P b).1 x3, x4⟩
      · rintro ⟨n, a, b, x1, x2, x3, x4⟩
        rw [x1.unique k2] at x3
        exact ⟨m, a, b, k1, hget ▸ x2, (mixed_names k3 P b).2 x3, x4⟩
  · have hr' : readsArgs v.tk = false := by simpa using ha
    have := lists_alike (lib := lib) (a := reqAccess dirs) (b := respAccess dirs) (fs := []) hk (P := Picked lib.rx (selectors r.vars v.tk v.count)) ht' (fun h => absurd h ha) vals
    rw [listsForm_plain hr'] at this
    exact (listsForm_plain hr').trans (this.trans (listsForm_plain hr').symm)

/-! ### Examples -/

theorem sentOps_form {x y rest : Bytes} {ps : List (Option Bytes × Bytes)} (hf : FormText b!"foo" ps ([] ++ b!"\r\n" ++ rest) (x ++ y)) (hlen : (x ++ y).length ≤ 4096) :
    FormSent 3 b!"foo" ps (sentOps x y) where
  low := by omega
  high := by omega
  settled := by
    intro pre p io post e o ho q' hq
    rcases pre with _ | ⟨o1, _ | ⟨o2, _ | ⟨o3, _ | ⟨o4, _ | ⟨o5, _ | ⟨o6, pre⟩⟩⟩⟩⟩⟩ <;>
      simp only [sentOps, List.nil_append, List.cons_append, List.cons.injEq, reduceCtorEq, false_and, and_false, List.nil_eq,
        List.append_eq_nil_iff] at e
    · obtain ⟨rfl, rfl, rfl, _⟩ := e
      simp only [List.mem_cons, List.not_mem_nil, or_false] at ho
      rcases ho with rfl | rfl | rfl <;> cases hq <;> decide
    · obtain ⟨rfl, rfl, rfl, rfl, _⟩ := e
      simp only [List.mem_cons, List.not_mem_nil, or_false] at ho
      rcases ho with rfl | rfl | rfl | rfl <;> cases hq <;> decide
  boundary := ⟨by decide, by decide⟩
  declared := by
    rintro pre ⟨post, e⟩ ⟨o, ho, p, hp, hle⟩
    rcases pre with _ | ⟨o1, _ | ⟨o2, _ | ⟨o3, pre⟩⟩⟩ <;>
      simp only [sentOps, List.nil_append, List.cons_append, List.cons.injEq] at e
    · cases ho
    · obtain ⟨rfl, _⟩ := e
      rw [List.mem_singleton.1 ho] at hp; cases hp; exact absurd hle (by decide)
    · obtain ⟨rfl, rfl, _⟩ := e
      simp only [List.mem_cons, List.not_mem_nil, or_false] at ho
      rcases ho with rfl | rfl <;> cases hp <;> exact absurd hle (by decide)
    · obtain ⟨rfl, rfl, rfl, e⟩ := e
      have hkeep : ∀ ops : List Op, (∀ o ∈ ops, (∃ b, o = .appendRequestBody b {}) ∨ o = .processRequestBody) → ∀ k : Known,
          (ops.foldl learn k).facts.headers = k.facts.headers := by
        intro ops hops
        induction ops with
        | nil => intro k; rfl
        | cons o ops ih =>
          intro k
          rw [List.foldl_cons, ih fun o ho => hops o (.tail _ ho)]
          rcases hops o (.head _) with ⟨b, rfl⟩ | rfl <;> rfl
      have hpre : ∀ o ∈ pre, (∃ b, o = .appendRequestBody b {}) ∨ o = .processRequestBody := by
        intro o ho
        have : o ∈ pre ++ post := List.mem_append_left _ ho
        rw [e] at this
        simp only [List.mem_cons, List.not_mem_nil, or_false] at this
        rcases this with rfl | rfl | rfl
        · exact .inl ⟨_, rfl⟩
        · exact .inl ⟨_, rfl⟩
        · exact .inr rfl
      simp only [List.foldl_cons]
      rw [hkeep pre hpre]
      exact foo_is []
  form := by
    have e : sent false (sentOps x y) = x ++ y := by simp [sentOps, sent, chunkOf]
    rw [e]
    exact ⟨_, _, hf, by simp [Blanks], by omega⟩

/-- A form with two fields of the name `a`. -/
def Sample.pairBody (v w : Bytes) : Bytes :=
  b!"--foo\r\ncontent-disposition: form-data; name=\"a\"\r\n\r\n" ++ v ++ b!"\r\n--foo\r\ncontent-disposition: form-data; name=\"a\"\r\n\r\n" ++ w ++ b!"\r\n--foo--\r\n"

theorem Sample.pairBody_form {v w : Bytes} (h : 13 ∉ v) (hd : v.head? ≠ some 45) (h' : 13 ∉ w) (hd' : w.head? ≠ some 45) :
    FormText b!"foo" [(some b!"a", v), (some b!"a", w)] ([] ++ b!"\r\n" ++ []) (pairBody v w) := by
  have hp : Parts b!"foo" [(some b!"a", v), (some b!"a", w)] _ :=
    .cons a_line (.field a_field) a_plain ((noDelimiter_plain h hd).notEnded ⟨by decide, by decide⟩)
      (.cons a_line (.field a_field) a_plain ((noDelimiter_plain h' hd').notEnded ⟨by decide, by decide⟩) .nil)
  refine ⟨_, hp, ?_⟩
  simp [pairBody, List.append_assoc]

/-- Two fields in either order, and however the bodies are cut. -/
example {x y x' y' v w : Bytes} (h : 13 ∉ v) (hd : v.head? ≠ some 45) (h' : 13 ∉ w) (hd' : w.head? ≠ some 45) (hlen : (pairBody v w).length ≤ 4096)
    (hxy : x ++ y = pairBody v w) (hxy' : x' ++ y' = pairBody w v) : ShowsBoth (· = ·) formLib varOrd Sample.ord
    b!"SecRequestBodyAccess On\nSecRule ARGS_POST:a \"@rx evil\" \"id:1,phase:3,deny\"\n" 3 (sentOps x y ++ [.result]) (sentOps x' y' ++ [.result]) := by
  have hlen' : (pairBody w v).length ≤ 4096 := by simp only [pairBody, List.length_append] at hlen ⊢; omega
  have hform : ∀ {x y v w : Bytes}, 13 ∉ v → v.head? ≠ some 45 → 13 ∉ w → w.head? ≠ some 45 → (pairBody v w).length ≤ 4096 → x ++ y = pairBody v w →
      ReadsSentForm (chainsOf (rulesIn (.reqBody true :: [evilIn [named .argsPost b!"a"] false].map .rule))) 3 b!"foo"
        [(some b!"a", v), (some b!"a", w)] (sentOps x y ++ [.result]) := by
    intro x y v w h1 h2 h3 h4 h5 h6
    refine ⟨?_, ?_⟩
    · have e : sent false (sentOps x y ++ [.result]) = pairBody v w := by rw [← h6]; simp [sentOps, sent, chunkOf]
      rw [e]; omega
    · intro c hc _ _
      have hc : c ∈ [[evilIn [named .argsPost b!"a"] false]] := hc
      rw [List.mem_singleton.1 hc]
      exact ⟨by show (3 : Int) ≤ 3; omega, (sentOps_form (h6 ▸ pairBody_form h1 h2 h3 h4) (h6 ▸ h5)).result⟩
  refine C146_parts formEnv_media formLib_reads (ps := [(some b!"a", v), (some b!"a", w)]) (qs := [(some b!"a", w), (some b!"a", v)]) (q := 3) (bnd := b!"foo") (bnd' := b!"foo")
    (dirs := .reqBody true :: [evilIn [named .argsPost b!"a"] false].map .rule) ((C53_exact id _ _).1 (by decide +kernel)) (twoFields_ok ⟨_, rfl⟩ fun p hp => ⟨_, _, .inl rfl, List.mem_singleton.1 hp⟩) (strict_noReturn (exempt_strict _)) ?_
    (.same (by simp) (by simp) (.same (by simp) (by simp) (.header (.left (.left (.right (.right (.same (by simp) (by simp) (.same (by simp) (by simp) .nil)))))))))
    (.swap _ _ _) (hform h hd h' hd' hlen hxy) (hform h' hd' h hd hlen' hxy')
  intro p hp v hv
  have hp : p ∈ [evilIn [named .argsPost b!"a"] false] := hp
  rw [List.mem_singleton.1 hp] at hv
  rw [List.mem_singleton.1 hv]; rfl

end Verif
