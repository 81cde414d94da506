import Verif.Props.Collections
import Verif.Proofs.Print
import Verif.Model.Header
import Verif.Spec.Form
/-! C73: upper and lower case in header selectors. -/
namespace Verif
open Sample Spec

/-- A header name as net/http writes it: letters are upper case at the start and
after a dash, lower case elsewhere. -/
def Spec.CanonicalFrom : Bool → Bytes → Prop
  | _, [] => True
  | start, c :: r =>
    (start = true → ¬ (97 ≤ c.toNat ∧ c.toNat ≤ 122)) ∧ (start = false → ¬ (65 ≤ c.toNat ∧ c.toNat ≤ 90)) ∧
      CanonicalFrom (c == 45) r

def Spec.Canonical (s : Bytes) : Prop := CanonicalFrom true s

/-- Two canonical names that differ only in case are the same. -/
theorem canonicalFrom_unique : ∀ {up : Bool} {a b : Bytes}, CanonicalFrom up a → CanonicalFrom up b → CaseVariant a b → a = b
  | _, _, _, _, _, .nil => rfl
  | up, a :: _, b :: _, h1, h2, .cons h h' => by
    have e : a = b := by
      rcases h with h | h | h
      · exact h
      · cases up
        · exact absurd ⟨h.1, h.2.1⟩ (h1.2.1 rfl)
        · exact absurd ⟨by omega, by omega⟩ (h2.1 rfl)
      · cases up
        · exact absurd ⟨h.1, h.2.1⟩ (h2.2.1 rfl)
        · exact absurd ⟨by omega, by omega⟩ (h1.1 rfl)
    subst e
    rw [canonicalFrom_unique h1.2.2 h2.2.2 h']

theorem canonicalLoop_spec : ∀ (up : Bool) (s : Bytes), CanonicalFrom up (canonicalLoop up s) ∧ CaseVariant (canonicalLoop up s) s
  | _, [] => ⟨trivial, .nil⟩
  | up, c :: r => by
    simp only [canonicalLoop]
    have hc := c.toNat_lt
    cases up <;> simp only [Bool.true_and, Bool.false_and, Bool.not_true, Bool.not_false, Bool.false_eq_true, if_false,
      Bool.and_eq_true, decide_eq_true_eq]
    · split
      · next h =>
        have e : (c + 32).toNat = c.toNat + 32 := by rw [UInt8.toNat_add]; have : (32 : UInt8).toNat = 32 := rfl; omega
        have ih := canonicalLoop_spec ((c + 32) == 45) r
        exact ⟨⟨by simp, fun _ => by omega, ih.1⟩, .cons (.inr (.inr ⟨h.1, h.2, e⟩)) ih.2⟩
      · next h =>
        have ih := canonicalLoop_spec (c == 45) r
        exact ⟨⟨by simp, fun _ => h, ih.1⟩, .cons (.inl rfl) ih.2⟩
    · split
      · next h =>
        have e : (c - 32).toNat = c.toNat - 32 := by
          rw [UInt8.toNat_sub_of_le _ _ (by rw [UInt8.le_iff_toNat_le]; have : (32 : UInt8).toNat = 32 := rfl; omega)]; rfl
        have ih := canonicalLoop_spec ((c - 32) == 45) r
        exact ⟨⟨fun _ => by omega, by simp, ih.1⟩, .cons (.inr (.inl ⟨by omega, by omega, by omega⟩)) ih.2⟩
      · next h =>
        have ih := canonicalLoop_spec (c == 45) r
        exact ⟨⟨fun _ => h, by simp, ih.1⟩, .cons (.inl rfl) ih.2⟩

/-- Names that are HTTP tokens come out canonical, differing at most in case. -/
theorem canonicalKey_spec {s : Bytes} (h : ∀ c ∈ s, validHeaderByte c = true) :
    Canonical (canonicalKey s) ∧ CaseVariant (canonicalKey s) s := by
  rw [canonicalKey, if_pos (List.all_eq_true.2 h)]
  exact canonicalLoop_spec true s

/-- C73, the full claim: REQUEST_HEADERS:name shows the values of the header of that
name, upper and lower case not distinguished (RFC 7230 3.2). -/
def C73_statement : Prop :=
  ∀ (env : Env) (s : Bytes) (f : Filter) (t : Tx) (m : GoMap), (¬ ∃ re, IsRegex s re) → Filter.include env.lib.rx {} s = some f →
    t.reqHeader = some m → ∃ vals, Var.fetch env (.requestHeaders f) t = .ok (vals, t) ∧
      ∀ v, v ∈ vals ↔ ∃ k vs, (k, vs) ∈ m ∧ v ∈ vs ∧ CaseVariant k s

/-- C73, exactly: the name must be stored as written. -/
theorem C73_exact {env : Env} {s : Bytes} {f : Filter} {t : Tx} {m : GoMap} (hs : ¬ ∃ re, IsRegex s re)
    (hf : Filter.include env.lib.rx {} s = some f) (hm : t.reqHeader = some m) :
    ∃ vals, Var.fetch env (.requestHeaders f) t = .ok (vals, t) ∧ ∀ v, v ∈ vals ↔ ∃ vs, (s, vs) ∈ m ∧ v ∈ vs := by
  have hr : isRegex s = false := by
    rw [← isRegex_iff] at hs; simpa using hs
  have e : f = { incl := [s] } := by
    simp only [Filter.include, compileRegex, hr, Bool.not_false, if_true, List.nil_append, Option.some.injEq] at hf
    exact hf.symm
  subst e
  refine ⟨_, rfl, fun v => ?_⟩
  rw [hm, (Filter.fetch_perm _ _ _).mem_iff]
  simp only [List.mem_flatMap, List.mem_filter, Filter.keep_iff, Option.getD_some]
  constructor
  · rintro ⟨⟨k, vs⟩, ⟨h1, h2, _⟩, h3⟩
    have : k = s := by simpa using h2
    exact ⟨vs, this ▸ h1, h3⟩
  · rintro ⟨vs, h1, h2⟩
    exact ⟨(s, vs), ⟨h1, by simp⟩, h2⟩

/-- C73, what is true: a selector in canonical spelling, on headers as net/http
delivers them, shows the values whatever case the client used. -/
theorem C73_canonical_partial {env : Env} {s : Bytes} {f : Filter} {t : Tx} {m : GoMap} (hs : ¬ ∃ re, IsRegex s re)
    (hf : Filter.include env.lib.rx {} s = some f) (hm : t.reqHeader = some m)
    (hc : Canonical s) (hk : ∀ k vs, (k, vs) ∈ m → CaseVariant k s → Canonical k) :
    ∃ vals, Var.fetch env (.requestHeaders f) t = .ok (vals, t) ∧
      ∀ v, v ∈ vals ↔ ∃ k vs, (k, vs) ∈ m ∧ v ∈ vs ∧ CaseVariant k s := by
  obtain ⟨vals, h1, h2⟩ := C73_exact hs hf hm
  refine ⟨vals, h1, fun v => (h2 v).trans ⟨?_, ?_⟩⟩
  · rintro ⟨vs, h3, h4⟩
    exact ⟨s, vs, h3, h4, CaseVariant.refl s⟩
  · rintro ⟨k, vs, h3, h4, h5⟩
    have := canonicalFrom_unique (hk k vs h3 h5) hc h5
    subst this
    exact ⟨vs, h3, h4⟩

/-- C73: any other spelling, e.g. `REQUEST_HEADERS:user-agent`, shows nothing, for any
request: such a rule is dead. -/
theorem C73_dead {env : Env} {s : Bytes} {f : Filter} {t : Tx} {m : GoMap} (hs : ¬ ∃ re, IsRegex s re)
    (hf : Filter.include env.lib.rx {} s = some f) (hm : t.reqHeader = some m)
    (hc : ¬ Canonical s) (hk : ∀ k vs, (k, vs) ∈ m → Canonical k) :
    Var.fetch env (.requestHeaders f) t = .ok ([], t) := by
  obtain ⟨vals, h1, h2⟩ := C73_exact hs hf hm
  have : vals = [] := by
    refine List.eq_nil_iff_forall_not_mem.2 fun v hv => ?_
    obtain ⟨vs, h3, _⟩ := (h2 v).1 hv
    exact hc (hk s vs h3)
  rw [h1, this]

theorem C73_refuted : ¬ C73_statement := by
  intro h
  have hs : ¬ ∃ re, IsRegex b!"user-agent" re := by rw [← isRegex_iff]; decide +kernel
  obtain ⟨vals, h1, h2⟩ := h env b!"user-agent" _ { newTransaction limits with reqHeader := some [(b!"User-Agent", [b!"x"])] } _ hs rfl rfl
  have h3 : vals = [] := by
    have : Var.fetch env (.requestHeaders { incl := [b!"user-agent"] })
      { newTransaction limits with reqHeader := some [(b!"User-Agent", [b!"x"])] } = .ok ([], _) := rfl
    exact (Prod.mk.inj (Res.ok.inj (h1.symm.trans this))).1
  subst h3
  have cv : CaseVariant b!"User-Agent" b!"user-agent" := by
    have := (canonicalKey_spec (s := b!"user-agent") (by decide +kernel)).2
    have e : canonicalKey b!"user-agent" = b!"User-Agent" := by decide +kernel
    exact e ▸ this
  exact absurd ((h2 b!"x").2 ⟨_, _, List.mem_cons_self, List.mem_cons_self, cv⟩) (by simp)

/-- A canonical selector and a header sent in lower case: the value is shown. -/
example : Canonical b!"User-Agent" ∧ canonicalKey b!"user-agent" = b!"User-Agent" ∧ canonicalKey b!"x y" = b!"x y" := by
  refine ⟨?_, by decide +kernel, by decide +kernel⟩
  have := (canonicalKey_spec (s := b!"user-agent") (by decide +kernel)).1
  have e : canonicalKey b!"user-agent" = b!"User-Agent" := by decide +kernel
  exact e ▸ this

/-! ### Headers as they arrive -/

theorem validHeaderByte_iff (c : UInt8) : validHeaderByte c = true ↔ FieldChar c := by
  have h : ∀ n : Fin 256, validHeaderByte (UInt8.ofNat n) = decide (33 ≤ (UInt8.ofNat n).toNat ∧ (UInt8.ofNat n).toNat ≤ 126 ∧
      UInt8.ofNat n ∉ b!"\"(),/:;<=>?@[\\]{}") := by decide +kernel
  have := h ⟨c.toNat, c.toNat_lt⟩
  simp only [UInt8.ofNat_toNat] at this
  rw [this, decide_eq_true_eq]
  rfl

theorem mem_header_append (x v : Bytes) (k : Bytes) (ws : List Bytes) : ∀ m : GoMap,
    (∃ vs, (x, vs) ∈ m.append k ws ∧ v ∈ vs) ↔ (∃ vs, (x, vs) ∈ m ∧ v ∈ vs) ∨ (x = k ∧ v ∈ ws)
  | [] => by
    simp only [GoMap.append, List.mem_singleton, Prod.mk.injEq, List.not_mem_nil, false_and, exists_false, false_or]
    exact ⟨fun ⟨_, ⟨h1, h2⟩, h3⟩ => ⟨h1, h2 ▸ h3⟩, fun ⟨h1, h2⟩ => ⟨_, ⟨h1, rfl⟩, h2⟩⟩
  | (k', v') :: r => by
    simp only [GoMap.append]
    split
    · next h =>
      subst h
      simp only [List.mem_cons, Prod.mk.injEq]
      constructor
      · rintro ⟨vs, ⟨rfl, rfl⟩ | h1, h2⟩
        · rcases List.mem_append.1 h2 with h2 | h2
          · exact .inl ⟨_, .inl ⟨rfl, rfl⟩, h2⟩
          · exact .inr ⟨rfl, h2⟩
        · exact .inl ⟨vs, .inr h1, h2⟩
      · rintro (⟨vs, ⟨rfl, rfl⟩ | h1, h2⟩ | ⟨rfl, h2⟩)
        · exact ⟨_, .inl ⟨rfl, rfl⟩, List.mem_append_left _ h2⟩
        · exact ⟨vs, .inr h1, h2⟩
        · exact ⟨_, .inl ⟨rfl, rfl⟩, List.mem_append_right _ h2⟩
    · have ih := mem_header_append x v k ws r
      simp only [List.mem_cons, Prod.mk.injEq]
      constructor
      · rintro ⟨vs, h1 | h1, h2⟩
        · exact .inl ⟨vs, .inl h1, h2⟩
        · rcases ih.1 ⟨vs, h1, h2⟩ with ⟨vs, h1, h2⟩ | h
          · exact .inl ⟨vs, .inr h1, h2⟩
          · exact .inr h
      · rintro (⟨vs, h1 | h1, h2⟩ | h)
        · exact ⟨vs, .inl h1, h2⟩
        · obtain ⟨vs, h1, h2⟩ := ih.2 (.inl ⟨vs, h1, h2⟩)
          exact ⟨vs, .inr h1, h2⟩
        · obtain ⟨vs, h1, h2⟩ := ih.2 (.inr h)
          exact ⟨vs, .inr h1, h2⟩

theorem mem_readHeader (x v : Bytes) (lines : List (Bytes × Bytes)) :
    (∃ vs, (x, vs) ∈ readHeader lines ∧ v ∈ vs) ↔ ∃ k, (k, v) ∈ lines ∧ canonicalKey k = x := by
  have key : ∀ (lines : List (Bytes × Bytes)) (m : GoMap), (∃ vs, (x, vs) ∈ lines.foldl (fun m l => m.append (canonicalKey l.1) [l.2]) m ∧ v ∈ vs) ↔
      (∃ vs, (x, vs) ∈ m ∧ v ∈ vs) ∨ ∃ k, (k, v) ∈ lines ∧ canonicalKey k = x := by
    intro lines
    induction lines with
    | nil => intro m; simp
    | cons l lines ih =>
      intro m
      obtain ⟨k, w⟩ := l
      rw [List.foldl_cons, ih, mem_header_append]
      constructor
      · rintro ((h | ⟨h1, h2⟩) | ⟨k', h1, h2⟩)
        · exact .inl h
        · exact .inr ⟨k, by rw [List.mem_singleton.1 h2]; exact .head _, h1.symm⟩
        · exact .inr ⟨k', .tail _ h1, h2⟩
      · rintro (h | ⟨k', h1, h2⟩)
        · exact .inl (.inl h)
        · rcases List.mem_cons.1 h1 with h1 | h1
          · cases h1
            exact .inl (.inr ⟨h2.symm, .head _⟩)
          · exact .inr ⟨k', h1, h2⟩
  rw [readHeader, key]
  simp

/-- C73, on the lines of a header: a selector spelled as net/http spells names shows the
values of all lines of that name, in whatever case; a selector in any other spelling shows
nothing.  The names in the lines are names of header fields. -/
theorem C73_lines {env : Env} {s : Bytes} {f : Filter} {t : Tx} {lines : List (Bytes × Bytes)} (hs : ¬ ∃ re, IsRegex s re)
    (hf : Filter.include env.lib.rx {} s = some f) (hm : t.reqHeader = some (readHeader lines)) (hl : ∀ l ∈ lines, ∀ c ∈ l.1, FieldChar c) :
    ∃ vals, Var.fetch env (.requestHeaders f) t = .ok (vals, t) ∧ ∀ v, v ∈ vals ↔ Canonical s ∧ ∃ k, (k, v) ∈ lines ∧ CaseVariant k s := by
  obtain ⟨vals, h1, h2⟩ := C73_exact hs hf hm
  refine ⟨vals, h1, fun v => ?_⟩
  rw [h2, mem_readHeader]
  have hk : ∀ k v, (k, v) ∈ lines → Canonical (canonicalKey k) ∧ CaseVariant (canonicalKey k) k :=
    fun k v h => canonicalKey_spec fun c hc => (validHeaderByte_iff c).2 (hl _ h c hc)
  constructor
  · rintro ⟨k, h, rfl⟩
    obtain ⟨g1, g2⟩ := hk k v h
    exact ⟨g1, k, h, (caseVariant_iff _ _).2 ((caseVariant_iff _ _).1 g2).symm⟩
  · rintro ⟨hc, k, h, hv⟩
    obtain ⟨g1, g2⟩ := hk k v h
    exact ⟨k, h, canonicalFrom_unique g1 hc ((caseVariant_iff _ _).2 (((caseVariant_iff _ _).1 g2).trans ((caseVariant_iff _ _).1 hv)))⟩

/-- C73: a line whose name has any other character keeps it as it came, so that the selector
must be spelled like it. -/
theorem C73_odd_names {env : Env} {s : Bytes} {f : Filter} {t : Tx} {lines : List (Bytes × Bytes)} (hs : ¬ ∃ re, IsRegex s re)
    (hf : Filter.include env.lib.rx {} s = some f) (hm : t.reqHeader = some (readHeader lines)) (hc : ∃ c ∈ s, ¬ FieldChar c) :
    ∃ vals, Var.fetch env (.requestHeaders f) t = .ok (vals, t) ∧ ∀ v, v ∈ vals ↔ (s, v) ∈ lines := by
  obtain ⟨vals, h1, h2⟩ := C73_exact hs hf hm
  refine ⟨vals, h1, fun v => ?_⟩
  rw [h2, mem_readHeader]
  obtain ⟨c, hcs, hcf⟩ := hc
  have odd : canonicalKey s = s := by
    rw [canonicalKey, if_neg]
    exact fun h => hcf ((validHeaderByte_iff c).1 (List.all_eq_true.1 h c hcs))
  constructor
  · rintro ⟨k, h, e⟩
    by_cases hk : k.all validHeaderByte = true
    · exfalso
      have hv := (canonicalKey_spec (s := k) (List.all_eq_true.1 hk)).2
      rw [e] at hv
      refine hcf ((validHeaderByte_iff c).1 ?_)
      have : ∀ {a b : Bytes}, CaseVariant a b → (∀ c ∈ b, validHeaderByte c = true) → ∀ c ∈ a, validHeaderByte c = true := by
        intro a b h
        induction h with
        | nil => intro _ c hc; cases hc
        | @cons x y a b hxy _ ih =>
          intro hb c hc
          rcases List.mem_cons.1 hc with rfl | hc
          · rcases hxy with rfl | ⟨g1, g2, _⟩ | ⟨_, _, g3⟩
            · exact hb _ List.mem_cons_self
            · simp [validHeaderByte, g1, g2]
            · have : 97 ≤ c.toNat ∧ c.toNat ≤ 122 := by omega
              simp [validHeaderByte, this.1, this.2]
          · exact ih (fun c hc => hb c (List.mem_cons_of_mem _ hc)) c hc
      exact this hv (List.all_eq_true.1 hk) c hcs
    · rw [canonicalKey, if_neg hk] at e
      exact e ▸ h
  · intro h
    exact ⟨s, h, odd⟩

/-- Three lines of one name and one of another; a name with an underscore; a name with a space. -/
example :
    readHeader [(b!"x-a", b!"1"), (b!"X_b", b!"2"), (b!"X-A", b!"3"), (b!"y z", b!"4"), (b!"X-a", b!"5")] =
      [(b!"X-A", [b!"1", b!"3", b!"5"]), (b!"X_b", [b!"2"]), (b!"y z", [b!"4"])] := by decide +kernel

end Verif
