import Verif.Props.Query
import Verif.Props.UrlDecode
import Verif.Model.Url
/-! C75-C77: what REQUEST_URI tells about the URL and about the request target. -/
namespace Verif
open Sample Spec

/-- Percent-encoding where '+' stands for itself: `enc` writes the raw bytes. -/
inductive Spec.PctText : Bytes → Bytes → Prop
  | nil : PctText [] []
  | lit {c enc raw} : c ≠ 37 → PctText enc raw → PctText (c :: enc) (c :: raw)
  | hex {a b x va vb enc raw} : HexVal a va → HexVal b vb → x.toNat = 16 * va + vb →
      PctText enc raw → PctText (37 :: a :: b :: enc) (x :: raw)

/-- The bytes RFC 3986 allows in a path (and the brackets browsers leave alone),
including the percent sign. -/
def Spec.PathByte (c : UInt8) : Prop :=
  (97 ≤ c ∧ c ≤ 122) ∨ (65 ≤ c ∧ c ≤ 90) ∨ (48 ≤ c ∧ c ≤ 57) ∨ c ∈ b!"/-_.~!$&'()*+,;=:@[]%"

/-- A request target: its path, and its query if it has a '?'. -/
def Spec.Target (target p : Bytes) (q : Option Bytes) : Prop :=
  63 ∉ p ∧ match q with
    | none => target = p
    | some q => target = p ++ 63 :: q

/-- Libraries with this `URL.String`. -/
def Lib.UrlString (lib : Lib) : Prop := lib.urlString = Verif.urlString

theorem pathUnescape_iff : ∀ (s raw : Bytes), pathUnescape s = some raw ↔ PctText s raw := by
  intro s
  fun_induction pathUnescape s with
  | case1 =>
    intro raw
    constructor
    · intro h; cases h; exact .nil
    · intro h; cases h; rfl
  | case2 a b r' hc ih =>
    intro raw
    rw [Option.map_eq_some_iff]
    rw [Bool.and_eq_true] at hc
    constructor
    · rintro ⟨w, hw, rfl⟩
      obtain ⟨va, vb, h1, h2, h3⟩ := (hexByte_iff a b _).1 ⟨hc.1, hc.2, rfl⟩
      exact .hex h1 h2 h3 ((ih w).1 hw)
    · intro h
      cases h with
      | lit h _ => exact absurd rfl h
      | hex h1 h2 h3 h4 =>
        exact ⟨_, (ih _).2 h4, by rw [((hexByte_iff a b _).2 ⟨_, _, h1, h2, h3⟩).2.2]⟩
  | case3 a b r' hc =>
    intro raw
    simp only [reduceCtorEq, false_iff]
    intro h
    cases h with
    | lit h _ => exact h rfl
    | hex h1 h2 _ _ => exact hc (by rw [(isHex_iff a).2 ⟨_, h1⟩, (isHex_iff b).2 ⟨_, h2⟩]; rfl)
  | case4 r hr =>
    intro raw
    simp only [reduceCtorEq, false_iff]
    intro h
    cases h with
    | lit h _ => exact h rfl
    | hex _ _ _ _ => exact hr _ _ _ rfl
  | case5 c r hc ih =>
    intro raw
    rw [Option.map_eq_some_iff]
    constructor
    · rintro ⟨w, hw, rfl⟩
      exact .lit hc ((ih w).1 hw)
    · intro h
      cases h with
      | lit _ h => exact ⟨_, (ih _).2 h, rfl⟩
      | hex _ _ _ _ => exact absurd rfl hc

theorem Spec.PctText.det {e r r' : Bytes} (h : PctText e r) (h' : PctText e r') : r = r' :=
  Option.some.inj (((pathUnescape_iff e r).2 h).symm.trans ((pathUnescape_iff e r').2 h'))

theorem upperHex_val {n : UInt8} (h : n.toNat < 16) : HexVal (upperHex n) n.toNat := by
  unfold upperHex HexVal
  by_cases h1 : n < 10
  · rw [if_pos h1]
    have : n.toNat < 10 := h1
    exact .inl ⟨this, by rw [UInt8.toNat_add]; show (48 + n.toNat) % 256 = _; omega⟩
  · rw [if_neg h1]
    have : ¬ n.toNat < 10 := h1
    exact .inr ⟨by omega, h, .inl (by rw [UInt8.toNat_add]; show (55 + n.toNat) % 256 = _; omega)⟩

theorem hi_nibble (c : UInt8) : (c >>> 4).toNat = c.toNat / 16 := by
  rw [UInt8.toNat_shiftRight]; show c.toNat >>> 4 = _; rw [Nat.shiftRight_eq_div_pow]

theorem lo_nibble (c : UInt8) : (c &&& 15).toNat = c.toNat % 16 := by
  rw [UInt8.toNat_and]; exact Nat.and_two_pow_sub_one_eq_mod c.toNat 4

theorem Spec.PctText.length_le {e raw : Bytes} (h : PctText e raw) : raw.length ≤ e.length := by
  induction h <;> simp only [List.length_cons, List.length_nil] at * <;> omega

theorem pctEscape_text {should : UInt8 → Bool} (h : should 37 = true) : ∀ s, PctText (pctEscape should s) s
  | [] => .nil
  | c :: r => by
    rw [pctEscape]
    split
    · refine .hex (upperHex_val ?_) (upperHex_val ?_) ?_ (pctEscape_text h r)
      · rw [hi_nibble]; have := c.toNat_lt; omega
      · rw [lo_nibble]; omega
      · rw [hi_nibble, lo_nibble]; omega
    · next hc =>
      exact .lit (fun e => hc (e ▸ h)) (pctEscape_text h r)

theorem upperHex_path {n : UInt8} (h : n.toNat < 16) : PathByte (upperHex n) := by
  have : ∀ k : Fin 16, (48 ≤ upperHex k.1.toUInt8 ∧ upperHex k.1.toUInt8 ≤ 57) ∨ (65 ≤ upperHex k.1.toUInt8 ∧ upperHex k.1.toUInt8 ≤ 90) := by
    decide
  have h2 := this ⟨n.toNat, h⟩
  have h3 : n.toNat.toUInt8 = n := by simp
  simp only [h3] at h2
  rcases h2 with h2 | h2
  · exact .inr (.inr (.inl h2))
  · exact .inr (.inl h2)

theorem kept_path {c : UInt8} (h : escapeInPath c = false) : PathByte c := by
  simp only [escapeInPath, isAlnum, Bool.not_eq_false', Bool.or_eq_true, Bool.and_eq_true, decide_eq_true_eq] at h
  rcases h with ((h | h) | h) | h
  · exact .inl h
  · exact .inr (.inl h)
  · exact .inr (.inr (.inl h))
  · refine .inr (.inr (.inr ?_))
    simp only [List.mem_cons, List.not_mem_nil, or_false] at h ⊢
    rcases h with h | h | h | h | h | h | h | h | h | h | h | h | h <;> simp [h]

theorem validEncodedPath_iff (s : Bytes) : validEncodedPath s = true ↔ ∀ c ∈ s, PathByte c := by
  rw [validEncodedPath, List.all_eq_true]
  refine forall_congr' fun c => forall_congr' fun _ => ?_
  simp only [Bool.or_eq_true, decide_eq_true_eq, Bool.not_eq_true']
  constructor
  · rintro (h | h)
    · refine .inr (.inr (.inr ?_))
      simp only [List.mem_cons, List.not_mem_nil, or_false] at h ⊢
      rcases h with h | h | h | h | h | h | h | h | h | h | h | h | h | h | h | h <;> simp [h]
    · exact kept_path h
  · intro h
    simp only [escapeInPath, isAlnum, Bool.not_eq_false', Bool.or_eq_true, Bool.and_eq_true, decide_eq_true_eq]
    rcases h with h | h | h | h
    · exact .inr (.inl (.inl (.inl h)))
    · exact .inr (.inl (.inl (.inr h)))
    · exact .inr (.inl (.inr h))
    · simp only [List.mem_cons, List.not_mem_nil, or_false] at h ⊢
      rcases h with h | h | h | h | h | h | h | h | h | h | h | h | h | h | h | h | h | h | h | h | h <;> simp [h]

theorem pctEscape_path : ∀ s, ∀ c ∈ pctEscape escapeInPath s, PathByte c
  | [], c, h => absurd h List.not_mem_nil
  | d :: r, c, h => by
    rw [pctEscape] at h
    split at h
    · simp only [List.mem_cons] at h
      rcases h with rfl | rfl | rfl | h
      · exact .inr (.inr (.inr (by decide)))
      · exact upperHex_path (by rw [hi_nibble]; have := d.toNat_lt; omega)
      · exact upperHex_path (by rw [lo_nibble]; omega)
      · exact pctEscape_path r c h
    · next hd =>
      rcases List.mem_cons.1 h with rfl | h
      · exact kept_path (by simpa using hd)
      · exact pctEscape_path r c h

/-- The path as it is written. -/
theorem escapedPath_spec (u : URL) : PctText u.escapedPath u.path ∧ ∀ c ∈ u.escapedPath, PathByte c := by
  unfold URL.escapedPath
  split
  · next h => exact ⟨(pathUnescape_iff _ _).1 h.2.2, (validEncodedPath_iff _).1 h.2.1⟩
  · split
    · next h =>
      rw [h]
      exact ⟨.lit (by decide) .nil, fun c hc => .inr (.inr (.inr (by rw [List.mem_singleton.1 hc]; decide)))⟩
    · exact ⟨pctEscape_text (by decide) _, pctEscape_path _⟩

/-- The query as it is written. -/
def Spec.querySuffix (u : URL) : Bytes := if u.forceQuery ∨ u.rawQuery ≠ [] then 63 :: u.rawQuery else []

/-- The fragment as it is written. -/
def Spec.fragmentSuffix (u : URL) : Bytes := if u.fragment ≠ [] then 35 :: pctEscape escapeInFragment u.fragment else []

/-- What stands before the path. -/
def Spec.dotPrefix (p : Bytes) : Bytes := if colonFirst p then b!"./" else []

theorem requestUri_fetch {env : Env} (hl : env.lib.UrlString) {t : Tx} {u : URL} (hu : t.url = some u) :
    Var.requestUri.fetch env t = .ok ([dotPrefix u.escapedPath ++ u.escapedPath ++ querySuffix u ++ fragmentSuffix u], t) := by
  simp only [Var.fetch, fetchRequestUri, hu, show env.lib.urlString = urlString from hl]
  have : ({ u with scheme := [], host := [], opaque_ := [], user := none } : URL).escapedPath = u.escapedPath := rfl
  simp only [urlString, this]
  simp only [ne_eq, not_true_eq_false, if_false, and_false, or_false, List.length_nil, true_and, List.nil_append]
  simp only [dotPrefix, querySuffix, fragmentSuffix]
  by_cases h1 : u.forceQuery = true ∨ ¬ u.rawQuery = [] <;> by_cases h2 : ¬ u.fragment = [] <;> simp [h1, h2]

/-! ### C75: REQUEST_URI and the request target -/

/-- The target of a request comes back in REQUEST_URI. -/
def C75_statement : Prop :=
  ∀ (env : Env), env.lib.UrlString → ∀ (target : Bytes) (u : URL) (t : Tx), target.head? = some 47 →
    parseRequestURI target = some u → t.url = some u → Var.requestUri.fetch env t = .ok ([target], t)

theorem firstByte_split (c : UInt8) : ∀ s : Bytes,
    c ∉ s.takeWhile (· != c) ∧
      ((s.takeWhile (· != c) = s ∧ s.drop ((s.takeWhile (· != c)).length + 1) = []) ∨
        s = s.takeWhile (· != c) ++ c :: s.drop ((s.takeWhile (· != c)).length + 1))
  | [] => ⟨by simp, .inl ⟨rfl, rfl⟩⟩
  | d :: r => by
    obtain ⟨h1, h2⟩ := firstByte_split c r
    by_cases hd : d = c
    · subst hd
      simp
    · have e : (d != c) = true := by simpa using hd
      simp only [List.takeWhile_cons, e, if_true, List.length_cons, List.drop_succ_cons, List.mem_cons, not_or]
      refine ⟨⟨fun e => hd e.symm, h1⟩, ?_⟩
      rcases h2 with ⟨h2, h3⟩ | h2
      · exact .inl ⟨by rw [h2], h3⟩
      · exact .inr (by rw [List.cons_append, ← h2])

/-- A query as it is written. -/
def Spec.queryText : Option Bytes → Bytes
  | none => []
  | some q => 63 :: q

theorem parseRequestURI_spec {target : Bytes} {u : URL} (h : parseRequestURI target = some u) :
    ∃ p q, Target target p q ∧ PctText p u.path ∧ querySuffix u = queryText q ∧ u.fragment = [] ∧
      ((u.rawPath = [] ∧ p = pctEscape escapeInPath u.path) ∨ u.rawPath = p) := by
  unfold parseRequestURI at h
  split at h
  · cases h
  simp only [Option.map_eq_some_iff] at h
  obtain ⟨⟨path, rawPath⟩, h1, h2⟩ := h
  unfold setPath at h1
  simp only [Option.map_eq_some_iff, Prod.mk.injEq] at h1
  obtain ⟨w, hw, rfl, h1⟩ := h1
  obtain ⟨ha, hb⟩ := firstByte_split 63 target
  have hr : (u.rawPath = [] ∧ target.takeWhile (· != 63) = pctEscape escapeInPath w) ∨ u.rawPath = target.takeWhile (· != 63) := by
    rw [← h2]
    show (rawPath = [] ∧ _) ∨ rawPath = _
    rw [← h1]
    split
    · next he => exact .inl ⟨rfl, he⟩
    · exact .inr rfl
  have hp : u.path = w := by rw [← h2]
  have hf : u.fragment = [] := by rw [← h2]
  rw [hp]
  rcases hb with ⟨hb, hc⟩ | hb
  · refine ⟨target.takeWhile (· != 63), none, ⟨ha, hb.symm⟩, (pathUnescape_iff _ _).1 hw, ?_, hf, hr⟩
    rw [← h2]
    simp only [querySuffix, queryText]
    rw [hc, hb]
    simp
  · refine ⟨target.takeWhile (· != 63), some (target.drop ((target.takeWhile (· != 63)).length + 1)), ⟨ha, hb⟩,
      (pathUnescape_iff _ _).1 hw, ?_, hf, hr⟩
    rw [← h2]
    simp only [querySuffix, queryText]
    rw [if_pos]
    by_cases hq : target.drop ((target.takeWhile (· != 63)).length + 1) = []
    · left
      have := congrArg List.length hb
      rw [hq] at this
      simpa using this.symm
    · exact .inr hq

theorem Spec.PctText.head {e raw : Bytes} {c : UInt8} (hc : c ≠ 37) (h : PctText (c :: e) raw) :
    ∃ r, raw = c :: r := by
  cases h with
  | lit _ _ => exact ⟨_, rfl⟩
  | hex _ _ _ _ => exact absurd rfl hc

theorem target_head {target p : Bytes} {q : Option Bytes} (h : Target target p q) (h47 : target.head? = some 47) :
    ∃ p', p = 47 :: p' := by
  obtain ⟨_, h⟩ := h
  cases q with
  | none => simp only at h; subst h; cases target <;> simp_all
  | some q =>
    simp only at h
    subst h
    cases p with
    | nil => simp at h47
    | cons c p => simp only [List.cons_append, List.head?_cons, Option.some.injEq] at h47; exact ⟨p, by rw [h47]⟩

theorem colonFirst_slash (p : Bytes) : colonFirst (47 :: p) = false := by
  simp [colonFirst]

/-- A parsed target: the path written in REQUEST_URI also begins with '/', and is
the one of the target if that uses only bytes allowed in a path. -/
theorem parsed_escapedPath {u : URL} {p p' : Bytes} (hp : p = 47 :: p') (ht : PctText p u.path)
    (hr : (u.rawPath = [] ∧ p = pctEscape escapeInPath u.path) ∨ u.rawPath = p) :
    (∃ e, u.escapedPath = 47 :: e) ∧ ((∀ c ∈ p, PathByte c) → u.escapedPath = p) := by
  obtain ⟨w, hw⟩ := PctText.head (by decide) (hp ▸ ht)
  have h1 : u.path ≠ b!"*" := by rw [hw]; simp
  have h2 : pctEscape escapeInPath u.path = 47 :: pctEscape escapeInPath w := by
    rw [hw, pctEscape, if_neg (by decide)]
  unfold URL.escapedPath
  rcases hr with ⟨hr, he⟩ | hr
  · rw [if_neg (fun h => h.1 hr), if_neg h1]
    exact ⟨⟨_, h2⟩, fun _ => he.symm⟩
  · rw [hr]
    split
    · exact ⟨⟨_, hp⟩, fun _ => rfl⟩
    · next hn =>
      refine ⟨⟨_, h2⟩, fun hv => absurd ⟨?_, (validEncodedPath_iff p).2 hv, (pathUnescape_iff _ _).2 ht⟩ hn⟩
      rw [hp]; simp

/-- **C75.** For every target that begins with '/' and whose path uses only the
bytes allowed in a path, REQUEST_URI is the target, byte for byte.  Other paths
are missing: see `C75_refuted` and `C75_equivalent`. -/
theorem C75_exact_partial {env : Env} (hl : env.lib.UrlString) {target : Bytes} {u : URL} {t : Tx}
    (h47 : target.head? = some 47) (hu : parseRequestURI target = some u) (ht : t.url = some u)
    (hv : ∀ p q, Target target p q → ∀ c ∈ p, PathByte c) :
    Var.requestUri.fetch env t = .ok ([target], t) := by
  obtain ⟨p, q, h1, h2, h3, h4, h5⟩ := parseRequestURI_spec hu
  obtain ⟨p', hp⟩ := target_head h1 h47
  rw [requestUri_fetch hl ht, (parsed_escapedPath hp h2 h5).2 (hv p q h1), h3]
  simp only [fragmentSuffix, h4, dotPrefix]
  rw [hp, colonFirst_slash, ← hp]
  obtain ⟨_, h1⟩ := h1
  cases q with
  | none => simp only at h1; simp [queryText, h1]
  | some q => simp only at h1; simp [queryText, h1]

/-- **C75, every target.** REQUEST_URI is the target with its path written in
another percent-encoding of the same bytes, one that uses only bytes allowed in a
path; the query is copied. -/
theorem C75_equivalent {env : Env} (hl : env.lib.UrlString) {target : Bytes} {u : URL} {t : Tx}
    (h47 : target.head? = some 47) (hu : parseRequestURI target = some u) (ht : t.url = some u) :
    ∃ p q e, Target target p q ∧ PctText p u.path ∧ PctText e u.path ∧ (∀ c ∈ e, PathByte c) ∧
      Var.requestUri.fetch env t = .ok ([e ++ queryText q], t) := by
  obtain ⟨p, q, h1, h2, h3, h4, h5⟩ := parseRequestURI_spec hu
  obtain ⟨p', hp⟩ := target_head h1 h47
  obtain ⟨⟨e, he⟩, _⟩ := parsed_escapedPath hp h2 h5
  refine ⟨p, q, u.escapedPath, h1, h2, (escapedPath_spec u).1, (escapedPath_spec u).2, ?_⟩
  rw [requestUri_fetch hl ht, h3]
  simp only [fragmentSuffix, h4, dotPrefix]
  rw [he, colonFirst_slash, ← he]
  simp

/-- Which targets a server accepts: those without control bytes whose path is
well-formed percent-encoding. -/
theorem C75_accepted (target : Bytes) : (∃ u, parseRequestURI target = some u) ↔
    (∀ c ∈ target, 32 ≤ c ∧ c ≠ 127) ∧ ∃ p q raw, Target target p q ∧ PctText p raw := by
  constructor
  · rintro ⟨u, h⟩
    obtain ⟨p, q, h1, h2, _⟩ := parseRequestURI_spec h
    refine ⟨?_, p, q, _, h1, h2⟩
    unfold parseRequestURI at h
    split at h
    · cases h
    · next hn =>
      simp only [List.any_eq_true, not_exists, not_and, Bool.or_eq_true, decide_eq_true_eq, beq_iff_eq, not_or] at hn
      exact fun c hc => ⟨UInt8.not_lt.1 (hn c hc).1, (hn c hc).2⟩
  · rintro ⟨h, p, q, raw, h1, h2⟩
    unfold parseRequestURI
    rw [if_neg]
    · obtain ⟨ha, hb⟩ := firstByte_split 63 target
      have : target.takeWhile (· != 63) = p := by
        obtain ⟨hn, h1⟩ := h1
        have hall : ∀ c ∈ p, (c != 63) = true := fun c hc => by simp; exact fun e => hn (e ▸ hc)
        cases q with
        | none => simp only at h1; subst h1; exact takeWhile_all hall
        | some q => simp only at h1; subst h1; rw [List.takeWhile_append_of_pos hall]; simp
      simp only [this, setPath, (pathUnescape_iff _ _).2 h2, Option.map_some]
      exact ⟨_, rfl⟩
    · simp only [List.any_eq_true, not_exists, not_and, Bool.or_eq_true, decide_eq_true_eq, beq_iff_eq, not_or]
      exact fun c hc => ⟨UInt8.not_lt.2 (h c hc).1, (h c hc).2⟩

/-- The sample library with this `URL.String` (and this `ParseQuery`). -/
def Sample.urlEnv : Env := { env with lib := { lib with parseQuery := parseQuery, urlString := urlString } }

theorem urlEnv_lib : urlEnv.lib.UrlString := rfl

/-- A double quote in the path comes back encoded. -/
theorem C75_refuted : ¬ C75_statement := by
  intro h
  have := h urlEnv urlEnv_lib b!"/a\"b" { path := b!"/a\"b", rawPath := b!"/a\"b" }
    { newTransaction limits with url := some { path := b!"/a\"b", rawPath := b!"/a\"b" } } rfl (by decide +kernel) rfl
  rw [requestUri_fetch urlEnv_lib rfl] at this
  simp only [Res.ok.injEq, Prod.mk.injEq, and_true] at this
  revert this
  decide +kernel

example : parseRequestURI b!"/x%2Fy/a+b;c?q=%41#?" =
    some { path := b!"/x/y/a+b;c", rawPath := b!"/x%2Fy/a+b;c", rawQuery := b!"q=%41#?" } ∧
    (urlString { path := b!"/x/y/a+b;c", rawPath := b!"/x%2Fy/a+b;c", rawQuery := b!"q=%41#?" }) = b!"/x%2Fy/a+b;c?q=%41#?" := by
  decide +kernel

/-! ### C76: REQUEST_URI tells URLs apart -/

/-- URLs with different paths or queries have different REQUEST_URIs. -/
def C76_statement : Prop :=
  ∀ (env : Env), env.lib.UrlString → ∀ (t t' : Tx) (u v : URL) (vals : List Bytes), t.url = some u → t'.url = some v →
    Var.requestUri.fetch env t = .ok (vals, t) → Var.requestUri.fetch env t' = .ok (vals, t') →
      u.path = v.path ∧ u.rawQuery = v.rawQuery

theorem append_cut {c : UInt8} {a a' s s' : Bytes} (h : a ++ s = a' ++ s') (ha : c ∉ a) (ha' : c ∉ a')
    (hs : s = [] ∨ s.head? = some c) (hs' : s' = [] ∨ s'.head? = some c) : a = a' ∧ s = s' := by
  induction a generalizing a' with
  | nil =>
    cases a' with
    | nil => exact ⟨rfl, h⟩
    | cons d a' =>
      simp only [List.nil_append, List.cons_append] at h
      subst h
      rcases hs with h | h
      · cases h
      · simp only [List.head?_cons, Option.some.injEq] at h
        exact absurd (h ▸ List.mem_cons_self) ha'
  | cons d a ih =>
    cases a' with
    | nil =>
      simp only [List.nil_append, List.cons_append] at h
      subst h
      rcases hs' with h | h
      · cases h
      · simp only [List.head?_cons, Option.some.injEq] at h
        exact absurd (h ▸ List.mem_cons_self) ha
    | cons d' a' =>
      simp only [List.cons_append, List.cons.injEq] at h
      obtain ⟨rfl, h⟩ := h
      obtain ⟨h1, h2⟩ := ih h (fun hm => ha (List.mem_cons_of_mem _ hm)) (fun hm => ha' (List.mem_cons_of_mem _ hm))
      exact ⟨by rw [h1], h2⟩

theorem PathByte.not_63 : ¬ PathByte 63 := by unfold PathByte; decide
theorem PathByte.not_35 : ¬ PathByte 35 := by unfold PathByte; decide

theorem dotPrefix_bytes (p : Bytes) : ∀ c ∈ dotPrefix p, PathByte c := by
  unfold dotPrefix
  split
  · intro c hc
    simp only [List.mem_cons, List.not_mem_nil, or_false] at hc
    rcases hc with rfl | rfl <;> exact .inr (.inr (.inr (by decide)))
  · intro c hc; cases hc

theorem writtenPath_bytes (u : URL) : ∀ c ∈ dotPrefix u.escapedPath ++ u.escapedPath, PathByte c := by
  intro c hc
  rcases List.mem_append.1 hc with hc | hc
  · exact dotPrefix_bytes _ c hc
  · exact (escapedPath_spec u).2 c hc

theorem writtenPath_text (u : URL) : PctText (dotPrefix u.escapedPath ++ u.escapedPath) (dotPrefix u.escapedPath ++ u.path) := by
  have h := (escapedPath_spec u).1
  unfold dotPrefix
  split
  · exact .lit (by decide) (.lit (by decide) h)
  · exact h

theorem querySuffix_shape (u : URL) : querySuffix u = [] ∨ (querySuffix u).head? = some 63 := by
  unfold querySuffix; split <;> simp

theorem fragmentSuffix_shape (u : URL) : fragmentSuffix u = [] ∨ (fragmentSuffix u).head? = some 35 := by
  unfold fragmentSuffix; split <;> simp

theorem querySuffix_inj {u v : URL} (h : querySuffix u = querySuffix v) : u.rawQuery = v.rawQuery := by
  unfold querySuffix at h
  split at h <;> split at h
  · exact (List.cons.inj h).2
  · cases h
  · cases h
  · next h1 h2 =>
    rw [not_or] at h1 h2
    rw [Decidable.not_not.1 h1.2, Decidable.not_not.1 h2.2]

theorem fragmentSuffix_inj {u v : URL} (h : fragmentSuffix u = fragmentSuffix v) : u.fragment = v.fragment := by
  unfold fragmentSuffix at h
  split at h <;> split at h
  · have := (List.cons.inj h).2
    have h1 := pctEscape_text (should := escapeInFragment) (by decide) u.fragment
    rw [this] at h1
    exact h1.det (pctEscape_text (by decide) _)
  · cases h
  · cases h
  · next h1 h2 => rw [Decidable.not_not.1 h1, Decidable.not_not.1 h2]

theorem rooted_inj {u v : URL} (hu : u.path.head? = some 47) (hv : v.path.head? = some 47)
    (h : dotPrefix u.escapedPath ++ u.escapedPath = dotPrefix v.escapedPath ++ v.escapedPath) : u.path = v.path := by
  have h1 := writtenPath_text u
  rw [h] at h1
  have h2 := h1.det (writtenPath_text v)
  obtain ⟨a, ha⟩ : ∃ a, u.path = 47 :: a := by cases hp : u.path <;> simp_all
  obtain ⟨b, hb⟩ : ∃ b, v.path = 47 :: b := by cases hp : v.path <;> simp_all
  unfold dotPrefix at h2
  rw [ha, hb] at h2 ⊢
  split at h2 <;> split at h2 <;> simp at h2 <;> simp [h2]

/-- **C76.** Two URLs with rooted paths and without fragments that have the same
REQUEST_URI have the same path and the same query.  Relative paths and fragments
are missing: see `C76_refuted`, `C76_fragment`. -/
theorem C76_distinguishes_partial {env : Env} (hl : env.lib.UrlString) {t t' : Tx} {u v : URL} {vals : List Bytes}
    (hu : t.url = some u) (hv : t'.url = some v) (h : Var.requestUri.fetch env t = .ok (vals, t))
    (h' : Var.requestUri.fetch env t' = .ok (vals, t')) (pu : u.path.head? = some 47) (pv : v.path.head? = some 47)
    (fu : u.fragment = []) (fv : v.fragment = []) : u.path = v.path ∧ u.rawQuery = v.rawQuery := by
  rw [requestUri_fetch hl hu] at h
  rw [requestUri_fetch hl hv] at h'
  simp only [Res.ok.injEq, Prod.mk.injEq, and_true] at h h'
  rw [← h'] at h
  simp only [fragmentSuffix, fu, fv, ne_eq, not_true_eq_false, if_false, List.append_nil, List.cons.injEq, and_true] at h
  obtain ⟨h1, h2⟩ := append_cut h (fun hm => PathByte.not_63 (writtenPath_bytes u _ hm))
    (fun hm => PathByte.not_63 (writtenPath_bytes v _ hm)) (querySuffix_shape u) (querySuffix_shape v)
  exact ⟨rooted_inj pu pv h1, querySuffix_inj h2⟩

/-- With fragments too, when the queries have no '#' (as after `url.Parse`). -/
theorem C76_fragment {env : Env} (hl : env.lib.UrlString) {t t' : Tx} {u v : URL} {vals : List Bytes}
    (hu : t.url = some u) (hv : t'.url = some v) (h : Var.requestUri.fetch env t = .ok (vals, t))
    (h' : Var.requestUri.fetch env t' = .ok (vals, t')) (pu : u.path.head? = some 47) (pv : v.path.head? = some 47)
    (qu : 35 ∉ u.rawQuery) (qv : 35 ∉ v.rawQuery) :
    u.path = v.path ∧ u.rawQuery = v.rawQuery ∧ u.fragment = v.fragment := by
  rw [requestUri_fetch hl hu] at h
  rw [requestUri_fetch hl hv] at h'
  simp only [Res.ok.injEq, Prod.mk.injEq, and_true] at h h'
  rw [← h'] at h
  simp only [List.cons.injEq, and_true] at h
  have no35 : ∀ w : URL, 35 ∉ w.rawQuery → 35 ∉ dotPrefix w.escapedPath ++ w.escapedPath ++ querySuffix w := by
    intro w hw hm
    rcases List.mem_append.1 hm with hm | hm
    · exact PathByte.not_35 (writtenPath_bytes w _ hm)
    · unfold querySuffix at hm
      split at hm
      · rcases List.mem_cons.1 hm with hm | hm
        · cases hm
        · exact hw hm
      · cases hm
  obtain ⟨h1, h2⟩ := append_cut h (no35 u qu) (no35 v qv) (fragmentSuffix_shape u) (fragmentSuffix_shape v)
  obtain ⟨h3, h4⟩ := append_cut h1 (fun hm => PathByte.not_63 (writtenPath_bytes u _ hm))
    (fun hm => PathByte.not_63 (writtenPath_bytes v _ hm)) (querySuffix_shape u) (querySuffix_shape v)
  exact ⟨rooted_inj pu pv h3, querySuffix_inj h4, fragmentSuffix_inj h2⟩

/-- The bytes RFC 3986 allows in a fragment, but for the apostrophe. -/
def Spec.FragmentByte (c : UInt8) : Prop :=
  (97 ≤ c ∧ c ≤ 122) ∨ (65 ≤ c ∧ c ≤ 90) ∨ (48 ≤ c ∧ c ≤ 57) ∨ c ∈ b!"-._~!$&()*+,;=:@/?"

theorem escapeInFragment_iff (c : UInt8) : escapeInFragment c = false ↔ FragmentByte c := by
  simp only [escapeInFragment, isAlnum, FragmentByte, Bool.not_eq_false', Bool.or_eq_true, Bool.and_eq_true, decide_eq_true_eq, or_assoc]
  simp only [List.mem_cons, List.not_mem_nil, or_false]
  grind

theorem pctEscape_kept {should : UInt8 → Bool} (h37 : should 37 = true) : ∀ s : Bytes, pctEscape should s = s ↔ ∀ c ∈ s, should c = false
  | [] => by simp [pctEscape]
  | c :: r => by
    rw [pctEscape]
    split
    · next hc =>
      refine ⟨fun h => ?_, fun h => by rw [h c (.head _)] at hc; cases hc⟩
      have h1 := congrArg List.length h
      have h2 := (pctEscape_text h37 r).length_le
      simp only [List.length_cons] at h1
      omega
    · next hc =>
      rw [List.cons.injEq, pctEscape_kept h37 r]
      simp only [true_and, List.mem_cons, forall_eq_or_imp, show should c = false by simpa using hc]

/-- **C76, how fragments are written**: after what is written without the fragment comes '#' and an encoding of the fragment,
which is the fragment itself exactly if it has only bytes allowed there. -/
theorem C76_written {env : Env} (hl : env.lib.UrlString) {t t' : Tx} {u : URL} {v : Bytes} (hu : t.url = some u) (hf : u.fragment ≠ [])
    (ht : t'.url = some { u with fragment := [] }) (h : Var.requestUri.fetch env t' = .ok ([v], t')) :
    ∃ e, Var.requestUri.fetch env t = .ok ([v ++ 35 :: e], t) ∧ PctText e u.fragment ∧ (e = u.fragment ↔ ∀ c ∈ u.fragment, FragmentByte c) := by
  rw [requestUri_fetch hl ht] at h
  simp only [Res.ok.injEq, Prod.mk.injEq, and_true, List.cons.injEq, fragmentSuffix, ne_eq, not_true_eq_false, if_false, List.append_nil] at h
  refine ⟨pctEscape escapeInFragment u.fragment, ?_, pctEscape_text (by decide) _, ?_⟩
  · rw [requestUri_fetch hl hu, fragmentSuffix, if_pos hf, ← h]; rfl
  · rw [pctEscape_kept (by decide)]
    exact forall_congr' fun c => forall_congr' fun _ => escapeInFragment_iff c

/-- One fragment that is written as it is, and one that is not. -/
example : urlString { path := b!"/a", fragment := b!"top?!" } = b!"/a#top?!" ∧ urlString { path := b!"/a", fragment := b!"a b" } = b!"/a#a%20b" := by
  decide +kernel

/-- **C76, without fragments but any paths**: the queries are the same, and so are the paths but for a `./` that the code
has put before one of them, whose first segment contains a colon. -/
theorem C76_any_path {env : Env} (hl : env.lib.UrlString) {t t' : Tx} {u v : URL} {vals : List Bytes}
    (hu : t.url = some u) (hv : t'.url = some v) (h : Var.requestUri.fetch env t = .ok (vals, t))
    (h' : Var.requestUri.fetch env t' = .ok (vals, t')) (fu : u.fragment = []) (fv : v.fragment = []) :
    u.rawQuery = v.rawQuery ∧ (u.path = v.path ∨ v.path = 46 :: 47 :: u.path ∧ colonFirst u.escapedPath = true ∨
      u.path = 46 :: 47 :: v.path ∧ colonFirst v.escapedPath = true) := by
  rw [requestUri_fetch hl hu] at h
  rw [requestUri_fetch hl hv] at h'
  simp only [Res.ok.injEq, Prod.mk.injEq, and_true] at h h'
  rw [← h'] at h
  simp only [fragmentSuffix, fu, fv, ne_eq, not_true_eq_false, if_false, List.append_nil, List.cons.injEq, and_true] at h
  obtain ⟨h1, h2⟩ := append_cut h (fun hm => PathByte.not_63 (writtenPath_bytes u _ hm))
    (fun hm => PathByte.not_63 (writtenPath_bytes v _ hm)) (querySuffix_shape u) (querySuffix_shape v)
  refine ⟨querySuffix_inj h2, ?_⟩
  have h3 := writtenPath_text u
  rw [h1] at h3
  have h4 := h3.det (writtenPath_text v)
  unfold dotPrefix at h4
  split at h4 <;> split at h4
  · exact .inl (by simpa using h4)
  · rename_i k _; exact .inr (.inl ⟨by simpa using h4.symm, k⟩)
  · rename_i k; exact .inr (.inr ⟨by simpa using h4, k⟩)
  · exact .inl (by simpa using h4)

/-- A relative path with a colon in its first segment is written with `./`. -/
theorem C76_refuted : ¬ C76_statement := by
  intro h
  have := (h urlEnv urlEnv_lib { newTransaction limits with url := some { path := b!"a:b" } }
    { newTransaction limits with url := some { path := b!"./a:b" } } { path := b!"a:b" } { path := b!"./a:b" } [b!"./a:b"]
    rfl rfl ((requestUri_fetch urlEnv_lib rfl).trans (by congr 1)) ((requestUri_fetch urlEnv_lib rfl).trans (by congr 1))).1
  revert this
  decide

example : urlString { path := b!"/a b", rawQuery := b!"x" } = b!"/a%20b?x" ∧ urlString { path := b!"/a%20b", rawQuery := b!"x" } = b!"/a%2520b?x" := by
  decide +kernel

/-! ### C77: REQUEST_URI and the transformation urlDecode -/

/-- `t:urlDecode` applied to REQUEST_URI gives back the path and the decoded query. -/
def C77_statement : Prop :=
  ∀ (env : Env), env.lib.UrlString → ∀ (t : Tx) (u : URL) (v : Bytes), t.url = some u → u.path.head? = some 47 →
    u.fragment = [] → u.rawQuery ≠ [] → Var.requestUri.fetch env t = .ok ([v], t) →
      Trans.run env.lib t .urlDecode v = u.path ++ 63 :: Trans.run env.lib t .urlDecode u.rawQuery

theorem Spec.PctText.encodes {e raw : Bytes} (h : PctText e raw) (hp : 43 ∉ raw) : Encodes e raw := by
  induction h with
  | nil => exact .nil
  | lit hc _ ih =>
    rw [List.mem_cons, not_or] at hp
    exact .lit hc (fun e => hp.1 e.symm) (ih hp.2)
  | hex h1 h2 h3 _ ih =>
    rw [List.mem_cons, not_or] at hp
    exact .hex h1 h2 h3 (ih hp.2)

theorem urldecode_append {e raw : Bytes} (h : Encodes e raw) (u : Bool) (r : Bytes) :
    (urldecode u (e ++ r)).1 = raw ++ (urldecode u r).1 := by
  induction h with
  | nil => rfl
  | lit h1 h2 _ ih => rw [List.cons_append, ud_lit _ _ h1 h2]; simp [emit, ih]
  | plus _ ih => rw [List.cons_append, ud_plus]; simp [emit, ih]
  | hex h1 h2 h3 _ ih =>
    rw [List.cons_append, List.cons_append, List.cons_append, ud_hex _ _ ((isHex_iff _).2 ⟨_, h1⟩) ((isHex_iff _).2 ⟨_, h2⟩)]
    rw [((hexByte_iff _ _ _).2 ⟨_, _, h1, h2, h3⟩).2.2]
    simp [emit, ih]

theorem dotPrefix_rooted {u : URL} (h : u.path.head? = some 47) (he : u.rawPath = [] ∨ u.rawPath.head? = some 47) :
    dotPrefix u.escapedPath = [] := by
  obtain ⟨a, ha⟩ : ∃ a, u.path = 47 :: a := by cases hp : u.path <;> simp_all
  have : ∃ e, u.escapedPath = 47 :: e := by
    unfold URL.escapedPath
    rw [ha]
    split
    · next hr =>
      rcases he with he | he
      · exact absurd he hr.1
      · cases hp : u.rawPath <;> simp_all
    · rw [if_neg (by simp), pctEscape, if_neg (by decide)]; exact ⟨_, rfl⟩
  obtain ⟨e, he⟩ := this
  rw [dotPrefix, he, colonFirst_slash, if_neg (by decide)]

/-- **C77.** For a rooted path (also as written by the client) without '+',
`t:urlDecode` of REQUEST_URI is the path, followed by the decoded query.  Paths
with '+' are missing: see `C77_refuted`. -/
theorem C77_decoded_partial {env : Env} (hl : env.lib.UrlString) {t : Tx} {u : URL} {v : Bytes} (hu : t.url = some u)
    (hp : u.path.head? = some 47) (hr : u.rawPath = [] ∨ u.rawPath.head? = some 47) (hf : u.fragment = [])
    (hq : u.rawQuery ≠ []) (h43 : 43 ∉ u.path) (h : Var.requestUri.fetch env t = .ok ([v], t)) :
    Trans.run env.lib t .urlDecode v = u.path ++ 63 :: Trans.run env.lib t .urlDecode u.rawQuery := by
  rw [requestUri_fetch hl hu, dotPrefix_rooted hp hr] at h
  simp only [Res.ok.injEq, Prod.mk.injEq, and_true, List.cons.injEq, List.nil_append, fragmentSuffix, hf, querySuffix] at h
  rw [if_pos (.inr hq)] at h
  simp only [ne_eq, not_true_eq_false, if_false, List.append_nil] at h
  show (urldecode false v).1 = _ ++ 63 :: (urldecode false _).1
  rw [← h, urldecode_append ((escapedPath_spec u).1.encodes h43), ud_lit _ _ (by decide) (by decide)]
  rfl

/-- The same for a request target as a server parses it. -/
theorem C77_target_partial {env : Env} (hl : env.lib.UrlString) {target : Bytes} {t : Tx} {u : URL} {v q : Bytes}
    (h47 : target.head? = some 47) (hu : parseRequestURI target = some u) (ht : t.url = some u) (hq : u.rawQuery = q)
    (hn : q ≠ []) (h43 : 43 ∉ u.path) (h : Var.requestUri.fetch env t = .ok ([v], t)) :
    Trans.run env.lib t .urlDecode v = u.path ++ 63 :: Trans.run env.lib t .urlDecode q := by
  subst hq
  obtain ⟨p, q', h1, h2, _, h4, h5⟩ := parseRequestURI_spec hu
  obtain ⟨p', hp⟩ := target_head h1 h47
  obtain ⟨w, hw⟩ := Spec.PctText.head (by decide) (hp ▸ h2)
  refine C77_decoded_partial hl ht (by rw [hw]; rfl) ?_ h4 hn h43 h
  rcases h5 with ⟨h5, _⟩ | h5
  · exact .inl h5
  · exact .inr (by rw [h5, hp]; rfl)

theorem urldecode_pct {e raw : Bytes} (h : PctText e raw) (r : Bytes) : ∃ raw', raw'.length = raw.length ∧ (raw' = raw ↔ 43 ∉ e) ∧
    (urldecode false (e ++ r)).1 = raw' ++ (urldecode false r).1 := by
  induction h with
  | nil => exact ⟨[], rfl, by simp, rfl⟩
  | @lit c e raw hc _ ih =>
    obtain ⟨raw', h1, h2, h3⟩ := ih
    by_cases h43 : c = 43
    · subst h43
      refine ⟨32 :: raw', by simp [h1], by simp, ?_⟩
      rw [List.cons_append, ud_plus]; simp [emit, h3]
    · refine ⟨c :: raw', by simp [h1], by simpa [h2] using fun _ e => h43 e.symm, ?_⟩
      rw [List.cons_append, ud_lit _ _ hc h43]; simp [emit, h3]
  | @hex a b c va vb e raw h1 h2 h3 _ ih =>
    obtain ⟨raw', g1, g2, g3⟩ := ih
    have ha := (isHex_iff _).2 ⟨_, h1⟩
    have hb := (isHex_iff _).2 ⟨_, h2⟩
    refine ⟨c :: raw', by simp [g1], ?_, ?_⟩
    · have n1 : 43 ≠ a := by rintro rfl; revert ha; decide
      have n2 : 43 ≠ b := by rintro rfl; revert hb; decide
      simp [g2, n1, n2]
    · rw [List.cons_append, List.cons_append, List.cons_append, ud_hex _ _ ha hb, ((hexByte_iff _ _ _).2 ⟨_, _, h1, h2, h3⟩).2.2]
      simp [emit, g3]

/-- **C77, exactly**: for a rooted path the claim holds iff there is no '+' in the path as it is written in the URI. -/
theorem C77_exact {env : Env} (hl : env.lib.UrlString) {t : Tx} {u : URL} {v : Bytes} (hu : t.url = some u)
    (hp : u.path.head? = some 47) (hr : u.rawPath = [] ∨ u.rawPath.head? = some 47) (hf : u.fragment = [])
    (hq : u.rawQuery ≠ []) (h : Var.requestUri.fetch env t = .ok ([v], t)) :
    Trans.run env.lib t .urlDecode v = u.path ++ 63 :: Trans.run env.lib t .urlDecode u.rawQuery ↔ 43 ∉ v.takeWhile (· ≠ 63) := by
  rw [requestUri_fetch hl hu, dotPrefix_rooted hp hr] at h
  simp only [Res.ok.injEq, Prod.mk.injEq, and_true, List.cons.injEq, List.nil_append, fragmentSuffix, hf, querySuffix] at h
  rw [if_pos (.inr hq)] at h
  simp only [ne_eq, not_true_eq_false, if_false, List.append_nil] at h
  have hw : v.takeWhile (· ≠ 63) = u.escapedPath := by
    rw [← h, List.takeWhile_append_of_pos]
    · simp
    · intro c hc
      have := (escapedPath_spec u).2 c hc
      simp only [ne_eq, decide_not, Bool.not_eq_eq_eq_not, Bool.not_true, decide_eq_false_iff_not]
      rintro rfl
      exact PathByte.not_63 this
  rw [hw]
  obtain ⟨raw', h1, h2, h3⟩ := urldecode_pct (escapedPath_spec u).1 (63 :: u.rawQuery)
  show (urldecode false v).1 = _ ++ 63 :: (urldecode false _).1 ↔ _
  rw [← h, h3, ud_lit _ _ (by decide) (by decide), ← h2]
  constructor
  · intro e
    exact (List.append_inj e h1).1
  · intro e
    rw [e]; rfl

/-- A plus sign in the path turns into a space. -/
theorem C77_refuted : ¬ C77_statement := by
  intro h
  have := h urlEnv urlEnv_lib { newTransaction limits with url := some { path := b!"/c++", rawQuery := b!"x" } }
    { path := b!"/c++", rawQuery := b!"x" } b!"/c++?x" rfl rfl rfl (by decide)
    ((requestUri_fetch urlEnv_lib rfl).trans (by congr 1))
  revert this
  decide +kernel

/-- The hypotheses can be met: an encoded path and an encoded query. -/
example : (parseRequestURI b!"/a%20%62?x=%41+1").map (fun u => (u.path, transUrlDecode (urlString u))) =
    some (b!"/a b", b!"/a b?x=A 1") := by decide +kernel

end Verif
