import Verif.Props.Body
import Verif.Proofs.Parser
import Verif.Props.Collections
import Verif.Spec.Syntax
import Verif.Model.Query
/-! C69: the arguments of a query string and of an urlencoded body. -/
namespace Verif
open Sample Spec

/-- The text is the argument `n` with value `v`: both percent-encoded, joined by
the first '='; without '=' the value is empty. -/
def Spec.ArgOf (p n v : Bytes) : Prop :=
  (∃ en ev, p = en ++ 61 :: ev ∧ 61 ∉ en ∧ Encodes en n ∧ Encodes ev v) ∨ (p ≠ [] ∧ 61 ∉ p ∧ Encodes p n ∧ v = [])

/-- What stands between two separators: nothing, an argument, or a text that is
not well-formed percent-encoding. -/
inductive Spec.Piece where
  | blank
  | arg (n v : Bytes)
  | broken
deriving DecidableEq

def Spec.IsPiece (p : Bytes) : Piece → Prop
  | .blank => p = []
  | .arg n v => ArgOf p n v
  | .broken => p ≠ [] ∧ ∀ n v, ¬ ArgOf p n v

/-- A query string: pieces separated by '&' or ';'. -/
abbrev Spec.Query : Bytes → List Piece → Prop := SepBy [38, 59] IsPiece

/-- The arguments among the pieces. -/
def Spec.argsOf (ps : List Piece) : List (Bytes × Bytes) :=
  ps.filterMap fun
    | .arg n v => some (n, v)
    | _ => none

theorem hexByte_iff (a b x : UInt8) : (isHex a = true ∧ isHex b = true ∧ (unHex a <<< 4 ||| unHex b) = x) ↔
    ∃ va vb, HexVal a va ∧ HexVal b vb ∧ x.toNat = 16 * va + vb := by
  constructor
  · rintro ⟨h1, h2, rfl⟩
    obtain ⟨va, ha⟩ := (isHex_iff a).1 h1
    obtain ⟨vb, hb⟩ := (isHex_iff b).1 h2
    exact ⟨va, vb, ha, hb, by rw [nibbles _ _ (unHex_lt _) (unHex_lt _), unHex_eq ha, unHex_eq hb]⟩
  · rintro ⟨va, vb, ha, hb, hx⟩
    refine ⟨(isHex_iff a).2 ⟨_, ha⟩, (isHex_iff b).2 ⟨_, hb⟩, UInt8.toNat_inj.1 ?_⟩
    rw [nibbles _ _ (unHex_lt _) (unHex_lt _), unHex_eq ha, unHex_eq hb, hx]

theorem queryUnescape_iff : ∀ (s raw : Bytes), queryUnescape s = some raw ↔ Encodes s raw := by
  intro s
  fun_induction queryUnescape s with
  | case1 =>
    intro raw
    constructor
    · intro h; cases h; exact .nil
    · intro h; cases h; rfl
  | case2 a b r' hc ih =>
    intro raw
    rw [Option.map_eq_some_iff]
    rw [Bool.and_eq_true] at hc
    constructor
    · rintro ⟨w, hw, rfl⟩
      obtain ⟨va, vb, h1, h2, h3⟩ := (hexByte_iff a b _).1 ⟨hc.1, hc.2, rfl⟩
      exact .hex h1 h2 h3 ((ih w).1 hw)
    · intro h
      cases h with
      | lit h _ _ => exact absurd rfl h
      | hex h1 h2 h3 h4 =>
        exact ⟨_, (ih _).2 h4, by rw [((hexByte_iff a b _).2 ⟨_, _, h1, h2, h3⟩).2.2]⟩
  | case3 a b r' hc =>
    intro raw
    simp only [reduceCtorEq, false_iff]
    intro h
    cases h with
    | lit h _ _ => exact h rfl
    | hex h1 h2 _ _ => exact hc (by rw [(isHex_iff a).2 ⟨_, h1⟩, (isHex_iff b).2 ⟨_, h2⟩]; rfl)
  | case4 r hr =>
    intro raw
    simp only [reduceCtorEq, false_iff]
    intro h
    cases h with
    | lit h _ _ => exact h rfl
    | hex h1 h2 _ _ => exact hr _ _ _ rfl
  | case5 r hc ih =>
    intro raw
    rw [Option.map_eq_some_iff]
    constructor
    · rintro ⟨w, hw, rfl⟩; exact .plus ((ih w).1 hw)
    · intro h
      cases h with
      | lit _ h _ => exact absurd rfl h
      | plus h => exact ⟨_, (ih _).2 h, rfl⟩
  | case6 c r h1 h2 ih =>
    intro raw
    rw [Option.map_eq_some_iff]
    constructor
    · rintro ⟨w, hw, rfl⟩; exact .lit h1 h2 ((ih w).1 hw)
    · intro h
      cases h with
      | lit _ _ h => exact ⟨_, (ih _).2 h, rfl⟩
      | plus h => exact absurd rfl h2
      | hex _ _ _ _ => exact absurd rfl h1

/-- Splitting at the first '='. -/
theorem key_split (p : Bytes) : ∃ en ev, p.takeWhile (· != 61) = en ∧ p.drop (en.length + 1) = ev ∧ 61 ∉ en ∧
    (p = en ++ 61 :: ev ∨ (p = en ∧ ev = [])) := by
  refine ⟨_, _, rfl, rfl, ?_, ?_⟩
  · intro h
    have := List.all_takeWhile (p := (· != (61 : UInt8))) (l := p)
    rw [List.all_eq_true] at this
    simpa using this _ h
  · induction p with
    | nil => exact .inr ⟨rfl, rfl⟩
    | cons c p ih =>
      by_cases hc : c = 61
      · subst hc; left; simp
      · have h : (c != 61) = true := by simpa using hc
        simp only [List.takeWhile_cons, h, if_true, List.length_cons, List.drop_succ_cons]
        rcases ih with ih | ⟨ih, ih'⟩
        · left; rw [List.cons_append]; exact congrArg _ ih
        · right; exact ⟨congrArg _ ih, ih'⟩

theorem encodes_nil {v : Bytes} (h : Encodes [] v) : v = [] := by cases h; rfl

theorem eq_split {a b c d : Bytes} (h : a ++ 61 :: b = c ++ 61 :: d) (ha : (61 : UInt8) ∉ a) (hc : (61 : UInt8) ∉ c) : a = c ∧ b = d := by
  induction a generalizing c with
  | nil =>
    cases c with
    | nil => simpa using h
    | cons x c =>
      simp only [List.nil_append, List.cons_append, List.cons.injEq] at h
      exact absurd (by simp [h.1]) hc
  | cons y a ih =>
    cases c with
    | nil =>
      simp only [List.nil_append, List.cons_append, List.cons.injEq] at h
      exact absurd (by simp [h.1]) ha
    | cons x c =>
      simp only [List.cons_append, List.cons.injEq] at h
      simp only [List.mem_cons, not_or] at ha hc
      obtain ⟨h1, h2⟩ := ih h.2 ha.2 hc.2
      exact ⟨by rw [h.1, h1], h2⟩

/-- What the loop body computes of a key. -/
theorem key_arg {p : Bytes} (hp : p ≠ []) (n v : Bytes) :
    (queryUnescape (p.takeWhile (· != 61)) = some n ∧ queryUnescape (p.drop ((p.takeWhile (· != 61)).length + 1)) = some v) ↔ ArgOf p n v := by
  obtain ⟨en, ev, h1, h2, h3, h4⟩ := key_split p
  rw [h1, h2, queryUnescape_iff, queryUnescape_iff]
  constructor
  · rintro ⟨g1, g2⟩
    rcases h4 with h4 | ⟨rfl, rfl⟩
    · exact .inl ⟨en, ev, h4, h3, g1, g2⟩
    · exact .inr ⟨hp, h3, g1, encodes_nil g2⟩
  · rintro (⟨en', ev', e, g1, g2, g3⟩ | ⟨_, g1, g2, rfl⟩)
    · rcases h4 with h4 | ⟨rfl, rfl⟩
      · obtain ⟨rfl, rfl⟩ := eq_split (e.symm.trans h4) g1 h3
        exact ⟨g2, g3⟩
      · exact absurd (by rw [e]; simp) h3
    · rcases h4 with h4 | ⟨rfl, rfl⟩
      · exact absurd (by rw [h4]; simp) g1
      · exact ⟨g2, .nil⟩

theorem piece_total (p : Bytes) : ∃ x, IsPiece p x := by
  by_cases hp : p = []
  · exact ⟨.blank, hp⟩
  · by_cases h : ∃ n v, ArgOf p n v
    · obtain ⟨n, v, h⟩ := h
      exact ⟨.arg n v, h⟩
    · exact ⟨.broken, hp, fun n v hnv => h ⟨n, v, hnv⟩⟩

/-- C69: every text is a query string, so the theorems below are about all texts. -/
theorem C69_total (raw : Bytes) : ∃ ps, Query raw ps := by
  have h : ∀ l : List Bytes, ∃ ps, Pairs IsPiece l ps := by
    intro l
    induction l with
    | nil => exact ⟨[], .nil⟩
    | cons p l ih =>
      obtain ⟨ps, h⟩ := ih
      obtain ⟨x, hx⟩ := piece_total p
      exact ⟨x :: ps, .cons hx h⟩
  obtain ⟨ps, h⟩ := h (splitAny [38, 59] raw)
  exact ⟨ps, (sepBy_iff _ _).2 h⟩

theorem key_one {s : Bytes} (h : ∀ c ∈ s, c ∉ ([38, 59] : List UInt8)) : s.takeWhile (fun c => c != 38 && c != 59) = s := by
  induction s with
  | nil => rfl
  | cons b s ih =>
    simp only [List.mem_cons, forall_eq_or_imp, List.not_mem_nil, or_false, not_or] at h ih
    simp [h.1.1, h.1.2, ih h.2]

theorem key_more {s r : Bytes} {c : UInt8} (h : ∀ c ∈ s, c ∉ ([38, 59] : List UInt8)) (hc : c ∈ ([38, 59] : List UInt8)) :
    (s ++ c :: r).takeWhile (fun c => c != 38 && c != 59) = s ∧ (s ++ c :: r).drop (s.length + 1) = r := by
  constructor
  · induction s with
    | nil => simp only [List.mem_cons, List.not_mem_nil, or_false] at hc; rcases hc with rfl | rfl <;> rfl
    | cons b s ih =>
      simp only [List.mem_cons, forall_eq_or_imp, List.not_mem_nil, or_false, not_or] at h ih
      simp [h.1.1, h.1.2, ih h.2]
  · simp

/-- One piece through the loop body. -/
theorem loop_piece {p rest : Bytes} {x : Piece} (hx : IsPiece p x) (m : GoMap) (err : Option Err) :
    (if p = [] then parseQueryLoop rest m err
      else match queryUnescape (p.takeWhile (· != 61)) with
        | none => parseQueryLoop rest m (some (err.getD errEscape))
        | some n =>
          match queryUnescape (p.drop ((p.takeWhile (· != 61)).length + 1)) with
          | none => parseQueryLoop rest m (some (err.getD errEscape))
          | some v => parseQueryLoop rest (m.append n [v]) err) =
      parseQueryLoop rest (addPairs m (argsOf [x])) (if x = .broken then some (err.getD errEscape) else err) := by
  cases x with
  | blank => rw [if_pos (show p = [] from hx)]; simp [argsOf, addPairs]
  | arg n v =>
    have hp : p ≠ [] := by
      rcases hx with ⟨en, ev, rfl, _⟩ | ⟨h, _⟩
      · simp
      · exact h
    obtain ⟨h1, h2⟩ := (key_arg hp n v).2 hx
    rw [if_neg hp, h1]
    simp only [h2]
    simp [argsOf, addPairs]
  | broken =>
    obtain ⟨hp, hno⟩ := hx
    rw [if_neg hp]
    simp only [argsOf, addPairs, List.filterMap_cons, List.filterMap_nil, List.foldl_nil, if_true]
    split
    · rfl
    · rename_i n h1
      split
      · rfl
      · rename_i v h2
        exact absurd ((key_arg hp n v).1 ⟨h1, h2⟩) (hno n v)

theorem loop_query {raw : Bytes} {ps : List Piece} (h : Query raw ps) : ∀ (m : GoMap) (err : Option Err),
    parseQueryLoop raw m err = (addPairs m (argsOf ps), if .broken ∈ ps then some (err.getD errEscape) else err) := by
  have hnil : ∀ m err, parseQueryLoop [] m err = (m, err) := by
    intro m err; rw [parseQueryLoop]; simp
  have hargs : ∀ (x : Piece) (l : List Piece), argsOf (x :: l) = argsOf [x] ++ argsOf l := by
    intro x l; cases x <;> simp [argsOf]
  induction h with
  | @one s x h1 h2 =>
    intro m err
    rw [parseQueryLoop]
    split
    · rename_i hs
      subst hs
      cases x with
      | blank => simp [argsOf, addPairs]
      | arg n v => rcases h2 with ⟨en, ev, e, _⟩ | ⟨e, _⟩ <;> simp at e
      | broken => exact absurd rfl h2.1
    · simp only [key_one h1, List.drop_eq_nil_of_le (Nat.le_succ s.length)]
      refine (loop_piece h2 m err).trans ?_
      rw [hnil]
      simp [eq_comm]
  | @more s r x l c h1 h2 hc _ ih =>
    intro m err
    rw [parseQueryLoop]
    rw [dif_neg (by simp)]
    obtain ⟨e1, e2⟩ := key_more (r := r) h1 hc
    simp only [e1, e2]
    refine (loop_piece h2 m err).trans ?_
    rw [ih, hargs x l, addPairs_append]
    by_cases hb : x = .broken
    · subst hb; simp
    · simp [hb, show ¬ Piece.broken = x from fun e => hb e.symm]

/-- `ParseQuery` on any text. -/
theorem parseQuery_query {raw : Bytes} {ps : List Piece} (h : Query raw ps) :
    parseQuery raw = (addPairs [] (argsOf ps), if .broken ∈ ps then some errEscape else none) := by
  simpa [parseQuery] using loop_query h [] none

/-- The values and names `f` selects of the arguments `cs`. -/
structure Spec.Shown (f : Filter) (cs : List (Bytes × Bytes)) (vals names : List Bytes) : Prop where
  values : vals.Perm ((cs.filter fun c => f.keep c.1).map Prod.snd)
  once : names.Nodup
  names : ∀ k, k ∈ names ↔ k ∈ cs.map Prod.fst ∧ f.keep k = true

theorem shown_pairs (f : Filter) (o : IterOrd) (cs : List (Bytes × Bytes)) :
    Shown f cs (f.fetch o (addPairs [] cs)) (f.names o (addPairs [] cs)) where
  values := by
    refine (f.fetch_perm _ _).trans ?_
    simpa using addPairs_values [] cs f.keep
  once := f.names_nodup _ _
  names k := by
    rw [f.mem_names, addPairs_keys]
    simp

/-- C69, the full claim: every argument of the query string is shown, i.e. there are
as many values as there are non-empty pieces. -/
def C69_statement : Prop :=
  ∀ (env : Env) (t : Tx) (u : URL) (ps : List Piece) (vals : List Bytes) (t' : Tx), env.lib.parseQuery = parseQuery → t.url = some u →
    Query u.rawQuery ps → (Var.argsGet {}).fetch env t = .ok (vals, t') → vals.length = (ps.filter fun x => x ≠ .blank).length

/-- C69, exactly: ARGS_GET and ARGS_GET_NAMES show (for any selector) the arguments
of the query string, percent-decoded; the pieces that are not well-formed are
missing. -/
theorem C69_exact {env : Env} (hl : env.lib.parseQuery = parseQuery) {t : Tx} {u : URL} (hu : t.url = some u) {ps : List Piece}
    (hq : Query u.rawQuery ps) (f : Filter) :
    ∃ vals names, (Var.argsGet f).fetch env t = .ok (vals, t) ∧ (Var.argsGetNames f).fetch env t = .ok (names, t) ∧
      Shown f (argsOf ps) vals names := by
  refine ⟨f.fetch env.ord (addPairs [] (argsOf ps)), f.names env.ord (addPairs [] (argsOf ps)), ?_, ?_, shown_pairs f _ _⟩ <;>
    simp only [Var.fetch, fetchArgsGet, fetchArgsGetNames, hu, hl, parseQuery_query hq]

theorem args_length (ps : List Piece) (h : .broken ∉ ps) : (argsOf ps).length = (ps.filter fun x => x ≠ .blank).length := by
  induction ps with
  | nil => rfl
  | cons x ps ih =>
    simp only [List.mem_cons, not_or] at h
    have := ih h.2
    cases x with
    | blank => simpa [argsOf] using this
    | arg n v => simpa [argsOf] using this
    | broken => exact absurd rfl h.1

/-- C69, what is true: the claim holds for query strings whose pieces are all
well-formed. -/
theorem C69_well_formed_partial {env : Env} (hl : env.lib.parseQuery = parseQuery) {t t' : Tx} {u : URL} (hu : t.url = some u)
    {ps : List Piece} (hq : Query u.rawQuery ps) (hw : .broken ∉ ps) {vals : List Bytes}
    (h : (Var.argsGet {}).fetch env t = .ok (vals, t')) : vals.length = (ps.filter fun x => x ≠ .blank).length := by
  obtain ⟨vals', names, h1, _, h3⟩ := C69_exact hl hu hq {}
  rw [h1] at h
  cases h
  have hk : ∀ k, ({} : Filter).keep k = true := fun k => rfl
  have e : ((argsOf ps).filter fun c => ({} : Filter).keep c.1) = argsOf ps := List.filter_eq_self.2 fun c _ => hk c.1
  rw [h3.values.length_eq, List.length_map, e, args_length ps hw]

/-- C69 for bodies: on first reading, the arguments of an urlencoded body within the
memory limit are all shown if all its pieces are well-formed, and otherwise none. -/
theorem C69_body {env : Env} (hl : env.lib.parseQuery = parseQuery) {t : Tx} (h : BodyReadable env.limits t)
    (hu : b!"application/x-www-form-urlencoded" <+: mediaType env.lib t) (hm : t.reqBody.fileBuf = none)
    (hc : t.cache.lookup .urlencoded = none) {ps : List Piece} (hq : Query t.reqBody.memBuf ps) (f : Filter) :
    (.broken ∉ ps → ∃ vals names t', (Var.argsPost f).fetch env t = .ok (vals, t') ∧ (Var.argsPostNames f).fetch env t = .ok (names, t') ∧
      Shown f (argsOf ps) vals names) ∧
    (.broken ∈ ps → ∃ t', (Var.argsPost f).fetch env t = .ok ([], t')) := by
  have hp := parseQuery_query hq
  constructor
  · intro hw
    obtain ⟨t', h1, h2⟩ := C44_args_post env t h hu hm hc (by rw [hl, hp, if_neg hw]) f
    rw [hl, hp] at h1 h2
    exact ⟨_, _, t', h1, h2, shown_pairs f _ _⟩
  · intro hw
    obtain ⟨t1, h1, _⟩ := C46_malformed env f t errEscape ⟨h, hu, hm, hc, by rw [hl, hp, if_pos hw]⟩
    exact ⟨t1, h1⟩

/-- The sample environment with the real query parser. -/
def Sample.queryEnv : Env := { env with lib := { lib with parseQuery := parseQuery } }

theorem broken_piece : Query b!"a=%" [.broken] := by
  refine .one (by decide) ⟨by decide, fun n v h => ?_⟩
  have := (key_arg (p := b!"a=%") (by decide) n v).2 h
  have h2 := this.2
  exact absurd h2 (by rw [show queryUnescape (b!"a=%".drop ((b!"a=%".takeWhile (· != 61)).length + 1)) = none from rfl]; simp)

theorem C69_refuted : ¬ C69_statement := by
  intro h
  let t : Tx := { newTransaction limits with url := some { rawQuery := b!"a=%" } }
  obtain ⟨vals, _, h1, _, h3⟩ := C69_exact (env := queryEnv) rfl (t := t) rfl broken_piece {}
  have := h queryEnv t _ [.broken] vals t rfl rfl broken_piece h1
  have h4 := h3.values.length_eq
  rw [this] at h4
  simp [argsOf] at h4

/-- Query strings with encoded bytes, a repeated name, a bare name, both
separators and empty pieces. -/
example : parseQuery b!"a=1&b%20c=%41%2b+;a=2&&d&=x" =
    ([(b!"a", [b!"1", b!"2"]), (b!"b c", [b!"A+ "]), (b!"d", [[]]), ([], [b!"x"])], none) := by decide +kernel

/-- Evasion: with one character appended to it an argument is not inspected by ARGS
rules any more. -/
example :
    let rs := rules [(2, { vars := [.argsGet {}], op := some (.rx ⟨b!"evil", fun s => b!"evil".isPrefixOf s⟩), actions := [.deny] })]
    let go := fun q => (txOf (Tx.steps queryEnv rs 99 (newTransaction limits)
      [.processRequestURL (some { rawQuery := q }) b!"GET" b!"HTTP/1.1", .processRequestHeader none])).map fun t => t.intervention.disruptive
    go b!"a=evil" = some true ∧ go b!"a=evil%" = some false := by
  decide +kernel

end Verif
