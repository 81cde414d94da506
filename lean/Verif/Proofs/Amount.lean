import Verif.Props.RequestUri
import Verif.Props.Query
import Verif.Spec.Growth
import Verif.Proofs.Growth
import Verif.Proofs.Filter
import Verif.Proofs.Cookies
import Verif.Model.Query
import Verif.Model.Url
import Verif.Model.Media
/-! How much the variables show. -/
namespace Verif
open Spec

theorem size_nil : size [] = 0 := rfl
theorem size_cons (v : Bytes) (vs : List Bytes) : size (v :: vs) = v.length + 1 + size vs := by simp [size]
theorem size_append (a b : List Bytes) : size (a ++ b) = size a + size b := by simp [size]
theorem size_perm {a b : List Bytes} (h : a.Perm b) : size a = size b := (h.map _).sum_nat
theorem size_sublist {a b : List Bytes} (h : a.Sublist b) : size a ≤ size b := by
  induction h with
  | slnil => exact Nat.le_refl _
  | cons v _ ih => rw [size_cons]; omega
  | cons_cons v _ ih => rw [size_cons, size_cons]; omega
theorem length_le_size : ∀ vs : List Bytes, vs.length ≤ size vs
  | [] => by simp
  | v :: vs => by have := length_le_size vs; rw [size_cons, List.length_cons]; omega

/-- The values kept by a filter are among those of the map. -/
theorem size_fetch (f : Filter) (o : IterOrd) (m : GoMap) : size (f.fetch o m) ≤ size (m.flatMap Prod.snd) := by
  rw [size_perm (f.fetch_perm o m)]
  induction m with
  | nil => simp [size]
  | cons e m ih =>
    rw [List.filter_cons, List.flatMap_cons, size_append]
    split
    · rw [List.flatMap_cons, size_append]; omega
    · omega

theorem size_append_keys (m : GoMap) (k : Bytes) (v : List Bytes) : size ((m.append k v).map Prod.fst) ≤ size (m.map Prod.fst) + (k.length + 1) := by
  rw [GoMap.append_keys]
  split
  · omega
  · rw [size_append, size_cons, size_nil]; omega

theorem size_append_values (m : GoMap) (k : Bytes) (v : List Bytes) : size ((m.append k v).flatMap Prod.snd) = size (m.flatMap Prod.snd) + size v := by
  rw [size_perm (m.append_values k v), size_append]

theorem size_names (f : Filter) (o : IterOrd) (m : GoMap) : size (f.names o m) ≤ size (m.map Prod.fst) := by
  have key : ∀ (l res : GoMap), size ((l.foldl (fun res e => if f.keep e.1 then res.append e.1 e.2 else res) res).map Prod.fst) ≤
      size (res.map Prod.fst) + size (l.map Prod.fst) := by
    intro l
    induction l with
    | nil => intro res; simp [size]
    | cons e l ih =>
      intro res
      rw [List.foldl_cons, List.map_cons, size_cons]
      have h2 := size_append_keys res e.1 e.2
      by_cases hk : f.keep e.1 = true
      · rw [if_pos hk]
        have := ih (res.append e.1 e.2)
        omega
      · rw [if_neg hk]
        have := ih res
        omega
  rw [Filter.names, size_perm ((o.perm _).map _), Filter.fetchWithNames]
  have h := key (o.run m) []
  rw [size_perm ((o.perm m).map _)] at h
  simpa [size] using h

theorem queryUnescape_length : ∀ {s r : Bytes}, queryUnescape s = some r → r.length ≤ s.length := by
  intro s
  fun_induction queryUnescape s with
  | case1 => intro r h; cases h; simp
  | case2 a b r' _ ih =>
    intro r h
    obtain ⟨x, hx, rfl⟩ := Option.map_eq_some_iff.1 h
    have := ih hx
    simp; omega
  | case3 => intro r h; cases h
  | case4 => intro r h; cases h
  | case5 r _ ih =>
    intro x h
    obtain ⟨x, hx, rfl⟩ := Option.map_eq_some_iff.1 h
    have := ih hx
    simp; omega
  | case6 c r _ _ ih =>
    intro x h
    obtain ⟨x, hx, rfl⟩ := Option.map_eq_some_iff.1 h
    have := ih hx
    simp; omega

/-- A query has no more to show than its bytes. -/
theorem parseQueryLoop_size (q : Bytes) (m : GoMap) (e : Option Err) {a b : Nat} (ha : size (m.flatMap Prod.snd) ≤ a) (hb : size (m.map Prod.fst) ≤ b) :
    size ((parseQueryLoop q m e).1.flatMap Prod.snd) ≤ a + (q.length + 1) ∧
      size ((parseQueryLoop q m e).1.map Prod.fst) ≤ b + (q.length + 1) ∧
      (q = [] → (parseQueryLoop q m e).1 = m) := by
  induction hn : q.length using Nat.strongRecOn generalizing q m e a b with
  | _ n ih =>
    rw [parseQueryLoop]
    split
    · refine ⟨by dsimp only; omega, by dsimp only; omega, fun _ => rfl⟩
    rename_i hq
    have hpos : q.length ≠ 0 := fun e => hq (List.length_eq_zero_iff.1 e)
    dsimp only
    have hkey : (q.takeWhile fun c => c != 38 && c != 59).length ≤ q.length := (List.takeWhile_prefix _).length_le
    generalize hk : (q.takeWhile fun c => c != 38 && c != 59) = key at *
    have hrest : (q.drop (key.length + 1)).length = q.length - (key.length + 1) := by simp
    generalize hr : q.drop (key.length + 1) = rest at *
    -- the rest of the query, given what the first piece added
    have go : ∀ (m' : GoMap) (e' : Option Err), size (m'.flatMap Prod.snd) ≤ a + (key.length + 1) → size (m'.map Prod.fst) ≤ b + (key.length + 1) →
        size ((parseQueryLoop rest m' e').1.flatMap Prod.snd) ≤ a + (n + 1) ∧ size ((parseQueryLoop rest m' e').1.map Prod.fst) ≤ b + (n + 1) ∧
          (q = [] → (parseQueryLoop rest m' e').1 = m) := by
      intro m' e' h1 h2
      obtain ⟨g1, g2, g3⟩ := ih rest.length (by omega) rest m' e' h1 h2 rfl
      by_cases hz : rest = []
      · rw [g3 hz]
        exact ⟨by omega, by omega, fun h => absurd h hq⟩
      · have : rest.length ≠ 0 := fun e => hz (List.length_eq_zero_iff.1 e)
        exact ⟨by omega, by omega, fun h => absurd h hq⟩
    split
    · exact go m e (by omega) (by omega)
    split
    · exact go m _ (by omega) (by omega)
    split
    · exact go m _ (by omega) (by omega)
    · rename_i _ nm hnm _ v hv
      have l1 := queryUnescape_length hnm
      have l2 := queryUnescape_length hv
      have l3 : (key.takeWhile (· != 61)).length ≤ key.length := (List.takeWhile_prefix _).length_le
      rw [List.length_drop] at l2
      refine go _ e ?_ ?_
      · rw [size_append_values, size_cons, size_nil]; omega
      · have := size_append_keys m nm [v]; omega

theorem parseQuery_within (q : Bytes) : Within (q.length + 1) (parseQuery q).1 := by
  have := parseQueryLoop_size q [] none (a := 0) (b := 0) (by simp [size]) (by simp [size])
  exact ⟨by simpa [parseQuery] using this.1, by simpa [parseQuery] using this.2.1⟩

theorem trimSpace_length (s : Bytes) : (trimSpace s).length ≤ s.length := by
  obtain ⟨l, r, h, _, _⟩ := trimSpace_split s
  have := congrArg List.length h
  simp at this; omega

theorem size_split (sep : UInt8) : ∀ s, size (splitByte sep s) = s.length + 1
  | [] => rfl
  | b :: s => by
    have ih := size_split sep s
    rw [splitByte]
    split
    · rw [size_cons, ih, List.length_cons, List.length_nil]; omega
    · split
      · rename_i h; exact absurd h (splitByte_ne_nil _ _)
      · rename_i w ws h
        rw [h, size_cons] at ih
        rw [size_cons, List.length_cons, List.length_cons]; omega

theorem cookiePair_length (p : Bytes) : (cookiePair p).1.length ≤ p.length ∧ (cookiePair p).2.length ≤ p.length := by
  have : (p.takeWhile (· != 61)).length ≤ p.length := (List.takeWhile_prefix _).length_le
  simp only [cookiePair]
  split <;> simp <;> omega

theorem readCookiePart_size (p : Bytes) (m : GoMap) :
    size ((readCookiePart m p).flatMap Prod.snd) ≤ size (m.flatMap Prod.snd) + (p.length + 1) ∧
      size ((readCookiePart m p).map Prod.fst) ≤ size (m.map Prod.fst) + (p.length + 1) := by
  have h1 := trimSpace_length p
  have h2 := cookiePair_length (trimSpace p)
  simp only [readCookiePart]
  split
  · exact ⟨by omega, by omega⟩
  · have := size_append_keys m (cookiePair (trimSpace p)).1 [(cookiePair (trimSpace p)).2]
    rw [size_append_values, size_cons, size_nil]
    exact ⟨by omega, by omega⟩

theorem foldCookie_size : ∀ (ps : List Bytes) (m : GoMap),
    size ((ps.foldl readCookiePart m).flatMap Prod.snd) ≤ size (m.flatMap Prod.snd) + size ps ∧
      size ((ps.foldl readCookiePart m).map Prod.fst) ≤ size (m.map Prod.fst) + size ps
  | [], m => by simp [size]
  | p :: ps, m => by
    have h1 := readCookiePart_size p m
    have h2 := foldCookie_size ps (readCookiePart m p)
    rw [List.foldl_cons, size_cons]
    exact ⟨by omega, by omega⟩

theorem readCookieLine_size (l : Bytes) (m : GoMap) :
    size ((readCookieLine m l).flatMap Prod.snd) ≤ size (m.flatMap Prod.snd) + (l.length + 1) ∧
      size ((readCookieLine m l).map Prod.fst) ≤ size (m.map Prod.fst) + (l.length + 1) := by
  have h1 := trimSpace_length l
  have h2 := size_split 59 (trimSpace l)
  have h3 := foldCookie_size (splitByte 59 (trimSpace l)) m
  simp only [readCookieLine]
  split
  · exact ⟨by omega, by omega⟩
  · exact ⟨by omega, by omega⟩

/-- The cookies have no more to show than the Cookie lines. -/
theorem readCookie_within (h : GoMap) : Within (size ((h.get? b!"Cookie").getD [])) (readCookie h) := by
  have key : ∀ (ls : List Bytes) (m : GoMap),
      size ((ls.foldl readCookieLine m).flatMap Prod.snd) ≤ size (m.flatMap Prod.snd) + size ls ∧
        size ((ls.foldl readCookieLine m).map Prod.fst) ≤ size (m.map Prod.fst) + size ls := by
    intro ls
    induction ls with
    | nil => intro m; simp [size]
    | cons l ls ih =>
      intro m
      have h1 := readCookieLine_size l m
      have h2 := ih (readCookieLine m l)
      rw [List.foldl_cons, size_cons]
      exact ⟨by omega, by omega⟩
  simp only [readCookie]
  cases h.get? b!"Cookie" with
  | none => simp [Within, size]
  | some ls => simpa [Within, size] using key ls []

theorem pctEscape_length (f : UInt8 → Bool) : ∀ s, (pctEscape f s).length ≤ 3 * s.length
  | [] => by simp [pctEscape]
  | c :: s => by
    have := pctEscape_length f s
    rw [pctEscape]
    split <;> simp <;> omega

theorem pathUnescape_length : ∀ {s r : Bytes}, pathUnescape s = some r → s.length ≤ 3 * r.length := by
  intro s
  fun_induction pathUnescape s with
  | case1 => intro r h; cases h; simp
  | case2 a b r' _ ih =>
    intro r h
    obtain ⟨x, hx, rfl⟩ := Option.map_eq_some_iff.1 h
    have := ih hx
    simp; omega
  | case3 => intro r h; cases h
  | case4 => intro r h; cases h
  | case5 c r _ ih =>
    intro x h
    obtain ⟨x, hx, rfl⟩ := Option.map_eq_some_iff.1 h
    have := ih hx
    simp; omega

theorem escapedPath_length (u : URL) : u.escapedPath.length ≤ 3 * u.path.length := by
  unfold URL.escapedPath
  split
  · rename_i h; exact pathUnescape_length h.2.2
  split
  · rename_i h; rw [h]; decide
  · exact pctEscape_length _ _

theorem urlString_length (u : URL) (h1 : u.scheme = []) (h2 : u.host = []) (h3 : u.opaque_ = []) (h4 : u.user = none) :
    (urlString u).length ≤ 3 * u.path.length + u.rawQuery.length + 3 * u.fragment.length + 4 := by
  have e1 := escapedPath_length u
  have e2 := pctEscape_length escapeInFragment u.fragment
  simp only [urlString, h1, h2, h3, h4, ne_eq, not_true_eq_false, or_false, and_false, if_false, List.nil_append]
  repeat' split
  all_goals (simp only [List.length_append, List.length_cons, List.length_nil]; omega)

theorem basename_length (p : Bytes) : (basename p).length ≤ p.length + 1 := by
  have h1 : ((p.reverse.dropWhile isPathSeparator).reverse).length ≤ p.length := by
    rw [List.length_reverse, ← List.length_reverse (as := p)]; exact (List.dropWhile_suffix _).length_le
  have h2 : ∀ q : Bytes, ((q.reverse.takeWhile (fun b => !isPathSeparator b)).reverse).length ≤ q.length := by
    intro q; rw [List.length_reverse, ← List.length_reverse (as := q)]; exact (List.takeWhile_prefix _).length_le
  have h3 := h2 ((p.reverse.dropWhile isPathSeparator).reverse)
  simp only [basename]
  repeat' split
  all_goals first | (simp; done) | omega

theorem natDigits_length (n : Nat) : (natDigits n).length ≤ n + 1 := by
  fun_induction natDigits n with
  | case1 n _ => simp
  | case2 n _ ih => simp; omega

theorem itoa_length (n : Nat) : (itoa (n : Int)).length ≤ n + 1 := by
  rw [itoa, if_neg (by omega)]
  exact natDigits_length n

theorem mediaHead_length (hi : Rune → Rune) (s : Bytes) : (mediaHead hi s).length ≤ 4 * s.length := by
  have h1 := trimSpace_length (toLower hi (s.takeWhile (· != 59)))
  have h2 := length_le_weight 4 (toLower hi (s.takeWhile (· != 59)))
  have h3 := weight_lower (m := 4) (by omega) (.inl (Nat.le_refl 4)) (hi := hi) (s.takeWhile (· != 59))
  have h4 := weight_le (m := 4) (by omega) (s.takeWhile (· != 59))
  have h5 : (s.takeWhile (· != 59)).length ≤ s.length := (List.takeWhile_prefix _).length_le
  unfold mediaHead
  omega

theorem parseMediaType_length (hi : Rune → Rune) (s : Bytes) : (parseMediaType hi s).1.length ≤ 4 * s.length := by
  have := mediaHead_length hi s
  simp only [parseMediaType]
  repeat' split
  all_goals first | (simp; done) | exact this

end Verif
