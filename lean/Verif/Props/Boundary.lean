import Verif.Props.Media
import Verif.Props.RequestUri
import Verif.Proofs.Print
/-! C109 for boundaries that are given in pieces or with a character set, as RFC 2231 allows. -/
namespace Verif
open Sample Spec

/-! ### RFC 2231 -/

/-- `charset'language'text`, the text being percent-encoded, in a character set Go knows, and what it says. -/
def Spec.ExtValue (v d : Bytes) : Prop :=
  ∃ cs lang enc, v = cs ++ 39 :: (lang ++ 39 :: enc) ∧ 39 ∉ cs ∧ 39 ∉ lang ∧ (CaseVariant cs b!"us-ascii" ∨ CaseVariant cs b!"utf-8") ∧ PctText enc d

/-- Not of this form: less than two quotes, another character set, or a percent sign without digits. -/
def Spec.NoExtValue (v : Bytes) : Prop :=
  v.count 39 < 2 ∨ ∃ cs lang enc, v = cs ++ 39 :: (lang ++ 39 :: enc) ∧ 39 ∉ cs ∧ 39 ∉ lang ∧
    (Ascii cs ∧ ¬ CaseVariant cs b!"us-ascii" ∧ ¬ CaseVariant cs b!"utf-8" ∨ ¬ ∃ d, PctText enc d)

/-- There is such a parameter. -/
def Spec.HasParam (ps : List (Bytes × Bytes)) (name : Bytes) : Prop := ∃ v, (name, v) ∈ ps

/-- The name of a piece: `boundary*7`. -/
def Spec.pieceName (i : Nat) : Bytes := b!"boundary*" ++ digits i

/-- The pieces from the `i`th on, put together, up to the first that is missing.  A piece under
`boundary*7` is taken as it is, one under `boundary*7*` is percent-encoded, the very first being in
addition preceded by a character set; what cannot be decoded counts for nothing. -/
inductive Spec.Pieced (ps : List (Bytes × Bytes)) : Nat → Bytes → Prop
  | stop {i : Nat} : ¬ HasParam ps (pieceName i) → ¬ HasParam ps (pieceName i ++ [42]) → Pieced ps i []
  | plain {i : Nat} {v r : Bytes} : (pieceName i, v) ∈ ps → Pieced ps (i + 1) r → Pieced ps i (v ++ r)
  | first {v d r : Bytes} : ¬ HasParam ps (pieceName 0) → (pieceName 0 ++ [42], v) ∈ ps → ExtValue v d → Pieced ps 1 r → Pieced ps 0 (d ++ r)
  | firstBad {v r : Bytes} : ¬ HasParam ps (pieceName 0) → (pieceName 0 ++ [42], v) ∈ ps → NoExtValue v → Pieced ps 1 r → Pieced ps 0 r
  | coded {i : Nat} {v d r : Bytes} : ¬ HasParam ps (pieceName (i + 1)) → (pieceName (i + 1) ++ [42], v) ∈ ps → PctText v d → Pieced ps (i + 2) r →
      Pieced ps (i + 1) (d ++ r)
  | codedBad {i : Nat} {v r : Bytes} : ¬ HasParam ps (pieceName (i + 1)) → (pieceName (i + 1) ++ [42], v) ∈ ps → (¬ ∃ d, PctText v d) → Pieced ps (i + 2) r →
      Pieced ps (i + 1) r

/-- The value of `boundary`, if there is one. -/
def Spec.PlainBoundary (ps : List (Bytes × Bytes)) (bd : Bytes) : Prop := (b!"boundary", bd) ∈ ps ∨ ¬ HasParam ps b!"boundary" ∧ bd = []

/-- The boundary the parameters give: `boundary*` comes before pieces, pieces before `boundary`. -/
inductive Spec.BoundaryOf (ps : List (Bytes × Bytes)) : Bytes → Prop
  | extended {v d : Bytes} : (b!"boundary*", v) ∈ ps → ExtValue v d → BoundaryOf ps d
  | unreadable {v d : Bytes} : (b!"boundary*", v) ∈ ps → NoExtValue v → PlainBoundary ps d → BoundaryOf ps d
  | pieces {d : Bytes} : ¬ HasParam ps b!"boundary*" → HasParam ps (pieceName 0) ∨ HasParam ps (pieceName 0 ++ [42]) → Pieced ps 0 d → BoundaryOf ps d
  | plain {d : Bytes} : ¬ HasParam ps b!"boundary*" → ¬ HasParam ps (pieceName 0) → ¬ HasParam ps (pieceName 0 ++ [42]) → PlainBoundary ps d → BoundaryOf ps d

/-! ### The library -/

theorem percentHex_text {e raw : Bytes} : percentHexUnescape e = some raw ↔ PctText e raw := by
  constructor
  · intro h
    induction e using percentHexUnescape.induct generalizing raw with
    | case1 => cases h; exact .nil
    | case2 a b r hh ih =>
      rw [percentHexUnescape, if_pos rfl] at h
      simp only [hh, if_true, Option.map_eq_some_iff] at h
      obtain ⟨raw', h1, rfl⟩ := h
      simp only [Bool.and_eq_true] at hh
      obtain ⟨va, vb, e1, e2, e3⟩ := (hexByte_iff a b _).1 ⟨hh.1, hh.2, rfl⟩
      exact .hex e1 e2 e3 (ih h1)
    | case3 a b r hh =>
      rw [percentHexUnescape, if_pos rfl] at h
      simp only [hh] at h
      cases h
    | case4 r hr =>
      exfalso
      rw [percentHexUnescape.eq_def] at h
      rcases r with _ | ⟨a, _ | ⟨b, r⟩⟩
      · cases h
      · cases h
      · exact hr a b r rfl
    | case5 c r hc ih =>
      rw [percentHexUnescape.eq_def] at h
      simp only [if_neg hc] at h
      simp only [Option.map_eq_some_iff] at h
      obtain ⟨raw', h1, rfl⟩ := h
      exact .lit hc (ih h1)
  · intro h
    induction h with
    | nil => rfl
    | lit hc _ ih =>
      rw [percentHexUnescape.eq_def]
      simp only [if_neg hc, ih, Option.map_some]
    | hex h1 h2 h3 _ ih =>
      obtain ⟨e1, e2, e3⟩ := (hexByte_iff _ _ _).2 ⟨_, _, h1, h2, h3⟩
      rw [percentHexUnescape, if_pos rfl]
      simp only [e1, e2, Bool.and_self, if_true, ih, e3, Option.map_some]

theorem percentHex_none {e : Bytes} (h : ¬ ∃ d, PctText e d) : percentHexUnescape e = none := by
  cases hp : percentHexUnescape e with
  | none => rfl
  | some d => exact absurd ⟨d, percentHex_text.1 hp⟩ h

theorem decode_split (hi : Rune → Rune) {cs lang enc : Bytes} (h1 : 39 ∉ cs) (h2 : 39 ∉ lang) : decode2231Enc hi (cs ++ 39 :: (lang ++ 39 :: enc)) =
    if toLower hi cs = b!"us-ascii" ∨ toLower hi cs = b!"utf-8" then percentHexUnescape enc else none := by
  have tw : ∀ (a r : Bytes), 39 ∉ a → (a ++ 39 :: r).takeWhile (· != 39) = a := by
    intro a r ha
    rw [List.takeWhile_append_of_pos fun x hx => by simp only [bne_iff_ne]; rintro rfl; exact ha hx]
    simp
  simp only [decode2231Enc, tw _ _ h1, List.drop_left, tw _ _ h2]

theorem charset_case (hi : Rune → Rune) {cs n : Bytes} (hn : n.map lowerByte = n) (ha : Ascii cs) : toLower hi cs = n ↔ CaseVariant cs n := by
  have := lower_ascii hi ha
  simp only [transLowercase] at this
  rw [this, caseVariant_iff, hn]

theorem caseVariant_ascii {a b : Bytes} (h : CaseVariant a b) (hb : Ascii b) : Ascii a := by
  induction h with
  | nil => exact hb
  | cons hc _ ih =>
    intro x hx
    rcases List.mem_cons.1 hx with rfl | hx
    · have := hb _ List.mem_cons_self
      rcases hc with rfl | ⟨_, _, _⟩ | ⟨_, _, _⟩ <;> omega
    · exact ih (fun y hy => hb y (List.mem_cons_of_mem _ hy)) x hx

theorem decode_ext (hi : Rune → Rune) {v d : Bytes} (h : ExtValue v d) : decode2231Enc hi v = some d := by
  obtain ⟨cs, lang, enc, rfl, h1, h2, h3, h4⟩ := h
  rw [decode_split hi h1 h2, if_pos, percentHex_text.2 h4]
  exact h3.imp (fun h => (charset_case hi (by decide) (caseVariant_ascii h (by simp [Ascii]))).2 h) fun h => (charset_case hi (by decide) (caseVariant_ascii h (by simp [Ascii]))).2 h

theorem decode_noExt (hi : Rune → Rune) {v : Bytes} (h : NoExtValue v) : decode2231Enc hi v = none := by
  rcases h with h | ⟨cs, lang, enc, rfl, h1, h2, h3⟩
  · have split : ∀ s : Bytes, s.drop (s.takeWhile (· != 39)).length = [] ∨ ∃ r, s.drop (s.takeWhile (· != 39)).length = 39 :: r ∧ s.count 39 = r.count 39 + 1 := by
      intro s
      induction s with
      | nil => exact .inl rfl
      | cons c s ih =>
        by_cases hc : c = 39
        · subst hc
          exact .inr ⟨s, by simp, by simp⟩
        · have e : ((c :: s).takeWhile (· != 39)) = c :: s.takeWhile (· != 39) := by simp [hc]
          rw [e, List.length_cons, List.drop_succ_cons]
          refine ih.imp id ?_
          rintro ⟨r, h1, h2⟩
          exact ⟨r, h1, by rw [List.count_cons_of_ne hc, h2]⟩
    simp only [decode2231Enc]
    rcases split v with e | ⟨r, e, hr⟩
    · rw [e]
    · rw [e]
      simp only
      rcases split r with e' | ⟨r', e', hr'⟩
      · rw [e']
      · omega
  · rw [decode_split hi h1 h2]
    rcases h3 with ⟨ha, h3, h4⟩ | h3
    · rw [if_neg]
      rw [charset_case hi (by decide) ha, charset_case hi (by decide) ha]
      exact fun h => h.elim h3 h4
    · rw [percentHex_none h3, ite_self]

/-! ### Pieces -/

section
variable {ps : List (Bytes × Bytes)} (hd : Distinct ps)

theorem hasParam_none {k : Bytes} (h : ¬ HasParam ps k) : ps.lookup k = none := by
  cases hl : ps.lookup k with
  | none => rfl
  | some v =>
    have : (ps.lookup k).isSome = true := by rw [hl]; rfl
    obtain ⟨p, hp, rfl⟩ := List.mem_map.1 (lookup_isSome.1 this)
    exact absurd ⟨p.2, hp⟩ h

theorem pieceName_eq (i : Nat) : b!"boundary" ++ 42 :: itoa i = pieceName i := by
  have : itoa i = digits i := by
    rw [digits_eq]
    simp only [itoa]
    rw [if_neg (by omega)]
    rfl
  rw [this]; rfl

theorem digits_value (i : Nat) : Digits (digits i) ∧ digitSum (digits i) = i := by
  rw [digits_eq]; exact natDigits_spec i

theorem star_no_digit {i : Nat} : 42 ∉ digits i := fun h => absurd ((digits_value i).1.2 _ h).1 (by decide)

theorem pieceName_inj {i j : Nat} (h : pieceName i = pieceName j) : i = j := by
  have := List.append_cancel_left h
  rw [← (digits_value i).2, ← (digits_value j).2, this]

theorem pieceName_star {i j : Nat} : pieceName i ≠ pieceName j ++ [42] := by
  intro h
  rw [pieceName, pieceName, List.append_assoc] at h
  have := List.append_cancel_left h
  exact star_no_digit (i := i) (by rw [this]; simp)

/-- A piece with a number from `i` on. -/
def Later (i : Nat) (k : Bytes) : Prop := ∃ j, i ≤ j ∧ (k = pieceName j ∨ k = pieceName j ++ [42])

open Classical in
theorem later_count {i : Nat} {k v : Bytes} (hk : (k, v) ∈ ps) (h : k = pieceName i ∨ k = pieceName i ++ [42]) :
    ps.countP (fun p => decide (Later (i + 1) p.1)) < ps.countP (fun p => decide (Later i p.1)) := by
  have mono : ∀ l : List (Bytes × Bytes), l.countP (fun p => decide (Later (i + 1) p.1)) ≤ l.countP (fun p => decide (Later i p.1)) := by
    intro l
    refine List.countP_mono_left fun p _ hp => ?_
    obtain ⟨j, hj, hp⟩ := of_decide_eq_true hp
    exact decide_eq_true ⟨j, by omega, hp⟩
  obtain ⟨a, b, rfl⟩ := List.append_of_mem hk
  rw [List.countP_append, List.countP_append, List.countP_cons, List.countP_cons]
  have h1 : Later i k := ⟨i, Nat.le_refl _, h⟩
  have h2 : ¬ Later (i + 1) k := by
    rintro ⟨j, hj, h'⟩
    rcases h with rfl | rfl <;> rcases h' with h' | h'
    · have := pieceName_inj h'; omega
    · exact pieceName_star h'
    · exact pieceName_star h'.symm
    · have := pieceName_inj (List.append_cancel_right h'); omega
  have := mono a
  have := mono b
  simp only [h1, h2, decide_true, decide_false, if_true]
  simp
  omega

include hd

open Classical in
theorem stitch_pieced (hi : Rune → Rune) {i : Nat} {r : Bytes} (h : Pieced ps i r) : ∀ {n : Nat}, ps.countP (fun p => decide (Later i p.1)) ≤ n →
    stitch hi ps b!"boundary" n i = (r, decide (HasParam ps (pieceName i) ∨ HasParam ps (pieceName i ++ [42]))) := by
  induction h with
  | stop h1 h2 =>
    intro n hn
    cases n with
    | zero => simp [stitch, h1, h2]
    | succ n =>
      simp only [stitch, pieceName_eq, hasParam_none h1, hasParam_none h2]
      simp [h1, h2]
  | @plain i v r hv _ ih =>
    intro n hn
    have := later_count hv (.inl rfl)
    obtain ⟨n, rfl⟩ : ∃ m, n = m + 1 := ⟨n - 1, by omega⟩
    simp only [stitch, pieceName_eq, lookup_distinct hd hv]
    rw [ih (Nat.le_of_lt_succ (Nat.lt_of_lt_of_le this hn))]
    simp [show HasParam ps (pieceName i) from ⟨v, hv⟩]
  | @first v d r h1 hv he _ ih =>
    intro n hn
    have := later_count hv (.inr rfl)
    obtain ⟨n, rfl⟩ : ∃ m, n = m + 1 := ⟨n - 1, by omega⟩
    simp only [stitch, pieceName_eq, lookup_distinct hd hv, hasParam_none h1, if_true, decode_ext hi he]
    rw [ih (Nat.le_of_lt_succ (Nat.lt_of_lt_of_le this hn))]
    simp [show HasParam ps (pieceName 0 ++ [42]) from ⟨v, hv⟩]
  | @firstBad v r h1 hv he _ ih =>
    intro n hn
    have := later_count hv (.inr rfl)
    obtain ⟨n, rfl⟩ : ∃ m, n = m + 1 := ⟨n - 1, by omega⟩
    simp only [stitch, pieceName_eq, lookup_distinct hd hv, hasParam_none h1, if_true, decode_noExt hi he]
    rw [ih (Nat.le_of_lt_succ (Nat.lt_of_lt_of_le this hn))]
    simp [show HasParam ps (pieceName 0 ++ [42]) from ⟨v, hv⟩]
  | @coded i v d r h1 hv he _ ih =>
    intro n hn
    have := later_count hv (.inr rfl)
    obtain ⟨n, rfl⟩ : ∃ m, n = m + 1 := ⟨n - 1, by omega⟩
    simp only [stitch, pieceName_eq, lookup_distinct hd hv, hasParam_none h1, Nat.add_one_ne_zero, if_false, percentHex_text.2 he]
    rw [ih (Nat.le_of_lt_succ (Nat.lt_of_lt_of_le this hn))]
    simp [show HasParam ps (pieceName (i + 1) ++ [42]) from ⟨v, hv⟩]
  | @codedBad i v r h1 hv he _ ih =>
    intro n hn
    have := later_count hv (.inr rfl)
    obtain ⟨n, rfl⟩ : ∃ m, n = m + 1 := ⟨n - 1, by omega⟩
    simp only [stitch, pieceName_eq, lookup_distinct hd hv, hasParam_none h1, Nat.add_one_ne_zero, if_false, percentHex_none he]
    rw [ih (Nat.le_of_lt_succ (Nat.lt_of_lt_of_le this hn))]
    simp [show HasParam ps (pieceName (i + 1) ++ [42]) from ⟨v, hv⟩]

theorem paramValue_boundary (hi : Rune → Rune) {bd : Bytes} (h : BoundaryOf ps bd) : (paramValue hi ps b!"boundary").getD [] = bd := by
  have plain : ∀ {d}, PlainBoundary ps d → (ps.lookup b!"boundary").getD [] = d := by
    rintro d (h | ⟨h, rfl⟩)
    · rw [lookup_distinct hd h]; rfl
    · rw [hasParam_none h]; rfl
  cases h with
  | extended hv he => simp only [paramValue, lookup_distinct hd (k := b!"boundary" ++ [42]) hv, decode_ext hi he, Option.some_or, Option.getD_some]
  | unreadable hv he hp => simp only [paramValue, lookup_distinct hd (k := b!"boundary" ++ [42]) hv, decode_noExt hi he, Option.none_or, plain hp]
  | pieces h1 h2 h3 =>
    classical
    have := stitch_pieced hd hi h3 (n := ps.length) List.countP_le_length
    simp only [paramValue, hasParam_none (k := b!"boundary" ++ [42]) h1, this, decide_eq_true h2, if_true, Option.getD_some]
  | plain h1 h2 h3 h4 =>
    classical
    have := stitch_pieced hd hi (.stop h2 h3) (n := ps.length) List.countP_le_length
    have hn : ¬ (HasParam ps (pieceName 0) ∨ HasParam ps (pieceName 0 ++ [42])) := fun h => h.elim h2 h3
    simp only [paramValue, hasParam_none (k := b!"boundary" ++ [42]) h1, this, decide_eq_false hn, Bool.false_eq_true, if_false, plain h4]

end

/-! ### C109 -/

/-- C109, parameters in pieces: with parameters of different names and nothing but white space after
them, the body is taken apart at the boundary they give by RFC 2231. -/
theorem C109_pieces (env : Env) (t : Tx) (m params w bd : Bytes) (ps : List (Bytes × Bytes)) (form : GoMap) (pos : Nat) (f : Filter)
    (hl : env.lib.ReadsMedia) (hr : BodyReadable env.limits t) (hd : Declares t.reqHeader m params) (hm : MediaType m) (hp : b!"multipart/" <+: m)
    (hps : Params ps params w) (hds : Distinct ps) (hb : BoundaryOf ps bd) (hc : t.cache.lookup .multipart = none)
    (hf : env.lib.readForm t.reqBody.content bd env.limits.requestBodyInMem = (.ok form, pos)) (hw : Blank w) :
    ∃ t', (Var.argsPost f).fetch env t = .ok (f.fetch env.ord form, t') := by
  refine argsPost_boundary hr hc (declares_ne hd hm) ?_ hp hf f
  obtain ⟨h1, h2⟩ := names_head env.lib.lowerHi hd hm
  rw [hl]
  simp only [parseMediaType, h1, h2, (isMediaType_iff m).2 hm, Bool.not_true, Bool.false_eq_true, if_false, paramLoop_all hps hds hw,
    paramValue_boundary hds env.lib.lowerHi hb]

/-- C109, with a semicolon after the parameters: pieces and character sets are not looked at, only
`boundary` is. -/
theorem C109_semicolon (env : Env) (t : Tx) (m params w bd : Bytes) (ps : List (Bytes × Bytes)) (form : GoMap) (pos : Nat) (f : Filter)
    (hl : env.lib.ReadsMedia) (hr : BodyReadable env.limits t) (hd : Declares t.reqHeader m params) (hm : MediaType m) (hp : b!"multipart/" <+: m)
    (hps : Params ps params w) (hds : Distinct ps) (hb : PlainBoundary ps bd) (hc : t.cache.lookup .multipart = none)
    (hf : env.lib.readForm t.reqBody.content bd env.limits.requestBodyInMem = (.ok form, pos)) (hw : LoneSemicolon w) :
    ∃ t', (Var.argsPost f).fetch env t = .ok (f.fetch env.ord form, t') := by
  refine argsPost_boundary hr hc (declares_ne hd hm) ?_ hp hf f
  obtain ⟨h1, h2⟩ := names_head env.lib.lowerHi hd hm
  have plain : (ps.lookup b!"boundary").getD [] = bd := by
    rcases hb with h | ⟨h, rfl⟩
    · rw [lookup_distinct hds h]; rfl
    · rw [hasParam_none h]; rfl
  rw [hl]
  simp only [parseMediaType, h1, h2, (isMediaType_iff m).2 hm, Bool.not_true, Bool.false_eq_true, if_false, paramLoop_semicolon hps hds hw, plain]

/-- A list of parameters does not give two boundaries. -/
theorem C109_one_boundary {ps : List (Bytes × Bytes)} (hd : Distinct ps) {a b : Bytes} (ha : BoundaryOf ps a) (hb : BoundaryOf ps b) : a = b :=
  (paramValue_boundary hd id ha).symm.trans (paramValue_boundary hd id hb)

/-! ### Examples -/

/-- A parameter written without quotes or space. -/
theorem Sample.param_token (name value rest : Bytes) (hn : name ≠ []) (hv : value ≠ []) (h1 : name.all isTokenByte = true) (h2 : value.all isTokenByte = true)
    (hr : ∀ c ∈ rest.head?, ¬ TokenChar c) : Param (name.map small) value (b!";" ++ name ++ b!"=" ++ value) rest := by
  have tok : ∀ s : Bytes, s ≠ [] → s.all isTokenByte = true → MimeToken s := fun s hs h => ⟨hs, fun c hc => (token_iff c).1 (List.all_eq_true.1 h c hc)⟩
  have := Param.mk (w1 := []) (w2 := []) (w3 := []) (w4 := []) (name := name) (text := value) (value := value) (rest := rest)
    Blank.nil Blank.nil Blank.nil Blank.nil (tok name hn h1) (.token (tok value hv h2) hr)
  simpa using this

def Sample.splitParams : Bytes := b!";boundary=harmless;BOUNDARY*1*=%63;Boundary*0=ab"

theorem Sample.split_params : Params [(b!"boundary", b!"harmless"), (b!"boundary*1*", b!"%63"), (b!"boundary*0", b!"ab")] splitParams [] := by
  have semi : ∀ r : Bytes, ∀ c ∈ (b!";" ++ r).head?, ¬ TokenChar c := by
    intro r c hc
    cases hc
    exact fun h => absurd ((token_iff _).2 h) (by decide)
  have p3 : Params [(b!"boundary*0", b!"ab")] b!";Boundary*0=ab" [] :=
    .cons (text := b!";Boundary*0=ab") (s := []) (param_token b!"Boundary*0" b!"ab" [] (by decide) (by decide) (by decide) (by decide) (by intro c hc; cases hc)) .nil
  have p2 : Params [(b!"boundary*1*", b!"%63"), (b!"boundary*0", b!"ab")] b!";BOUNDARY*1*=%63;Boundary*0=ab" [] :=
    .cons (text := b!";BOUNDARY*1*=%63") (s := b!";Boundary*0=ab")
      (param_token b!"BOUNDARY*1*" b!"%63" _ (by decide) (by decide) (by decide) (by decide) (semi b!"Boundary*0=ab")) p3
  exact .cons (text := b!";boundary=harmless") (s := b!";BOUNDARY*1*=%63;Boundary*0=ab")
    (param_token b!"boundary" b!"harmless" _ (by decide) (by decide) (by decide) (by decide) (semi b!"BOUNDARY*1*=%63;Boundary*0=ab")) p2

/-- Pieces, in any order and mixed, come before a plain boundary. -/
theorem Sample.split_boundary : BoundaryOf [(b!"boundary", b!"harmless"), (b!"boundary*1*", b!"%63"), (b!"boundary*0", b!"ab")] b!"abc" := by
  have no : ∀ k : Bytes, k ∉ [b!"boundary", b!"boundary*1*", b!"boundary*0"] →
      ¬ HasParam [(b!"boundary", b!"harmless"), (b!"boundary*1*", b!"%63"), (b!"boundary*0", b!"ab")] k := by
    rintro k hk ⟨v, hv⟩
    exact hk (List.mem_map_of_mem (f := Prod.fst) hv)
  refine .pieces (no _ (by decide)) (.inl ⟨b!"ab", by decide⟩) ?_
  refine .plain (v := b!"ab") (r := b!"c") (by decide) ?_
  refine .coded (i := 0) (v := b!"%63") (d := b!"c") (r := []) (no _ (by decide)) (by decide) (percentHex_text.1 (by decide)) ?_
  exact .stop (no _ (by decide)) (no _ (by decide))

example : ∃ t', (Var.argsPost {}).fetch boundEnv (typed (b!"MultIpart/mixed" ++ splitParams) b!"--abc") = .ok ([b!"abc"], t') :=
  C109_pieces boundEnv (typed (b!"MultIpart/mixed" ++ splitParams) b!"--abc") b!"multipart/mixed" splitParams [] b!"abc" _ [(b!"b", [b!"abc"])] 0 {} rfl
    ⟨rfl, .inl rfl, by decide⟩ (mixed_declared _ (.inr ⟨_, rfl⟩)) mixed_media ⟨b!"mixed", rfl⟩ split_params (by simp [Distinct]) split_boundary rfl rfl Blank.nil

example : BoundaryOf [(b!"boundary*", b!"UTF-8'en'a%62c")] b!"abc" :=
  .extended (v := b!"UTF-8'en'a%62c") (by decide) ⟨b!"UTF-8", b!"en", b!"a%62c", rfl, by decide, by decide, .inr ((caseVariant_iff _ _).2 (by decide)), percentHex_text.1 (by decide)⟩

end Verif
