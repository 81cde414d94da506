import Verif.Props.Padded
import Verif.Props.Encoding
/-! C146: the order in which things are sent. -/
namespace Verif
open Sample Spec

/-- The names and values in a map, one by one. -/
def Spec.entriesOf (m : GoMap) : List (Bytes × Bytes) := m.flatMap fun e => e.2.map fun v => (e.1, v)

/-- The same names, and the same values of each, in any order. -/
def Spec.Mixed (m m' : GoMap) : Prop := (entriesOf m).Perm (entriesOf m') ∧ ∀ n, n ∈ m.map Prod.fst ↔ n ∈ m'.map Prod.fst

/-- The second call says the same as the first but for the order: of the request headers (the Content-Type that counts stays
the same), of the arguments in the query, of the response headers. -/
inductive Spec.Reordered (lib : Lib) : Op → Op → Prop
  | same (op : Op) : Reordered lib op op
  | query {u : URL} {q : Bytes} (m p : Bytes) : Mixed (lib.parseQuery u.rawQuery).1 (lib.parseQuery q).1 →
      Reordered lib (.processRequestURL (some u) m p) (.processRequestURL (some { u with rawQuery := q }) m p)
  | headers {h h' : GoMap} : h.WF → h'.WF → Mixed h h' → SameType (some h) h' → Reordered lib (.processRequestHeader (some h)) (.processRequestHeader (some h'))
  | response {h h' : GoMap} (c : Int) (p : Bytes) : Mixed h h' → Reordered lib (.processResponseHeaders c p (some h)) (.processResponseHeaders c p (some h'))

/-- No rule looks at the query as a whole, or at the first of several headers of the response. -/
def Spec.Unordered (dirs : List PDir) : Prop := ∀ p ∈ rulesIn dirs, ∀ v ∈ p.vars, apart v.tk = true

/-! ### Maps that differ in order -/

theorem Spec.Mixed.refl (m : GoMap) : Mixed m m := ⟨.refl _, fun _ => .rfl⟩

theorem entries_values (m : GoMap) (keep : Bytes → Bool) :
    (m.filter fun e => keep e.1).flatMap Prod.snd = ((entriesOf m).filter fun e => keep e.1).map Prod.snd := by
  induction m with
  | nil => rfl
  | cons e m ih =>
    simp only [entriesOf, List.flatMap_cons, List.filter_append, List.map_append] at ih ⊢
    rw [List.filter_cons, ← ih]
    cases hk : keep e.1 with
    | true =>
      have : e.2.filter (fun _ => true) = e.2 := List.filter_eq_self.2 fun _ _ => rfl
      simp [List.filter_map, Function.comp_def, hk, this]
    | false => simp [List.filter_map, Function.comp_def, hk]

theorem mixed_values {m m' : GoMap} (h : Mixed m m') (P : Bytes → Prop) (vals : List Bytes) : ValuesIn P m vals ↔ ValuesIn P m' vals := by
  refine exists_congr fun keep => and_congr_right fun _ => ?_
  rw [entries_values, entries_values]
  have := (h.1.filter fun e => keep e.1).map Prod.snd
  exact ⟨fun g => g.trans this, fun g => g.trans this.symm⟩

theorem mixed_names {m m' : GoMap} (h : Mixed m m') (P : Bytes → Prop) (vals : List Bytes) : NamesIn P m vals ↔ NamesIn P m' vals :=
  and_congr_right fun _ => forall_congr' fun k => by rw [h.2 k]

theorem Spec.Mixed.append {m m' r r' : GoMap} (h : Mixed m m') (hr : Mixed r r') : Mixed (m ++ r) (m' ++ r') := by
  refine ⟨?_, fun n => ?_⟩
  · simpa only [entriesOf, List.flatMap_append] using h.1.append hr.1
  · simp only [List.map_append, List.mem_append, h.2, hr.2]

/-- The values of one name. -/
theorem entries_find {m : GoMap} (hw : m.WF) (name : Bytes) :
    ((m.find? fun e => e.1 == name).map Prod.snd).getD [] = ((entriesOf m).filter fun e => e.1 == name).map Prod.snd := by
  rw [← entries_values m fun k => k == name]
  induction m with
  | nil => rfl
  | cons e m ih =>
    simp only [GoMap.WF, List.map_cons, List.nodup_cons] at hw
    cases hk : e.1 == name with
    | true =>
      have he : e.1 = name := by simpa using hk
      have : m.filter (fun e => e.1 == name) = [] := by
        refine List.filter_eq_nil_iff.2 fun x hx hc => ?_
        have hc : x.1 = name := by simpa using hc
        exact hw.1 (by rw [he, ← hc]; exact List.mem_map_of_mem hx)
      simp [hk, this]
    | false =>
      simp only [List.find?_cons, List.filter_cons, hk]
      exact ih hw.2

theorem mixed_find {m m' : GoMap} (hw : m.WF) (hw' : m'.WF) (h : Mixed m m') (name : Bytes) :
    (((m.find? fun e => e.1 == name).map Prod.snd).getD []).Perm (((m'.find? fun e => e.1 == name).map Prod.snd).getD []) := by
  rw [entries_find hw, entries_find hw']
  exact (h.1.filter _).map _

/-! ### Facts that differ in order -/

/-- What was told differs in order only. -/
structure Spec.OrderAside (lib : Lib) (k k' : Facts) : Prop where
  src : k'.srcIp = k.srcIp
  port : k'.srcPort = k.srcPort
  method : k'.method = k.method
  proto : k'.proto = k.proto
  status : k'.status = k.status
  respProto : k'.respProto = k.respProto
  path : (k'.url.map fun u => u.path) = k.url.map fun u => u.path
  query : Mixed (k.url.toList.flatMap fun u => (lib.parseQuery u.rawQuery).1) (k'.url.toList.flatMap fun u => (lib.parseQuery u.rawQuery).1)
  headers : Mixed (k.headers.getD []) (k'.headers.getD [])
  cookies : (cookieLines k).Perm (cookieLines k')
  response : Mixed (k.respHeaders.getD []) (k'.respHeaders.getD [])

theorem Spec.OrderAside.refl (lib : Lib) (k : Facts) : OrderAside lib k k :=
  ⟨rfl, rfl, rfl, rfl, rfl, rfl, rfl, .refl _, .refl _, .refl _, .refl _⟩

theorem aside_told {lib : Lib} {k k' : Facts} {op op' : Op} (h : OrderAside lib k k') (ho : Reordered lib op op') : OrderAside lib (told k op) (told k' op') := by
  obtain ⟨a1, a0, a2, a3, a4, a5, a6, a7, a8, a9, a10⟩ := h
  cases ho with
  | same =>
    cases op
    case processConnection => exact ⟨rfl, rfl, a2, a3, a4, a5, a6, a7, a8, a9, a10⟩
    case processRequestURL => exact ⟨a1, a0, rfl, rfl, a4, a5, rfl, .refl _, a8, a9, a10⟩
    case processRequestHeader h =>
      cases h <;> exact ⟨a1, a0, a2, a3, a4, a5, a6, a7, .refl _, .refl _, a10⟩
    case processResponseHeaders c p h =>
      cases h <;> exact ⟨a1, a0, a2, a3, rfl, rfl, a6, a7, a8, a9, .refl _⟩
    all_goals exact ⟨a1, a0, a2, a3, a4, a5, a6, a7, a8, a9, a10⟩
  | query m p hq => exact ⟨a1, a0, rfl, rfl, a4, a5, rfl, by simpa [told] using hq, a8, a9, a10⟩
  | headers hw hw' hc _ => exact ⟨a1, a0, a2, a3, a4, a5, a6, a7, hc, mixed_find hw hw' hc _, a10⟩
  | response c p hc => exact ⟨a1, a0, a2, a3, rfl, rfl, a6, a7, a8, a9, hc⟩

theorem cookie_pairs {ls : List Bytes} {cs : List (Bytes × Bytes)} (h : CookieLines ls cs) :
    cs = ls.flatMap fun l => (splitByte 59 l).flatMap fun p => if trimSpace p = [] then [] else [cookiePair (trimSpace p)] := by
  induction h with
  | nil => rfl
  | cons hl _ ih => rw [List.flatMap_cons, ← ih, ← hl.pairs]

theorem aside_cookies {ls ls' : List Bytes} (h : ls.Perm ls') {Q : List (Bytes × Bytes) → Prop} (hQ : ∀ cs cs', cs.Perm cs' → Q cs → Q cs')
    (hx : ∃ cs, CookieLines ls cs ∧ Q cs) : ∃ cs, CookieLines ls' cs ∧ Q cs := by
  obtain ⟨cs, h1, h2⟩ := hx
  obtain ⟨cs', h3⟩ := C42_every_line ls'
  refine ⟨cs', h3, hQ cs cs' ?_ h2⟩
  rw [cookie_pairs h1, cookie_pairs h3]
  exact h.flatMap_right _

theorem pairs_mixed {cs cs' : List (Bytes × Bytes)} (h : cs.Perm cs') : Mixed (cs.map fun c => (c.1, [c.2])) (cs'.map fun c => (c.1, [c.2])) := by
  refine ⟨?_, fun n => ?_⟩
  · have := (h.map fun c => (c.1, [c.2])).flatMap_right (fun e : Bytes × List Bytes => e.2.map fun v => (e.1, v))
    exact this
  · simp only [List.map_map]
    exact (h.map _).mem_iff

/-- The variables show the same. -/
theorem aside_lists {lib : Lib} {k k' : Facts} (h : OrderAside lib k k') {P : Bytes → Prop} {tk : VarTok} (ht : apart tk = true) (vals : List Bytes) :
    Lists lib k P vals tk ↔ Lists lib k' P vals tk := by
  have hp := h.path
  cases tk
  case queryString => cases ht
  case requestUri => cases ht
  case responseContentType => cases ht
  case responseContentLength => cases ht
  case requestHeaders => exact mixed_values h.headers P vals
  case responseHeaders => exact mixed_values h.response P vals
  case argsGet => exact mixed_values h.query P vals
  case responseHeadersNames => exact mixed_names h.response P vals
  case argsGetNames => exact mixed_names h.query P vals
  case requestHeadersNames =>
    refine mixed_names ?_ P vals
    cases hu : k.url <;> cases hu' : k'.url <;> simp only [hu, hu', Option.map_none, Option.map_some, reduceCtorEq] at hp
    · exact .refl _
    · simpa using h.headers
  case requestCookies =>
    have key : ∀ cs cs' : List (Bytes × Bytes), cs.Perm cs' → ValuesIn P (cs.map fun c => (c.1, [c.2])) vals → ValuesIn P (cs'.map fun c => (c.1, [c.2])) vals :=
      fun _ _ hc => (mixed_values (pairs_mixed hc) P vals).1
    exact ⟨aside_cookies h.cookies key, aside_cookies h.cookies.symm key⟩
  case requestCookiesNames =>
    have key : ∀ cs cs' : List (Bytes × Bytes), cs.Perm cs' → NamesIn P cs vals → NamesIn P cs' vals := by
      rintro cs cs' hc ⟨h1, h2⟩
      exact ⟨h1, fun k => by rw [h2, (hc.map Prod.fst).mem_iff]⟩
    exact ⟨aside_cookies h.cookies key, aside_cookies h.cookies.symm key⟩
  case requestBasename =>
    simp only [Lists]
    cases hu : k.url <;> cases hu' : k'.url <;> simp only [hu, hu', Option.map_none, Option.map_some, reduceCtorEq, Option.some.injEq] at hp ⊢
    rw [hp]
  case requestFilename =>
    have e : (k'.url.toList.map fun u => u.path) = k.url.toList.map fun u => u.path := by
      rw [← Option.toList_map, ← Option.toList_map, hp]
    simp only [Lists, shows, e]
  all_goals simp only [Lists, shows, h.src, h.method, h.proto, h.status, h.respProto]

/-! ### One machine, told the same in another order -/

section
variable {K : Type} {S : Sight K}

theorem reordered_phase {lib : Lib} {op op' : Op} (h : Reordered lib op op') : phaseOf op' = phaseOf op := by
  cases h <;> rfl

theorem aside_call {lib : Lib} {R : K → K → Prop} (hR : ∀ k k' op op', R k k' → Reordered lib op op' → R (S.learn k op) (S.learn k' op'))
    (hsrc : ∀ k k', R k k' → (S.facts k).srcIp = (S.facts k').srcIp ∧ (S.facts k).srcPort = (S.facts k').srcPort)
    {cs : List (List PRule)} (hh : ∀ k k', R k k' → ∀ c ∈ cs, ∀ p ∈ c, S.holds k p ↔ S.holds k' p) {op op' : Op} (ho : Reordered lib op op')
    {m : Mach K} {k' : K} (hm : R m.known k') :
    ∃ j, R (call S cs m op).1.known j ∧ (call S cs (m.knowing k') op').1 = (call S cs m op).1.knowing j ∧ (call S cs (m.knowing k') op').2 = (call S cs m op).2 := by
  have hk := hR _ _ _ _ hm ho
  have o1 := reordered_phase ho
  refine ⟨S.learn k' op', ?_⟩
  cases hq : phaseOf op with
  | some q =>
    simp only [call, hq, o1.trans hq]
    by_cases h1 : q ≤ m.phase
    · rw [if_pos h1, if_pos (show q ≤ (m.knowing k').phase from h1)]
      exact ⟨hk, rfl, rfl⟩
    · rw [if_neg h1, if_neg (show ¬ q ≤ (m.knowing k').phase from h1)]
      by_cases h2 : m.aborted = true
      · rw [if_pos h2, if_pos (show (m.knowing k').aborted = true from h2)]
        exact ⟨hk, rfl, rfl⟩
      · rw [if_neg h2, if_neg (show ¬ (m.knowing k').aborted = true from h2)]
        refine ⟨by rw [walk_known]; exact hk, ?_, rfl⟩
        exact walk_knowing (m := goto q { m with known := S.learn m.known op }) (hsrc _ _ hk)
          fun c hc => hh _ _ hk c (List.mem_filter.1 hc).1
  | none =>
    cases ho with
    | query => exact ⟨hk, rfl, rfl⟩
    | headers => cases hq
    | response => cases hq
    | same =>
    have hs := hsrc _ _ hk
    cases op <;> simp only [phaseOf, reduceCtorEq] at hq <;> simp only [call, phaseOf, and_true]
    case result =>
      by_cases h2 : m.aborted = true
      · simp only [Mach.knowing, h2, if_true, and_true]
        exact hk
      · simp only [Mach.knowing, h2, if_false, Bool.false_eq_true, and_true]
        exact hk
    case abortWithError =>
      refine ⟨hk, ?_⟩
      simp only [say, Mach.knowing, hs.1, hs.2]
    case logf =>
      refine ⟨hk, ?_⟩
      simp only [say, Mach.knowing, hs.1, hs.2]
    case intervention => exact ⟨hk, rfl, rfl⟩
    all_goals exact ⟨hk, rfl⟩

theorem aside_run {lib : Lib} {R : K → K → Prop} (hR : ∀ k k' op op', R k k' → Reordered lib op op' → R (S.learn k op) (S.learn k' op'))
    (hsrc : ∀ k k', R k k' → (S.facts k).srcIp = (S.facts k').srcIp ∧ (S.facts k).srcPort = (S.facts k').srcPort)
    {cs : List (List PRule)} (hh : ∀ k k', R k k' → ∀ c ∈ cs, ∀ p ∈ c, S.holds k p ↔ S.holds k' p) {ops ops' : List Op} (ho : Pairs (Reordered lib) ops ops') :
    ∀ {m : Mach K} {k' : K}, R m.known k' → (Spec.run S cs (m.knowing k') ops').2 = (Spec.run S cs m ops).2 := by
  induction ho with
  | nil => intro _ _ _; rfl
  | cons h _ ih =>
    intro m k' hm
    obtain ⟨j, g1, g2, g3⟩ := aside_call (S := S) hR hsrc hh h hm
    simp only [Spec.run]
    rw [g3, g2, ih g1]

end

theorem unordered_holds {lib : Lib} {L L' : (Bytes → Prop) → List Bytes → VarTok → Prop} (hL : ∀ P vals tk, apart tk = true → (L P vals tk ↔ L' P vals tk))
    {p : PRule} (hp : ∀ v ∈ p.vars, apart v.tk = true) : HoldsBy lib L p ↔ HoldsBy lib L' p :=
  exists_congr fun v => and_congr_right fun hv => exists_congr fun _ => and_congr_left fun _ =>
    exists_congr fun vals => and_congr_left fun _ => hL _ vals _ (hp v hv)

/-- C146 for rules that read no body: two histories of calls that say the same in another order are shown the same verdicts. -/
theorem C146_reordered {lib : Lib} {vo : VarOrd} {ord : IterOrd} {text : Bytes} {dirs : List PDir} (ht : Program text dirs)
    (hok : ∀ d ∈ dirs, DirOk lib d) (hv : ∀ p ∈ rulesIn dirs, ∀ v ∈ p.vars, readsBody v.tk = false) (hret : NoReturn (chainsOf (rulesIn dirs)))
    (ha : Unordered dirs) {ops ops' : List Op} (ho : Pairs (Reordered lib) ops ops') :
    ShowsBoth (· = ·) lib vo ord text ((chainsOf (rulesIn dirs)).length + 2) ops ops' := by
  obtain ⟨set, h1, h2⟩ := C87_machine (vo := vo) (ord := ord) ht hok hv hret
  refine ⟨set, h1, fun n hn => ?_⟩
  obtain ⟨t, os, tr, g1, g2⟩ := h2 ops n hn
  obtain ⟨t', os', tr', g1', g2'⟩ := h2 ops' n hn
  refine ⟨t, t', os, os', tr, tr', g1, g1', ?_⟩
  rw [g2, g2']
  exact (aside_run (R := OrderAside lib) (fun _ _ _ _ => aside_told) (fun _ _ h => ⟨h.src.symm, h.port.symm⟩)
    (fun k k' h c hc p hp => unordered_holds (lib := lib) (L := Lists lib k) (L' := Lists lib k') (fun P vals tk ht => aside_lists h ht vals) (ha p (mem_chainsOf hc hp))) ho
    (m := { known := {} }) (k' := {}) (.refl _ _)).symm

/-! ### Bodies -/

structure Spec.KnownAside (lib : Lib) (k k' : Known) : Prop where
  facts : OrderAside lib k.facts k'.facts
  req : k'.req = k.req
  resp : k'.resp = k.resp
  type : firstValue k'.facts.headers b!"Content-Type" = firstValue k.facts.headers b!"Content-Type"

theorem Spec.KnownAside.refl (lib : Lib) (k : Known) : KnownAside lib k k := ⟨.refl _ _, rfl, rfl, rfl⟩

theorem aside_learn {lib : Lib} {k k' : Known} {op op' : Op} (h : KnownAside lib k k') (ho : Reordered lib op op') :
    KnownAside lib (learn k op) (learn k' op') := by
  have hf := aside_told h.facts ho
  obtain ⟨a1, a2, a3, a4⟩ := h
  cases ho with
  | same =>
    cases op
    case appendRequestBody => exact ⟨a1, by simp only [learn, a2], a3, a4⟩
    case appendResponseBody =>
      simp only [learn, a3]
      split
      · exact ⟨a1, a2, rfl, a4⟩
      · exact ⟨a1, a2, a3, a4⟩
    case processRequestHeader h => cases h <;> exact ⟨hf, a2, a3, rfl⟩
    case processResponseHeaders c p h => cases h <;> exact ⟨hf, a2, a3, a4⟩
    all_goals exact ⟨hf, a2, a3, a4⟩
  | query => exact ⟨hf, a2, a3, a4⟩
  | headers _ _ _ ht => exact ⟨hf, a2, a3, ht⟩
  | response => exact ⟨hf, a2, a3, a4⟩

theorem aside_posted {lib : Lib} {k k' : Known} (h : KnownAside lib k k') (req : Bool) : (Posted req k' ↔ Posted req k) ∧ declared lib k' = declared lib k := by
  simp only [Posted, declared, h.facts.method, h.req, h.type, and_self]

theorem aside_listsAll {lib : Lib} {req resp : Bool} {k k' : Known} (h : KnownAside lib k k') {P : Bytes → Prop} {tk : VarTok} (ht : apart tk = true)
    (vals : List Bytes) : ListsAll lib req resp k P vals tk ↔ ListsAll lib req resp k' P vals tk := by
  obtain ⟨e1, e2⟩ := aside_posted h req
  have e3 : ∀ m, PostArgs lib req k' m ↔ PostArgs lib req k m := fun m => by simp only [PostArgs, e1, e2, h.req]
  have e4 : BodyShown lib req k' ↔ BodyShown lib req k := by simp only [BodyShown, e1, h.type]
  have hget : Mixed (getArgs lib k) (getArgs lib k') := h.facts.query
  have g := aside_lists (P := P) h.facts ht vals
  cases tk
  case requestBody => simp only [ListsAll, e4, h.req]
  case responseBody => simp only [ListsAll, h.resp]
  case argsPost => simp only [ListsAll, e3]
  case argsPostNames => simp only [ListsAll, e3]
  case args => simp only [ListsAll, e3, fun m => mixed_values (hget.append (.refl m)) P vals]
  case argsNames => simp only [ListsAll, e3, fun a => mixed_names hget P a]
  all_goals exact g

theorem aside_listsForm {lib : Lib} {req resp : Bool} {fs : List (Bytes × Bytes)} {k k' : Known} (h : KnownAside lib k k') {P : Bytes → Prop} {tk : VarTok}
    (ht : apart tk = true) (vals : List Bytes) : ListsForm lib req resp fs k P vals tk ↔ ListsForm lib req resp fs k' P vals tk := by
  have e1 := (aside_posted h req).1
  have e3 : ∀ m, SentArgs req fs k' m ↔ SentArgs req fs k m := fun m => by simp only [SentArgs, e1]
  have hget : Mixed (getArgs lib k) (getArgs lib k') := h.facts.query
  have g := aside_listsAll (req := req) (resp := resp) (P := P) h ht vals
  cases tk
  case argsPost => simp only [ListsForm, e3]
  case argsPostNames => simp only [ListsForm, e3]
  case args => simp only [ListsForm, e3, fun m => mixed_values (hget.append (.refl m)) P vals]
  case argsNames => simp only [ListsForm, e3, fun a => mixed_names hget P a]
  all_goals exact g

theorem reordered_sent {lib : Lib} {ops ops' : List Op} (h : Pairs (Reordered lib) ops ops') : sent false ops' = sent false ops := by
  induction h with
  | nil => rfl
  | cons h _ ih =>
    cases h <;> simp_all [sent, chunkOf]

theorem reordered_known {lib : Lib} {ops ops' : List Op} (h : Pairs (Reordered lib) ops ops') : ∀ {k k' : Known}, KnownAside lib k k' →
    KnownAside lib (ops.foldl learn k) (ops'.foldl learn k') := by
  induction h with
  | nil => exact id
  | cons h _ ih => exact fun hk => ih (aside_learn hk h)

theorem reordered_split {lib : Lib} {ops : List Op} : ∀ {pre' post' : List Op}, Pairs (Reordered lib) ops (pre' ++ post') →
    ∃ pre post, ops = pre ++ post ∧ Pairs (Reordered lib) pre pre' ∧ Pairs (Reordered lib) post post'
  | [], _, h => ⟨[], ops, rfl, .nil, h⟩
  | _ :: _, _, h => by
    cases h with
    | cons h1 h2 =>
      obtain ⟨pre, post, rfl, h3, h4⟩ := reordered_split h2
      exact ⟨_ :: pre, post, rfl, .cons h1 h3, h4⟩

theorem reordered_settled {lib : Lib} {q : Int} {ops ops' : List Op} (h : Pairs (Reordered lib) ops ops') (hf : FormSettled lib q ops) : FormSettled lib q ops' where
  low := hf.low
  high := hf.high
  wellFormed := by
    rw [(reordered_known h (.refl lib {})).req]
    exact hf.wellFormed
  settled := by
    rintro pre' p io post' rfl o ho q' hq
    obtain ⟨pre, post, rfl, h1, h2⟩ := reordered_split h
    cases h2 with
    | cons h3 h4 =>
      cases h3
      obtain ⟨o', h5, h6⟩ := h1.right o ho
      exact hf.settled _ _ _ _ rfl o' h5 q' ((reordered_phase h6).symm.trans hq)
  plain := by
    rintro pre' ⟨post', rfl⟩
    obtain ⟨pre, post, rfl, h1, _⟩ := reordered_split h
    rw [(aside_posted (reordered_known h1 (.refl lib {})) true).2]
    exact hf.plain pre (List.prefix_append _ _)

/-- C146 likewise with bodies of up to 131072 bytes, if rules read arguments from the body only once the form is settled, and
well-formed. -/
theorem C146_bodies {lib : Lib} {vo : VarOrd} {ord : IterOrd} {text : Bytes} {dirs : List PDir} (ht : Program text dirs)
    (hok : ∀ d ∈ dirs, DirOk lib d) (hret : NoReturn (chainsOf (rulesIn dirs))) (ha : Unordered dirs) {ops ops' : List Op}
    (ho : Pairs (Reordered lib) ops ops') {q : Int} (hsize : (sent false ops).length ≤ 131072)
    (hform : ∀ c ∈ chainsOf (rulesIn dirs), 1 ≤ chainPhase c → (∃ p ∈ c, ∃ v ∈ p.vars, readsArgs v.tk = true) → q ≤ chainPhase c ∧ FormSettled lib q ops) :
    ShowsBoth (· = ·) lib vo ord text ((chainsOf (rulesIn dirs)).length + 2) ops ops' := by
  obtain ⟨set, h1, h2⟩ := C88_machine (vo := vo) (ord := ord) ht hok hret
  refine ⟨set, h1, fun n hn => ?_⟩
  obtain ⟨t, os, tr, g1, g2⟩ := h2 hsize hform n hn
  obtain ⟨t', os', tr', g1', g2'⟩ := h2 (ops := ops') (q := q) (reordered_sent ho ▸ hsize)
    (fun c h3 h4 h5 => (hform c h3 h4 h5).imp id fun h => reordered_settled ho h) n hn
  refine ⟨t, t', os, os', tr, tr', g1, g1', ?_⟩
  rw [g2, g2']
  exact (aside_run (R := KnownAside lib) (fun _ _ _ _ => aside_learn) (fun _ _ h => ⟨h.facts.src.symm, h.facts.port.symm⟩)
    (fun k k' h c hc p hp => unordered_holds (lib := lib) (L := ListsAll lib _ _ k) (L' := ListsAll lib _ _ k') (fun P vals tk ht => aside_listsAll h ht vals) (ha p (mem_chainsOf hc hp))) ho
    (m := { known := {} }) (k' := {}) (.refl _ _)).symm

theorem reordered_form {lib : Lib} {q : Int} {bnd : Bytes} {ps : List (Option Bytes × Bytes)} {ops ops' : List Op} (h : Pairs (Reordered lib) ops ops')
    (hf : FormSent q bnd ps ops) : FormSent q bnd ps ops' where
  low := hf.low
  high := hf.high
  settled := by
    rintro pre' p io post' rfl o ho q' hq
    obtain ⟨pre, post, rfl, h1, h2⟩ := reordered_split h
    cases h2 with
    | cons h3 h4 =>
      cases h3
      obtain ⟨o', h5, h6⟩ := h1.right o ho
      exact hf.settled _ _ _ _ rfl o' h5 q' ((reordered_phase h6).symm.trans hq)
  boundary := hf.boundary
  declared := by
    rintro pre' ⟨post', rfl⟩ ⟨o, ho, p, hp, hq⟩
    obtain ⟨pre, post, rfl, h1, _⟩ := reordered_split h
    obtain ⟨o', h5, h6⟩ := h1.right o ho
    have hk := reordered_known h1 (.refl lib {})
    have := hf.declared pre (List.prefix_append _ _) ⟨o', h5, p, (reordered_phase h6).symm.trans hp, hq⟩
    simpa only [BoundaryIs, Declares, headerGet_first, hk.type] using this
  form := by
    rw [reordered_sent h]
    exact hf.form

/-- C146 likewise with a multipart form. -/
theorem C146_multipart {lib : Lib} (hm : lib.ReadsMedia) (hl : lib.ReadsForms) {vo : VarOrd} {ord : IterOrd} {text : Bytes} {dirs : List PDir}
    (ht : Program text dirs) (hok : ∀ d ∈ dirs, DirOk lib d) (hret : NoReturn (chainsOf (rulesIn dirs))) (ha : Unordered dirs) {ops ops' : List Op}
    (ho : Pairs (Reordered lib) ops ops') {q : Int} {bnd : Bytes} {ps : List (Option Bytes × Bytes)} (hf : ReadsSentForm (chainsOf (rulesIn dirs)) q bnd ps ops) :
    ShowsBoth (· = ·) lib vo ord text ((chainsOf (rulesIn dirs)).length + 2) ops ops' := by
  obtain ⟨set, h1, h2⟩ := C133_machine hm hl (vo := vo) (ord := ord) ht hok hret
  refine ⟨set, h1, fun n hn => ?_⟩
  obtain ⟨t, os, tr, g1, g2⟩ := h2 hf.size hf.form n hn
  obtain ⟨t', os', tr', g1', g2'⟩ := h2 (ops := ops') (q := q) (bnd := bnd) (ps := ps) (reordered_sent ho ▸ hf.size)
    (fun c h3 h4 h5 => (hf.form c h3 h4 h5).imp id fun h => reordered_form ho h) n hn
  refine ⟨t, t', os, os', tr, tr', g1, g1', ?_⟩
  rw [g2, g2']
  exact (aside_run (R := KnownAside lib) (fun _ _ _ _ => aside_learn) (fun _ _ h => ⟨h.facts.src.symm, h.facts.port.symm⟩)
    (fun k k' h c hc p hp => unordered_holds (lib := lib) (L := ListsForm lib _ _ _ k) (L' := ListsForm lib _ _ _ k') (fun P vals tk ht => aside_listsForm h ht vals) (ha p (mem_chainsOf hc hp))) ho
    (m := { known := {} }) (k' := {}) (.refl _ _)).symm

/-! ### The pieces of a query -/

theorem append_entries (m : GoMap) (k v : Bytes) : (entriesOf (m.append k [v])).Perm (entriesOf m ++ [(k, v)]) := by
  induction m with
  | nil => simp [GoMap.append, entriesOf]
  | cons e m ih =>
    obtain ⟨k', l⟩ := e
    simp only [GoMap.append]
    split
    · rename_i hk
      subst hk
      simp only [entriesOf, List.flatMap_cons, List.map_append, List.map_cons, List.map_nil, List.append_assoc]
      exact List.perm_append_comm.append_left _
    · simp only [entriesOf, List.flatMap_cons, List.append_assoc] at ih ⊢
      exact ih.append_left _

theorem addPairs_entries (cs : List (Bytes × Bytes)) : ∀ m : GoMap, (entriesOf (addPairs m cs)).Perm (entriesOf m ++ cs) := by
  induction cs with
  | nil => intro m; simp [addPairs]
  | cons c cs ih =>
    intro m
    refine (ih (m.append c.1 [c.2])).trans (((append_entries m c.1 c.2).append_right cs).trans ?_)
    simp

/-- Queries with the same pieces in another order are queries that differ in order only. -/
theorem C146_pieces {x y : Bytes} {ps qs : List Piece} (hx : Query x ps) (hy : Query y qs) (ha : (argsOf ps).Perm (argsOf qs)) :
    Mixed (parseQuery x).1 (parseQuery y).1 := by
  rw [parseQuery_query hx, parseQuery_query hy]
  refine ⟨?_, fun n => ?_⟩
  · have h1 := addPairs_entries (argsOf ps) []
    have h2 := addPairs_entries (argsOf qs) []
    exact h1.trans (((List.Perm.refl _).append ha).trans h2.symm)
  · rw [addPairs_keys, addPairs_keys, (ha.map Prod.fst).mem_iff]

/-! ### The fields of a form -/

/-- C146 for the fields of an urlencoded form: two histories of calls that are the same but for request headers and the chunks of
the request body, by the time it is read forms with the same fields in another order, are shown the same verdicts, if no rule
looks at request headers, cookies or the bytes of the request body. -/
theorem C146_fields {lib : Lib} (hq : lib.parseQuery = parseQuery) {vo : VarOrd} {ord : IterOrd} {text : Bytes} {dirs : List PDir} (ht : Program text dirs)
    (hok : ∀ d ∈ dirs, DirOk lib d) (hret : NoReturn (chainsOf (rulesIn dirs))) (hv : ∀ r ∈ rulesIn dirs, ∀ v ∈ r.vars, pastEncoding v.tk = true)
    {ops ops' : List Op} {q : Int} {ps qs : List Piece} (ho : SameCalls ops ops') (hs : (sent false ops).length ≤ 131072) (hs' : (sent false ops').length ≤ 131072)
    (hf : (argsOf ps).Perm (argsOf qs)) (hform : ∀ c ∈ chainsOf (rulesIn dirs), 1 ≤ chainPhase c → (∃ p ∈ c, ∃ v ∈ p.vars, readsArgs v.tk = true) →
      q ≤ chainPhase c ∧ UrlSent lib q ps ops ∧ UrlSent lib q qs ops') :
    ShowsBoth (· = ·) lib vo ord text ((chainsOf (rulesIn dirs)).length + 2) ops ops' := by
  obtain ⟨set, h1, h2⟩ := C88_machine (vo := vo) (ord := ord) ht hok hret
  refine ⟨set, h1, fun n hn => ?_⟩
  obtain ⟨t, os, tr, g1, g2⟩ := h2 (ops := ops) (q := q) hs (fun c hc hp hr => ⟨(hform c hc hp hr).1, (hform c hc hp hr).2.1.settled⟩) n hn
  obtain ⟨t', os', tr', g1', g2'⟩ := h2 (ops := ops') (q := q) hs' (fun c hc hp hr => ⟨(hform c hc hp hr).1, (hform c hc hp hr).2.2.settled⟩) n hn
  refine ⟨t, t', os, os', tr, tr', g1, g1', g2.trans (.trans ?_ g2'.symm)⟩
  refine run_alike (S := bodySight lib (reqAccess dirs) (respAccess dirs)) (S' := bodySight lib (reqAccess dirs) (respAccess dirs)) rfl rfl rfl rfl
    (fun {pre pre' post post' op op' p} e e' hp hp' hpos hk c hc hcp r hr => ?_) ho (pre := []) (pre' := []) rfl rfl (m := { known := {} }) (Int.le_refl 0) rfl ⟨rfl, rfl⟩
  refine exists_congr fun v => and_congr_right fun hvr => exists_congr fun y => and_congr_left fun _ => exists_congr fun vals => and_congr_left fun _ => ?_
  have ht' := hv r (mem_chainsOf hc hr) v hvr
  by_cases ha : readsArgs v.tk = true
  · obtain ⟨hqp, hu, hw⟩ := hform c hc (by omega) ⟨r, hr, v, hvr, ha⟩
    have e1 := sent_settled e hp (hcp ▸ hqp) hu.settled.settled
    have e2 := sent_settled e' hp' (hcp ▸ hqp) hw.settled.settled
    have hty := hu.type (pre ++ [op]) ⟨post, by simpa using e.symm⟩ ⟨op, by simp, p, hp, hcp ▸ hqp⟩
    have hty' := hw.type (pre' ++ [op']) ⟨post', by simpa using e'.symm⟩ ⟨op', by simp, p, hp', hcp ▸ hqp⟩
    have hm : Mixed (lib.parseQuery ((pre ++ [op]).foldl learn ({} : Known)).req).1 (lib.parseQuery ((pre' ++ [op']).foldl learn ({} : Known)).req).1 := by
      rw [hq, e1, e2]
      exact C146_pieces hu.query hw.query hf
    generalize (pre ++ [op]).foldl learn ({} : Known) = k at hk hty hm ⊢
    generalize (pre' ++ [op']).foldl learn ({} : Known) = k' at hk hty' hm ⊢
    have hfk := hk.facts
    simp only [Facts.mk.injEq] at hfk
    have hget : getArgs lib k = getArgs lib k' := by simp only [getArgs, hfk.2.2.2.2.1]
    have hmeth : k.facts.method = k'.facts.method := hfk.2.2.2.2.2.1
    have hempty : ∀ {m : GoMap}, Mixed (lib.parseQuery []).1 m → m = [] := by
      intro m h
      have h0 : (lib.parseQuery []).1 = [] := by rw [hq]; simp [parseQuery, parseQueryLoop]
      rw [h0] at h
      cases m with
      | nil => rfl
      | cons x m => exact absurd ((h.2 x.1).2 (.head _)) (by simp)
    have hsym : ∀ {m m' : GoMap}, Mixed m m' → Mixed m' m := fun h => ⟨h.1.symm, fun n => (h.2 n).symm⟩
    have key : ∃ m m', PostArgs lib (reqAccess dirs) k m ∧ PostArgs lib (reqAccess dirs) k' m' ∧ Mixed m m' := by
      by_cases a1 : Posted (reqAccess dirs) k
      · by_cases a2 : Posted (reqAccess dirs) k'
        · exact ⟨_, _, .inl ⟨a1, hty, rfl⟩, .inl ⟨a2, hty', rfl⟩, hm⟩
        · have hz : k'.req = [] := Classical.byContradiction fun hc => a2 ⟨a1.1, hmeth ▸ a1.2.1, hc⟩
          rw [hz] at hm
          exact ⟨_, _, .inl ⟨a1, hty, rfl⟩, .inr ⟨fun h => a2 h.1, rfl⟩, by rw [hempty (hsym hm)]; exact .refl _⟩
      · by_cases a2 : Posted (reqAccess dirs) k'
        · have hz : k.req = [] := Classical.byContradiction fun hc => a1 ⟨a2.1, hmeth ▸ a2.2.1, hc⟩
          rw [hz] at hm
          exact ⟨_, _, .inr ⟨fun h => a1 h.1, rfl⟩, .inl ⟨a2, hty', rfl⟩, by rw [hempty hm]; exact .refl _⟩
        · exact ⟨_, _, .inr ⟨fun h => a1 h.1, rfl⟩, .inr ⟨fun h => a2 h.1, rfl⟩, .refl _⟩
    obtain ⟨m, m', k1, k2, k3⟩ := key
    have one : ∀ {Q : GoMap → Prop}, (∃ n, PostArgs lib (reqAccess dirs) k n ∧ Q n) ↔ Q m := fun {Q} => ⟨fun ⟨n, a, b⟩ => a.unique k1 ▸ b, fun h => ⟨m, k1, h⟩⟩
    have two : ∀ {Q : GoMap → Prop}, (∃ n, PostArgs lib (reqAccess dirs) k' n ∧ Q n) ↔ Q m' := fun {Q} => ⟨fun ⟨n, a, b⟩ => a.unique k2 ▸ b, fun h => ⟨m', k2, h⟩⟩
    generalize v.tk = tk at ha
    generalize Picked lib.rx _ = P
    cases tk <;> first | (cases ha; done) | skip
    · exact one.trans (.trans (by rw [hget]; exact mixed_values ((Mixed.refl _).append k3) P vals) two.symm)
    · exact one.trans ((mixed_values k3 P vals).trans (two (Q := fun n => ValuesIn P n vals)).symm)
    · exact one.trans ((mixed_names k3 P vals).trans (two (Q := fun n => NamesIn P n vals)).symm)
    · simp only [ListsAll]
      constructor
      · rintro ⟨n, a, b, x1, x2, x3, x4⟩
        rw [x1.unique k1] at x3
        exact ⟨m', a, b, k2, hget ▸ x2, (mixed_names k3 P b).1 x3, x4⟩
      · rintro ⟨n, a, b, x1, x2, x3, x4⟩
        rw [x1.unique k2] at x3
        exact ⟨m, a, b, k1, hget ▸ x2, (mixed_names k3 P b).2 x3, x4⟩
  · have hr' : readsArgs v.tk = false := by simpa using ha
    have := lists_alike (lib := lib) (a := reqAccess dirs) (b := respAccess dirs) (fs := []) hk (P := Picked lib.rx (selectors r.vars v.tk v.count)) ht' (fun h => absurd h ha) vals
    rwa [listsForm_plain hr'] at this

/-! ### Where order counts -/

/-- The query as a whole shows the order of its arguments. -/
theorem C146_query_counts :
    textVerdicts formLib b!"SecRule QUERY_STRING \"@rx a=1&b=2\" \"id:1,phase:2,deny\"\n" 9
      [.processRequestURL (some { path := b!"/", rawQuery := b!"a=1&b=2" }) b!"GET" [], .processRequestHeader none, .result] = some [true] ∧
    textVerdicts formLib b!"SecRule QUERY_STRING \"@rx a=1&b=2\" \"id:1,phase:2,deny\"\n" 9
      [.processRequestURL (some { path := b!"/", rawQuery := b!"b=2&a=1" }) b!"GET" [], .processRequestHeader none, .result] = some [false] := by
  decide +kernel

/-- The first Content-Type decides about the body. -/
theorem C146_type_counts :
    textVerdicts lib b!"SecRequestBodyAccess On\nSecRule REQUEST_BODY \"@rx evil\" \"id:1,phase:3,deny\"\n" 9
      (evilBody [b!"application/x-www-form-urlencoded", b!"text/plain"]) = some [true] ∧
    textVerdicts lib b!"SecRequestBodyAccess On\nSecRule REQUEST_BODY \"@rx evil\" \"id:1,phase:3,deny\"\n" 9
      (evilBody [b!"text/plain", b!"application/x-www-form-urlencoded"]) = some [false] := by
  decide +kernel

/-! ### Examples -/

/-- Lines with cookies in another order. -/
example (a b : Bytes) (vs : List Bytes) :
    ShowsBoth (· = ·) lib varOrd Sample.ord
      b!"SecRequestBodyAccess On\nSecRule REQUEST_COOKIES|!REQUEST_COOKIES:a \"@rx evil\" \"id:1,phase:3,deny\"\n" 3
      [.processRequestHeader (some [(b!"Cookie", [a, b]), (b!"X", vs)]), .processRequestBody, .result]
      [.processRequestHeader (some [(b!"X", vs), (b!"Cookie", [b, a])]), .processRequestBody, .result] := by
  refine C146_reordered (dirs := .reqBody true :: [evilIn [{ tk := .requestCookies }, { tk := .requestCookies, index := b!"a", exclusion := true }] false].map .rule)
    ((C53_exact id _ _).1 (by decide +kernel)) (exempt_ok ⟨_, rfl⟩ (by decide)) ?_ (strict_noReturn (exempt_strict _)) (fun p hp v hv => (padded_apart rfl p hp v hv).2)
    (.cons (.headers (by simp [GoMap.WF]) (by simp [GoMap.WF]) ⟨?_, fun n => ?_⟩ rfl) (.cons (.same _) (.cons (.same _) .nil)))
  · intro p hp v hv
    have hp : p ∈ [evilIn [{ tk := .requestCookies }, { tk := .requestCookies, index := b!"a", exclusion := true }] false] := hp
    rw [List.mem_singleton.1 hp] at hv
    simp only [evilIn, List.mem_cons, List.not_mem_nil, or_false] at hv
    rcases hv with rfl | rfl <;> rfl
  · simp only [entriesOf, List.flatMap_cons, List.flatMap_nil, List.map_cons, List.map_nil, List.append_nil]
    exact List.perm_append_comm.trans (.append_left _ (.swap _ _ _))
  · simp only [List.map_cons, List.map_nil, List.mem_cons, List.not_mem_nil, or_false]
    exact or_comm

/-- The fields of a form in another order. -/
example (x y x' y' : Bytes) (h : x ++ y = b!"a=1&b=evil") (h' : x' ++ y' = b!"b=evil&a=1") : ShowsBoth (· = ·) formLib varOrd Sample.ord
    b!"SecRequestBodyAccess On\nSecRule ARGS|!ARGS:a \"@rx evil\" \"id:1,phase:3,deny\"\n" 3 (formOps x y ++ [.result]) (formOps x' y' ++ [.result]) := by
  refine C146_fields (q := 3) (ps := [.arg b!"a" b!"1", .arg b!"b" b!"evil"]) (qs := [.arg b!"b" b!"evil", .arg b!"a" b!"1"])
    (dirs := .reqBody true :: [evilIn [{ tk := .args }, { tk := .args, index := b!"a", exclusion := true }] false].map .rule) rfl
    ((C53_exact id _ _).1 (by decide +kernel)) (exempt_ok ⟨_, rfl⟩ (by decide)) (strict_noReturn (exempt_strict _)) ?_
    (.same (by simp) (by simp) (.same (by simp) (by simp) (.header (.left (.left (.right (.right (.same (by simp) (by simp) (.same (by simp) (by simp) .nil)))))))))
    ?_ ?_ (.swap _ _ _) ?_
  · intro p hp v hv
    have hp : p ∈ [evilIn [{ tk := .args }, { tk := .args, index := b!"a", exclusion := true }] false] := hp
    rw [List.mem_singleton.1 hp] at hv
    simp only [evilIn, List.mem_cons, List.not_mem_nil, or_false] at hv
    rcases hv with rfl | rfl <;> rfl
  · have : sent false (formOps x y ++ [.result]) = b!"a=1&b=evil" := by rw [← h]; simp [formOps, sent, chunkOf]
    rw [this]; decide
  · have : sent false (formOps x' y' ++ [.result]) = b!"b=evil&a=1" := by rw [← h']; simp [formOps, sent, chunkOf]
    rw [this]; decide
  · intro c hc _ _
    have hc : c ∈ [[evilIn [{ tk := .args }, { tk := .args, index := b!"a", exclusion := true }] false]] := hc
    rw [List.mem_singleton.1 hc]
    refine ⟨by show (3 : Int) ≤ 3; omega, (formOps_alike formEnv_media rfl rfl ?_ (by decide)).result, (formOps_alike formEnv_media rfl rfl ?_ (by decide)).result⟩
    · rw [h]
      exact .more (s := b!"a=1") (c := 38) (r := b!"b=evil") (by decide) ((key_arg (p := b!"a=1") (by decide) _ _).1 ⟨by decide +kernel, by decide +kernel⟩) (by decide)
        (.one (by decide) ((key_arg (p := b!"b=evil") (by decide) _ _).1 ⟨by decide +kernel, by decide +kernel⟩))
    · rw [h']
      exact .more (s := b!"b=evil") (c := 38) (r := b!"a=1") (by decide) ((key_arg (p := b!"b=evil") (by decide) _ _).1 ⟨by decide +kernel, by decide +kernel⟩) (by decide)
        (.one (by decide) ((key_arg (p := b!"a=1") (by decide) _ _).1 ⟨by decide +kernel, by decide +kernel⟩))

end Verif
