import Verif.Props.Unread
import Verif.Props.Transforms
import Verif.Props.RequestUri
/-! C122: a disguise that the transformations of a rule undo makes no difference. -/
namespace Verif
open Sample Spec

/-! ### What a variable shows through transformations -/

open Classical in
/-- The values of the entries kept look the same through `g`, in any order. -/
def Spec.LikeValues (g : Bytes → Bytes) (f : Filter) (m m' : GoMap) : Prop :=
  (((m.filter fun e => decide (Wanted f e.1)).flatMap Prod.snd).map g).Perm (((m'.filter fun e => decide (Wanted f e.1)).flatMap Prod.snd).map g)

/-- The names kept, each once. -/
def Spec.KeptNames (f : Filter) (names l : List Bytes) : Prop := l.Nodup ∧ ∀ n, n ∈ l ↔ n ∈ names ∧ Wanted f n

/-- The names kept look the same through `g`. -/
def Spec.LikeNames (g : Bytes → Bytes) (f : Filter) (m m' : List Bytes) : Prop :=
  ∃ l l', KeptNames f m l ∧ KeptNames f m' l' ∧ (l.map g).Perm (l'.map g)

/-- What is taken of the URL looks the same through `g`. -/
def Spec.LikeUrl (T : URL → Bytes → Prop) (g : Bytes → Bytes) (k k' : Facts) : Prop :=
  (k.url = none ↔ k'.url = none) ∧ ∀ u u' b b', k.url = some u → k'.url = some u' → T u b → T u' b' → g b = g b'

open Classical in
/-- The variable shows the same through `g`. -/
def Spec.SeesLike (lib : Lib) : (g : Bytes → Bytes) → Var → Facts → Facts → Prop
  | g, .args f _, k, k' => LikeValues g f (queryOf lib k) (queryOf lib k') ∧ SameReading k k'
  | g, .argsNames f _, k, k' => LikeNames g f ((queryOf lib k).map Prod.fst) ((queryOf lib k').map Prod.fst) ∧ SameReading k k'
  | g, .argsGet f, k, k' => LikeValues g f (queryOf lib k) (queryOf lib k')
  | g, .argsGetNames f, k, k' => LikeNames g f ((queryOf lib k).map Prod.fst) ((queryOf lib k').map Prod.fst)
  | _, .argsPost _, k, k' => SameReading k k'
  | _, .argsPostNames _, k, k' => SameReading k k'
  | g, .queryString, k, k' => LikeUrl (fun u b => b = u.rawQuery) g k k'
  | g, .remoteAddr, k, k' => g k.srcIp = g k'.srcIp
  | g, .requestBasename, k, k' => LikeUrl (fun u b => Basename u.path b) g k k'
  | _, .requestBody, k, k' => SameReading k k'
  | g, .requestCookies f, k, k' =>
    linesOf k.headers b!"Cookie" = linesOf k'.headers b!"Cookie" ∨
      ∃ cs cs', CookieLines (linesOf k.headers b!"Cookie") cs ∧ CookieLines (linesOf k'.headers b!"Cookie") cs' ∧
        ((cs.filter fun c => decide (Wanted f c.1)).map fun c => g c.2).Perm ((cs'.filter fun c => decide (Wanted f c.1)).map fun c => g c.2)
  | g, .requestCookiesNames f, k, k' =>
    linesOf k.headers b!"Cookie" = linesOf k'.headers b!"Cookie" ∨
      ∃ cs cs', CookieLines (linesOf k.headers b!"Cookie") cs ∧ CookieLines (linesOf k'.headers b!"Cookie") cs' ∧
        LikeNames g f (cs.map Prod.fst) (cs'.map Prod.fst)
  | g, .requestFilename, k, k' => LikeUrl (fun u b => b = u.path) g k k'
  | g, .requestHeaders f, k, k' => LikeValues g f (k.headers.getD []) (k'.headers.getD [])
  | g, .requestHeadersNames f, k, k' =>
    (k.url = none ↔ k'.url = none) ∧ LikeNames g f ((k.headers.getD []).map Prod.fst) ((k'.headers.getD []).map Prod.fst)
  | g, .requestMethod, k, k' => g k.method = g k'.method
  | g, .requestProtocol, k, k' => g k.proto = g k'.proto
  | g, .requestUri, k, k' => LikeUrl (fun u b => b = lib.urlString (uriOf u)) g k k'
  | _, .responseBody, _, _ => True
  | _, .responseContentLength, k, k' => (firstValue k.respHeaders b!"Content-Length").getD [] = (firstValue k'.respHeaders b!"Content-Length").getD []
  | _, .responseContentType, k, k' => (firstValue k.respHeaders b!"Content-Type").getD [] = (firstValue k'.respHeaders b!"Content-Type").getD []
  | g, .responseHeaders f, k, k' => LikeValues g f (k.respHeaders.getD []) (k'.respHeaders.getD [])
  | g, .responseHeadersNames f, k, k' => LikeNames g f ((k.respHeaders.getD []).map Prod.fst) ((k'.respHeaders.getD []).map Prod.fst)
  | g, .responseProtocol, k, k' => g k.respProto = g k'.respProto
  | _, .responseStatus, k, k' => k.status = k'.status
  | _, .count v, k, k' => SeesLike lib (fun _ => []) v k k'
  | _, .custom _, _, _ => False

/-- A rule, or a rule chained to one, reads the variable through these transformations. -/
def Spec.ReadThrough (rs : RuleSet) (ts : List Trans) (v : Var) : Prop :=
  ∃ p, ∃ r ∈ rs.phases p, (v ∈ r.vars ∧ ts = r.trans) ∨ ∃ s ∈ r.subRules, v ∈ s.vars ∧ ts = s.trans

/-- What every rule reads looks the same through its transformations. -/
def Spec.Undetected (lib : Lib) (rs : RuleSet) (k k' : Facts) : Prop := ∀ ts v, ReadThrough rs ts v → ∀ t, SeesLike lib (pipe lib t ts) v k k'

/-- Two histories in which the host tells different things, the difference being one the rules
look through, at every point. -/
inductive Spec.Veiled (lib : Lib) (rs : RuleSet) : Facts → Facts → List Op → List Op → Prop
  | nil {k k' : Facts} : Veiled lib rs k k' [] []
  | cons {k k' : Facts} {op op' : Op} {a b : List Op} : Kin op op' → Undetected lib rs (told k op) (told k' op') →
      Veiled lib rs (told k op) (told k' op') a b → Veiled lib rs k k' (op :: a) (op' :: b)

/-! ### Variables -/

theorem Spec.LikeValues.fetch {g : Bytes → Bytes} {f : Filter} {m m' : GoMap} (h : LikeValues g f m m') (o : IterOrd) :
    ((f.fetch o m).map g).Perm ((f.fetch o m').map g) := by
  classical
  have e : ∀ m : GoMap, (m.filter fun e => f.keep e.1) = m.filter fun e => decide (Wanted f e.1) := by
    intro m
    refine List.filter_congr fun x _ => ?_
    rw [Bool.eq_iff_iff, wanted_keep, decide_eq_true_iff]
  refine ((f.fetch_perm o m).map g).trans (.trans ?_ ((f.fetch_perm o m').map g).symm)
  rw [e, e]
  exact h

theorem keptNames_perm {f : Filter} {m : GoMap} {l : List Bytes} (h : KeptNames f (m.map Prod.fst) l) (o : IterOrd) : (f.names o m).Perm l :=
  perm_of_nodup (f.names_nodup o m) h.1 fun n => by rw [f.mem_names, wanted_keep, h.2]

theorem Spec.LikeNames.names {g : Bytes → Bytes} {f : Filter} {m m' : GoMap} (h : LikeNames g f (m.map Prod.fst) (m'.map Prod.fst)) (o : IterOrd) :
    ((f.names o m).map g).Perm ((f.names o m').map g) := by
  obtain ⟨l, l', h1, h2, h3⟩ := h
  exact ((keptNames_perm h1 o).map g).trans (h3.trans ((keptNames_perm h2 o).map g).symm)

theorem likeNames_refl (g : Bytes → Bytes) (f : Filter) (m : GoMap) : LikeNames g f (m.map Prod.fst) (m.map Prod.fst) := by
  have : KeptNames f (m.map Prod.fst) (f.names ⟨id, fun _ => .refl _⟩ m) := ⟨f.names_nodup _ m, fun n => by rw [f.mem_names, wanted_keep]⟩
  exact ⟨_, _, this, this, .refl _⟩

theorem likeNames_self (g : Bytes → Bytes) (f : Filter) (l : List Bytes) : LikeNames g f l l := by
  have := likeNames_refl g f (l.map fun n => (n, []))
  rwa [List.map_map, show (Prod.fst ∘ fun n : Bytes => (n, ([] : List Bytes))) = id from rfl, List.map_id] at this

theorem basename_is (p : Bytes) : Basename p (basename p) := by
  obtain ⟨b, h1, h2⟩ := C43_basename (env := queryEnv) (t := { newTransaction queryEnv.limits with url := some { path := p } }) rfl
  simp only [Var.fetch] at h1
  cases h1
  exact h2

theorem basename_unique {p b : Bytes} (h : Basename p b) : b = basename p := by
  have sep : ∀ {c : UInt8}, Sep c → isPathSeparator c = true := fun h => (isPathSeparator_iff _).2 h
  have nosep : ∀ {c : UInt8}, ¬ Sep c → isPathSeparator c = false := fun h => Bool.eq_false_iff.2 fun e => h ((isPathSeparator_iff _).1 e)
  rcases h with ⟨h, rfl⟩ | ⟨dir, tail, rfl, hb, hn, ht, hd⟩
  · have : p.reverse.dropWhile isPathSeparator = [] := dropWhile_nil_iff.2 fun c hc => sep (h c (List.mem_reverse.1 hc))
    simp only [basename, this, List.reverse_nil, if_true, ite_self]
  · obtain ⟨c, b', e⟩ : ∃ c b', b.reverse = c :: b' := by
      cases hr : b.reverse with
      | nil => exact absurd (List.reverse_eq_nil_iff.1 hr) hb
      | cons c b' => exact ⟨c, b', rfl⟩
    have e1 : (dir ++ b ++ tail).reverse.dropWhile isPathSeparator = b.reverse ++ dir.reverse := by
      rw [List.reverse_append, List.reverse_append, List.dropWhile_append_of_pos fun x hx => sep (ht x (List.mem_reverse.1 hx)), e, List.cons_append,
        List.dropWhile_cons_of_neg]
      rw [nosep (hn c (List.mem_reverse.1 (e ▸ List.mem_cons_self)))]
      exact Bool.false_ne_true
    have e2 : (b.reverse ++ dir.reverse).takeWhile (fun b => !isPathSeparator b) = b.reverse := by
      rw [List.takeWhile_append_of_pos fun x hx => by rw [nosep (hn x (List.mem_reverse.1 hx))]; rfl]
      rcases hd with rfl | ⟨d, c, rfl, hc⟩
      · simp
      · simp [sep hc]
    have e3 : dir ++ b ++ tail ≠ [] := by simp [hb]
    simp only [basename, e3, if_false, e1, List.reverse_reverse, e2]
    simp [hb]

section
variable {env : Env} {S : Facts → Facts → Prop}

theorem Res.Both.map_eq {x y : Res (List Bytes × Tx)} (h : x.Both (fun x y => x.1 = y.1 ∧ Guise S x.2 y.2) y) (g : Bytes → Bytes) :
    x.Both (fun x y => (x.1.map g).Perm (y.1.map g) ∧ Guise S x.2 y.2) y :=
  h.imp fun _ _ hab => ⟨hab.1 ▸ .refl _, hab.2⟩

/-- A variable shows the same through the transformations, if what it reads looks the same. -/
theorem Spec.SeesLike.fetch : ∀ (v : Var) (g : Bytes → Bytes) {t u : Tx}, Guise S t u → SeesLike env.lib g v t.facts u.facts →
    (v.fetch env t).Both (fun x y => (x.1.map g).Perm (y.1.map g) ∧ Guise S x.2 y.2) (v.fetch env u) := by
  have get : ∀ (g : Bytes → Bytes) (f : Filter) {t u : Tx}, LikeValues g f (queryOf env.lib t.facts) (queryOf env.lib u.facts) →
      ((fetchArgsGet env f t).map g).Perm ((fetchArgsGet env f u).map g) := by
    intro g f t u h
    rw [get_query f t fun m e => e ▸ unread_fetch_nil f _, get_query f u fun m e => e ▸ unread_fetch_nil f _]
    exact h.fetch _
  have getNames : ∀ (g : Bytes → Bytes) (f : Filter) {t u : Tx},
      LikeNames g f ((queryOf env.lib t.facts).map Prod.fst) ((queryOf env.lib u.facts).map Prod.fst) →
      ((fetchArgsGetNames env f t).map g).Perm ((fetchArgsGetNames env f u).map g) := by
    intro g f t u h
    rw [getNames_query, getNames_query]
    exact h.names _
  have url : ∀ (g : Bytes → Bytes) {t u : Tx} {T : URL → Bytes → Prop} (F : URL → Bytes), (∀ u, T u (F u)) → LikeUrl T g t.facts u.facts →
      ((match t.url with | none => [] | some u => [F u]).map g).Perm ((match u.url with | none => [] | some u => [F u]).map g) := by
    intro g t u T F hT h
    obtain ⟨h1, h2⟩ := h
    have h1 : t.url = none ↔ u.url = none := h1
    cases ht : t.url with
    | none => rw [h1.1 ht]
    | some a =>
      cases hu : u.url with
      | none => rw [h1.2 hu] at ht; cases ht
      | some b => exact .of_eq (congrArg (fun x => [x]) (h2 a b _ _ ht hu (hT a) (hT b)))
  have cookies : ∀ (g : Bytes → Bytes) {t u : Tx} (F : GoMap → List Bytes), F [] = [] →
      (linesOf t.facts.headers b!"Cookie" = linesOf u.facts.headers b!"Cookie" ∨
        ∃ cs cs', CookieLines (linesOf t.facts.headers b!"Cookie") cs ∧ CookieLines (linesOf u.facts.headers b!"Cookie") cs' ∧
          ((F (addPairs [] cs)).map g).Perm ((F (addPairs [] cs')).map g)) →
      ((match t.reqHeader with | none => [] | some h => F (readCookie h)).map g).Perm ((match u.reqHeader with | none => [] | some h => F (readCookie h)).map g) := by
    intro g t u F hF h
    have key : ∀ o : Option GoMap, (match o with | none => [] | some h => F (readCookie h)) = F ((linesOf o b!"Cookie").foldl readCookieLine []) := by
      intro o
      cases o with
      | none => exact hF.symm
      | some m => simp only [readCookie_lines]
    rw [key, key]
    rcases h with h | ⟨cs, cs', h1, h2, h3⟩
    · have h : linesOf t.reqHeader b!"Cookie" = linesOf u.reqHeader b!"Cookie" := h
      rw [h]
    · have h1 : CookieLines (linesOf t.reqHeader b!"Cookie") cs := h1
      have h2 : CookieLines (linesOf u.reqHeader b!"Cookie") cs' := h2
      rw [h1.read, h2.read]
      exact h3
  intro v
  induction v with
  | custom f => intro _ _ _ _ hv; exact hv.elim
  | count v ih =>
    intro g t u h hv
    simp only [Var.fetch]
    refine (ih _ h hv).bind fun x y hxy => .ok ⟨?_, hxy.2⟩
    have := hxy.1.length_eq
    rw [List.length_map, List.length_map] at this
    exact .of_eq (by rw [this])
  | args a b =>
    intro g t u h hv
    simp only [Var.fetch]
    refine (post_guise b h hv.2).bind fun x y hxy => .ok ⟨?_, hxy.2⟩
    rw [hxy.1, List.map_append, List.map_append]
    exact (get g a hv.1).append_right _
  | argsNames a b =>
    intro g t u h hv
    simp only [Var.fetch]
    refine (postNames_guise b h hv.2).bind fun x y hxy => .ok ⟨?_, hxy.2⟩
    rw [hxy.1, List.map_append, List.map_append]
    exact (getNames g a hv.1).append_right _
  | argsGet f => intro g t u h hv; exact .ok ⟨get g f hv, h⟩
  | argsGetNames f => intro g t u h hv; exact .ok ⟨getNames g f hv, h⟩
  | argsPost f => intro g t u h hv; exact (post_guise f h hv).map_eq g
  | argsPostNames f => intro g t u h hv; exact (postNames_guise f h hv).map_eq g
  | queryString => intro g t u h hv; exact .ok ⟨url g (T := fun u b => b = u.rawQuery) URL.rawQuery (fun _ => rfl) hv, h⟩
  | requestFilename => intro g t u h hv; exact .ok ⟨url g (T := fun u b => b = u.path) URL.path (fun _ => rfl) hv, h⟩
  | requestBasename => intro g t u h hv; exact .ok ⟨url g (fun u => basename u.path) (fun _ => basename_is _) hv, h⟩
  | requestUri => intro g t u h hv; exact .ok ⟨url g (T := fun u b => b = env.lib.urlString (uriOf u)) (fun u => env.lib.urlString (uriOf u)) (fun _ => rfl) hv, h⟩
  | remoteAddr => intro g t u h hv; exact .ok ⟨.of_eq (congrArg (fun x => [x]) hv), h⟩
  | requestMethod => intro g t u h hv; exact .ok ⟨.of_eq (congrArg (fun x => [x]) hv), h⟩
  | requestProtocol => intro g t u h hv; exact .ok ⟨.of_eq (congrArg (fun x => [x]) hv), h⟩
  | responseProtocol => intro g t u h hv; exact .ok ⟨.of_eq (congrArg (fun x => [x]) hv), h⟩
  | responseStatus => intro g t u h hv; exact .ok ⟨.of_eq (congrArg (fun x => [g (itoa x)]) hv), h⟩
  | responseContentLength =>
    intro g t u h hv
    exact (SeesSame.fetch .responseContentLength h hv).imp fun _ _ hab => ⟨hab.1.map g, hab.2⟩
  | responseContentType =>
    intro g t u h hv
    exact (SeesSame.fetch .responseContentType h hv).imp fun _ _ hab => ⟨hab.1.map g, hab.2⟩
  | requestCookies f =>
    intro g t u h hv
    refine .ok ⟨cookies g (f.fetch env.ord) (unread_fetch_nil _ _) (hv.imp id ?_), h⟩
    rintro ⟨cs, cs', h1, h2, h3⟩
    refine ⟨cs, cs', h1, h2, LikeValues.fetch ?_ _⟩
    have e := fun cs => (addPairs_values [] cs fun k => @decide (Wanted f k) (Classical.propDecidable _)).map g
    refine (e _).trans (.trans ?_ (e _).symm)
    simp only [List.filter_nil, List.flatMap_nil, List.nil_append, List.map_map]
    exact h3
  | requestCookiesNames f =>
    intro g t u h hv
    refine .ok ⟨cookies g (f.names env.ord) (unread_names_nil _ _) (hv.imp id ?_), h⟩
    rintro ⟨cs, cs', h1, h2, l, l', h3, h4, h5⟩
    refine ⟨cs, cs', h1, h2, LikeNames.names ⟨l, l', ⟨h3.1, fun n => ?_⟩, ⟨h4.1, fun n => ?_⟩, h5⟩ _⟩
    · rw [h3.2, addPairs_keys]; simp
    · rw [h4.2, addPairs_keys]; simp
  | requestHeaders f => intro g t u h hv; exact .ok ⟨LikeValues.fetch hv _, h⟩
  | responseHeaders f => intro g t u h hv; exact .ok ⟨LikeValues.fetch hv _, h⟩
  | responseHeadersNames f => intro g t u h hv; exact .ok ⟨LikeNames.names hv _, h⟩
  | requestHeadersNames f =>
    intro g t u h hv
    obtain ⟨hu, hv⟩ := hv
    have hu : t.url = none ↔ u.url = none := hu
    refine .ok ⟨?_, h⟩
    cases ht : t.url with
    | none => rw [hu.1 ht]
    | some a =>
      cases hu' : u.url with
      | none => rw [hu.2 hu'] at ht; cases ht
      | some b => exact LikeNames.names hv _
  | requestBody => intro g t u h hr; exact (SeesSame.fetch .requestBody h hr).imp fun _ _ hab => ⟨hab.1.map g, hab.2⟩
  | responseBody => intro g t u h hr; exact (SeesSame.fetch .responseBody h trivial).imp fun _ _ hab => ⟨hab.1.map g, hab.2⟩

end

/-! ### Histories -/

theorem seesLike_refl {lib : Lib} : ∀ (v : Var), v.Stock → ∀ (g : Bytes → Bytes) (k : Facts), SeesLike lib g v k k := by
  have url : ∀ (T : URL → Bytes → Prop) (g : Bytes → Bytes) (k : Facts), (∀ u b b', T u b → T u b' → b = b') → LikeUrl T g k k := by
    refine fun T g k hT => ⟨Iff.rfl, fun u u' b b' h1 h2 h3 h4 => ?_⟩
    rw [h1] at h2
    cases h2
    rw [hT u b b' h3 h4]
  intro v
  induction v with
  | custom f => intro h; exact h.elim
  | count v ih => exact fun h _ k => ih h _ k
  | queryString => exact fun _ g k => url _ g k fun u b b' h h' => h.trans h'.symm
  | requestFilename => exact fun _ g k => url _ g k fun u b b' h h' => h.trans h'.symm
  | requestUri => exact fun _ g k => url _ g k fun u b b' h h' => h.trans h'.symm
  | requestBasename => exact fun _ g k => url _ g k fun u b b' h h' => (basename_unique h).trans (basename_unique h').symm
  | _ => intro _ g k; simp [SeesLike, LikeValues, likeNames_self, SameReading]

theorem undetected_refl {lib : Lib} {rs : RuleSet} (hrs : rs.Stock) (k : Facts) : Undetected lib rs k k := by
  rintro ts v ⟨p, r, hr, ⟨hv, -⟩ | ⟨s, hs, hv, -⟩⟩ t
  · exact seesLike_refl v ((hrs.rules p r hr).1.vars v hv) _ k
  · exact seesLike_refl v (((hrs.rules p r hr).2 s hs).vars v hv) _ k

theorem veiled_outcome {env : Env} {rs : RuleSet} (hrs : rs.Stock) (n : Nat) {k k' : Facts} {a b : List Op} (h : Veiled env.lib rs k k' a b) :
    ∀ {t u : Tx}, t.facts = k → u.facts = k' → Guise (Undetected env.lib rs) t u → outcome (t.steps env rs n a) = outcome (u.steps env rs n b) := by
  have hF : FetchGuised env (Undetected env.lib rs) (fun ts v => (∀ x ∈ ts, x.Stock) ∧ ReadThrough rs ts v) := fun ts v hv t _ hg =>
    (SeesLike.fetch v _ hg (hg.seen ts v hv.2 t)).imp fun x y hxy =>
      ⟨by rw [funext (pipe_stock hv.1 x.2 t), funext (pipe_stock hv.1 y.2 t)]; exact hxy.1, hxy.2⟩
  have hA : ∀ p, ∀ r ∈ rs.phases p, r.Reads (fun ts v => (∀ x ∈ ts, x.Stock) ∧ ReadThrough rs ts v) := fun p r hr =>
    ⟨fun v hv => ⟨(hrs.rules p r hr).1.trans, p, r, hr, .inl ⟨hv, rfl⟩⟩,
      fun s hs v hv => ⟨((hrs.rules p r hr).2 s hs).trans, p, r, hr, .inr ⟨s, hs, hv, rfl⟩⟩⟩
  induction h with
  | nil => intros; rfl
  | @cons k k' op op' a b hk hs _ ih =>
    rintro t u rfl rfl hg
    have hb := step_guise hF hrs hA n hk hg hs
    simp only [Tx.steps, outcome]
    generalize hx : t.step env rs n op = x, hy : u.step env rs n op' = y at hb
    cases hb with
    | panic => rfl
    | fuel => rfl
    | @ok x y hb =>
      obtain ⟨t1, o, tr⟩ := x
      obtain ⟨u1, o', tr'⟩ := y
      obtain ⟨h1, h2⟩ := hb
      cases h2
      have := ih (C68_call hrs.keepsFacts hx).1 (C68_call hrs.keepsFacts hy).1 h1
      simp only [Res.bind, outcome] at this ⊢
      generalize Tx.steps env rs n t1 a = x, Tx.steps env rs n u1 b = y at this
      cases x <;> cases y <;> simp_all

/-- C122: let the host tell a transaction other things, such that to every rule what it reads
looks the same through its transformations.  Then every call answers the same and the same rules
are evaluated. -/
theorem C122_disguise {env : Env} {rs : RuleSet} (hrs : rs.Stock) {a b : List Op} (h : Veiled env.lib rs {} {} a b) (n : Nat) :
    outcome ((newTransaction env.limits).steps env rs n a) = outcome ((newTransaction env.limits).steps env rs n b) :=
  veiled_outcome hrs n h rfl rfl ⟨rfl, undetected_refl hrs _⟩

/-- The same for rules loaded from text. -/
theorem C122_loaded {lib : Lib} {vo : VarOrd} {ord : IterOrd} {text : Bytes} {set : DireSet} (hload : DireSet.addSecLangString lib vo [] text = .ok (set, none))
    {a b : List Op} (h : Veiled lib (set.execute newEngine).ruleSet {} {} a b) (n : Nat) :
    outcome ((set.execute newEngine).newTransaction.steps ((set.execute newEngine).env lib ord) (set.execute newEngine).ruleSet n a) =
      outcome ((set.execute newEngine).newTransaction.steps ((set.execute newEngine).env lib ord) (set.execute newEngine).ruleSet n b) :=
  C122_disguise (env := (set.execute newEngine).env lib ord) (loaded_stock hload) h n

/-! ### What transformations undo -/

/-- The same but for the lengths of runs of spaces. -/
inductive Spec.Respaced : Bytes → Bytes → Prop
  | nil : Respaced [] []
  | byte {s s' : Bytes} (b : UInt8) : Respaced s s' → Respaced (b :: s) (b :: s')
  | run {s s' : Bytes} (j k : Nat) : Respaced s s' → Respaced (List.replicate (j + 1) 32 ++ s) (List.replicate (k + 1) 32 ++ s')

/-- The two differ only in the way that the transformation takes away: in the case of ASCII letters, in
how a beginning is percent-encoded, in where there are spaces or NULs, in the lengths of runs of
spaces. -/
def Spec.Undone : Trans → Bytes → Bytes → Prop
  | .lowercase, s, s' => CaseVariant s s'
  | .urlDecode, s, s' => ∃ raw e e' r, Encodes e raw ∧ Encodes e' raw ∧ s = e ++ r ∧ s' = e' ++ r
  | .urlDecodeUni, s, s' => ∃ raw e e' r, Encodes e raw ∧ Encodes e' raw ∧ s = e ++ r ∧ s' = e' ++ r
  | .compressWhitespace, s, s' => Respaced s s'
  | .removeWhitespace, s, s' => ValidUtf8 s ∧ ValidUtf8 s' ∧ s.filter (· ≠ 32) = s'.filter (· ≠ 32)
  | .removeNulls, s, s' => ValidUtf8 s ∧ ValidUtf8 s' ∧ s.filter (· ≠ 0) = s'.filter (· ≠ 0)
  | .replaceNulls, s, s' => ValidUtf8 s ∧ ValidUtf8 s' ∧ s.map (fun b => if b = 0 then 32 else b) = s'.map (fun b => if b = 0 then 32 else b)
  | _, _, _ => False

/-- Some of the transformations takes the difference away, in what those before it made of the values. -/
inductive Spec.Dissolved (lib : Lib) (t : Tx) : List Trans → Bytes → Bytes → Prop
  | same (ts : List Trans) (s : Bytes) : Dissolved lib t ts s s
  | here {tr : Trans} {ts : List Trans} {s s' : Bytes} : Undone tr s s' → Dissolved lib t (tr :: ts) s s'
  | later {tr : Trans} {ts : List Trans} {s s' : Bytes} : Dissolved lib t ts (tr.run lib t s) (tr.run lib t s') → Dissolved lib t (tr :: ts) s s'

theorem respaced_eq {s s' : Bytes} (h : Respaced s s') : ∀ u, transCompressWhitespace (u ++ s) = transCompressWhitespace (u ++ s') := by
  induction h with
  | nil => intro u; rfl
  | @byte s s' b _ ih =>
    intro u
    have := ih (u ++ [b])
    simpa using this
  | @run s s' j k _ ih =>
    intro u
    rw [← List.append_assoc, ← List.append_assoc, C08_run_collapses, C08_run_collapses]
    have := ih (u ++ [32])
    simpa using this

theorem lowerRune_case (hi : Rune → Rune) {a b : UInt8} (h : CaseEq a b) (hne : a ≠ b) :
    a < 0x80 ∧ b < 0x80 ∧ lowerRune hi a.toNat = lowerRune hi b.toNat := by
  have key : ∀ n m : Nat, 65 ≤ n → n ≤ 90 → m = n + 32 → lowerRune hi n = m ∧ lowerRune hi m = m := by
    intro n m h1 h2 h3
    have e1 : n < 128 := by omega
    have e2 : m < 128 := by omega
    have e3 : ¬ (65 ≤ m ∧ m ≤ 90) := by omega
    refine ⟨?_, ?_⟩
    · show (if n < 128 then (if 65 ≤ n ∧ n ≤ 90 then n + 32 else n) else hi n) = m
      rw [if_pos e1, if_pos ⟨h1, h2⟩, h3]
    · show (if m < 128 then (if 65 ≤ m ∧ m ≤ 90 then m + 32 else m) else hi m) = m
      rw [if_pos e2, if_neg e3]
  have lt : ∀ {x : UInt8}, x.toNat < 128 → x < 0x80 := fun h => UInt8.lt_iff_toNat_lt.2 h
  rcases h with h | ⟨h1, h2, h3⟩ | ⟨h1, h2, h3⟩
  · exact absurd h hne
  · exact ⟨lt (by omega), lt (by omega), (key _ _ h1 h2 h3).1.trans (key _ _ h1 h2 h3).2.symm⟩
  · exact ⟨lt (by omega), lt (by omega), (key _ _ h1 h2 h3).2.trans (key _ _ h1 h2 h3).1.symm⟩

theorem lowercase_case (hi : Rune → Rune) {s s' : Bytes} (h : CaseVariant s s') : transLowercase hi s = transLowercase hi s' := by
  have e : s.all (· < 0x80) = s'.all (· < 0x80) := by
    induction h with
    | nil => rfl
    | @cons a b s t hc _ ih =>
      simp only [List.all_cons, ih]
      by_cases hne : a = b
      · rw [hne]
      · simp [(lowerRune_case id hc hne).1, (lowerRune_case id hc hne).2.1]
  have m : s.map lowerByte = s'.map lowerByte := (caseVariant_iff s s').1 h
  have r : ∀ u, (runes (u ++ s)).map (lowerRune hi) = (runes (u ++ s')).map (lowerRune hi) := by
    clear e m
    induction h with
    | nil => intro u; rfl
    | @cons a b s t hc _ ih =>
      intro u
      by_cases hne : a = b
      · subst hne
        have := ih (u ++ [a])
        simpa using this
      · obtain ⟨h1, h2, h3⟩ := lowerRune_case hi hc hne
        rw [runes_append_ascii u h1, runes_append_ascii u h2]
        have := ih []
        simp only [List.nil_append] at this
        simp only [List.map_append, List.map_cons, this, h3]
  simp only [transLowercase, toLower, e, m, stringsMap_eq]
  have r := r []
  simp only [List.nil_append] at r
  have f : ∀ l : List Rune, l.filterMap (fun r => some (lowerRune hi r)) = l.map (lowerRune hi) := fun l => congrFun List.filterMap_eq_map' l
  rw [f, f, r]

/-- What a transformation is for. -/
theorem undone_run {lib : Lib} (t : Tx) {tr : Trans} {s s' : Bytes} (h : Undone tr s s') : tr.run lib t s = tr.run lib t s' := by
  cases tr with
  | none => exact h.elim
  | custom f => exact h.elim
  | lowercase => exact lowercase_case _ h
  | urlDecode =>
    obtain ⟨raw, e, e', r, h1, h2, rfl, rfl⟩ := h
    exact (urldecode_append h1 false r).trans (urldecode_append h2 false r).symm
  | urlDecodeUni =>
    obtain ⟨raw, e, e', r, h1, h2, rfl, rfl⟩ := h
    exact (urldecode_append h1 true r).trans (urldecode_append h2 true r).symm
  | compressWhitespace => exact respaced_eq h []
  | removeWhitespace => exact (C07_removeWhitespace s h.1).trans (h.2.2.trans (C07_removeWhitespace s' h.2.1).symm)
  | removeNulls => exact (C07_removeNulls s h.1).trans (h.2.2.trans (C07_removeNulls s' h.2.1).symm)
  | replaceNulls => exact (C07_replaceNulls s h.1).trans (h.2.2.trans (C07_replaceNulls s' h.2.1).symm)

/-- C122, values: whatever comes after the transformation that takes the difference away. -/
theorem C122_dissolved {lib : Lib} {t : Tx} {ts : List Trans} {s s' : Bytes} (h : Dissolved lib t ts s s') : pipe lib t ts s = pipe lib t ts s' := by
  induction h with
  | same => rfl
  | here h => simp only [pipe, undone_run t h]
  | later _ ih => simp only [pipe, ih]

/-! ### Headers and arguments in disguise -/

/-- The same calls, after a difference that the rules look through and that stays so. -/
theorem veiled_same {lib : Lib} {rs : RuleSet} {R : Facts → Facts → Prop} (hU : ∀ k k', R k k' → Undetected lib rs k k')
    (hT : ∀ op k k', R k k' → R (told k op) (told k' op)) : ∀ (ops : List Op) {k k' : Facts}, R k k' → Veiled lib rs k k' ops ops
  | [], _, _, _ => .nil
  | op :: ops, _, _, h => .cons (.same op) (hU _ _ (hT op _ _ h)) (veiled_same hU hT ops (hT op _ _ h))

/-- A history in which one call tells something else, and what comes after it. -/
theorem veiled_once {lib : Lib} {rs : RuleSet} (hrs : rs.Stock) {R : Facts → Facts → Prop} (hU : ∀ k k', R k k' → Undetected lib rs k k')
    (hT : ∀ op k k', R k k' → R (told k op) (told k' op)) {op op' : Op} (hk : Kin op op') (hR : ∀ k, R (told k op) (told k op')) (after : List Op) :
    ∀ (before : List Op) (k : Facts), Veiled lib rs k k (before ++ op :: after) (before ++ op' :: after)
  | [], k => .cons hk (hU _ _ (hR k)) (veiled_same hU hT after (hR k))
  | o :: before, k => .cons (.same o) (undetected_refl hrs _) (veiled_once hrs hU hT hk hR after before (told k o))

/-- C122, an instance: the values of a request header in disguise, each in its own, when every rule
on the header takes the disguise off.  `Cookie` and `Content-Type` are headers that other
variables read. -/
theorem C122_header {env : Env} {rs : RuleSet} (hrs : rs.Stock) {name : Bytes} (hc : name ≠ b!"Cookie") (ht : name ≠ b!"Content-Type")
    {ws : List (Bytes × Bytes)} (hd : ∀ ts f, ReadThrough rs ts (.requestHeaders f) → Wanted f name → ∀ w ∈ ws, ∀ t, Dissolved env.lib t ts w.1 w.2)
    (pre post : GoMap) (before after : List Op) (n : Nat) :
    outcome ((newTransaction env.limits).steps env rs n (before ++ .processRequestHeader (some (pre ++ (name, ws.map Prod.fst) :: post)) :: after)) =
      outcome ((newTransaction env.limits).steps env rs n (before ++ .processRequestHeader (some (pre ++ (name, ws.map Prod.snd) :: post)) :: after)) := by
  generalize hh : pre ++ (name, ws.map Prod.fst) :: post = h, hh' : pre ++ (name, ws.map Prod.snd) :: post = h'
  refine C122_disguise hrs (veiled_once hrs
    (R := fun k k' => k' = { k with headers := k'.headers } ∧ (k.headers = k'.headers ∨ k.headers = some h ∧ k'.headers = some h')) ?_ ?_ (.header ..) ?_ after before {}) n
  · rintro k k' ⟨h1, h2 | ⟨h2, h3⟩⟩ ts v hr t
    · rw [h1, ← h2]
      exact undetected_refl hrs k ts v hr t
    · have hs := undetected_refl (lib := env.lib) hrs k ts v hr t
      rw [h1, h3]
      have ff : ∀ other, other ≠ name → h.find? (fun e => e.1 == other) = h'.find? fun e => e.1 == other := by
        intro other ho
        rw [← hh, ← hh', List.find?_append, List.find?_append, List.find?_cons_of_neg (by simpa using ho.symm), List.find?_cons_of_neg (by simpa using ho.symm)]
      have fv : (firstValue k.headers b!"Content-Type").getD [] = (firstValue (some h') b!"Content-Type").getD [] := by
        rw [h2]
        simp only [firstValue, Option.bind_eq_bind, Option.bind_some, ff _ ht.symm]
      have fc : linesOf k.headers b!"Cookie" = linesOf (some h') b!"Cookie" := by
        rw [h2]
        simp only [linesOf, Option.getD_some, ff _ hc.symm]
      have sv : ∀ (g : Bytes → Bytes) (f : Filter), (Wanted f name → ∀ w ∈ ws, g w.1 = g w.2) → LikeValues g f (k.headers.getD []) h' := by
        intro g f hg
        rw [h2, Option.getD_some, ← hh, ← hh']
        simp only [LikeValues, List.filter_append, List.filter_cons]
        by_cases hw : Wanted f name
        · have : (ws.map Prod.fst).map g = (ws.map Prod.snd).map g := by
            rw [List.map_map, List.map_map]
            exact List.map_congr_left fun w hm => hg hw w hm
          simp [hw, this]
        · simp [hw]
      have sn : ∀ (g : Bytes → Bytes) (f : Filter), LikeNames g f ((k.headers.getD []).map Prod.fst) (h'.map Prod.fst) := by
        intro g f
        have : (k.headers.getD []).map Prod.fst = h'.map Prod.fst := by rw [h2, Option.getD_some, ← hh, ← hh']; simp
        rw [this]
        exact likeNames_self g f _
      have hg : ∀ f, v = .requestHeaders f → Wanted f name → ∀ w ∈ ws, pipe env.lib t ts w.1 = pipe env.lib t ts w.2 := by
        rintro f rfl hw w hm
        exact C122_dissolved (hd ts f hr hw w hm t)
      clear hr
      revert hs hg
      generalize pipe env.lib t ts = g
      intro hs hg
      induction v generalizing g with
      | count v ih => exact ih _ hs fun _ _ _ _ _ => rfl
      | custom f => exact hs.elim
      | args a f => exact ⟨hs.1, Iff.rfl, fun _ => fv⟩
      | argsNames a f => exact ⟨hs.1, Iff.rfl, fun _ => fv⟩
      | argsPost f => exact ⟨Iff.rfl, fun _ => fv⟩
      | argsPostNames f => exact ⟨Iff.rfl, fun _ => fv⟩
      | requestBody => exact ⟨Iff.rfl, fun _ => fv⟩
      | requestCookies f => exact .inl fc
      | requestCookiesNames f => exact .inl fc
      | requestHeaders f => exact sv g f fun hw w hm => hg f rfl hw w hm
      | requestHeadersNames f => exact ⟨Iff.rfl, sn g f⟩
      | _ => exact hs
  · rintro op k k' ⟨h1, h2⟩
    cases op with
    | processRequestHeader hd => cases hd <;> exact ⟨by rw [h1]; rfl, .inl rfl⟩
    | processResponseHeaders c p hd => cases hd <;> exact ⟨by rw [h1]; rfl, h2⟩
    | _ => exact ⟨by rw [h1]; rfl, h2⟩
  · intro k
    exact ⟨rfl, .inr ⟨rfl, rfl⟩⟩

/-- The same URL, with a query that has arguments of the same names, in any order; `ws` lists their
names with the value on either side. -/
def Spec.PairedArguments (u u' : URL) (ws : List (Bytes × Bytes × Bytes)) : Prop :=
  u' = { u with rawQuery := u'.rawQuery } ∧ ∃ ps ps', Query u.rawQuery ps ∧ Query u'.rawQuery ps' ∧
    (argsOf ps).Perm (ws.map fun w => (w.1, w.2.1)) ∧ (argsOf ps').Perm (ws.map fun w => (w.1, w.2.2))

/-- C122, an instance: the arguments of a query in disguise, each in its own, when every rule on an
argument takes its disguise off. -/
theorem C122_arguments {env : Env} (hl : env.lib.parseQuery = parseQuery) {rs : RuleSet} (hrs : rs.Stock)
    (hv : ∀ ts v, ReadThrough rs ts v → Decoded v) {u u' : URL} {ws : List (Bytes × Bytes × Bytes)} (hu : PairedArguments u u' ws)
    (hd : ∀ ts v f, ReadThrough rs ts v → (v = .argsGet f ∨ ∃ f', v = .args f f') → ∀ w ∈ ws, Wanted f w.1 → ∀ t, Dissolved env.lib t ts w.2.1 w.2.2)
    (before after : List Op) (m p : Bytes) (n : Nat) :
    outcome ((newTransaction env.limits).steps env rs n (before ++ .processRequestURL (some u) m p :: after)) =
      outcome ((newTransaction env.limits).steps env rs n (before ++ .processRequestURL (some u') m p :: after)) := by
  refine C122_disguise hrs (veiled_once hrs
    (R := fun k k' => k' = { k with url := k'.url } ∧ (k.url = k'.url ∨ k.url = some u ∧ k'.url = some u')) ?_ ?_ (.url ..) ?_ after before {}) n
  · rintro k k' ⟨h1, h2 | ⟨h2, h3⟩⟩ ts v hr t
    · rw [h1, ← h2]
      exact undetected_refl hrs k ts v hr t
    · have hs := undetected_refl (lib := env.lib) hrs k ts v hr t
      have hdc := hv ts v hr
      rw [h1, h3]
      have q1 : queryOf env.lib k = (parseQuery u.rawQuery).1 := by simp only [queryOf, h2, hl]
      have q2 : queryOf env.lib { k with url := some u' } = (parseQuery u'.rawQuery).1 := by simp only [queryOf, hl]
      obtain ⟨hp, ps, ps', p1, p2, p3, p4⟩ := hu
      have hp : u'.path = u.path := by rw [hp]
      have sv : ∀ (g : Bytes → Bytes) (f : Filter), (∀ w ∈ ws, Wanted f w.1 → g w.2.1 = g w.2.2) →
          LikeValues g f (queryOf env.lib k) (queryOf env.lib { k with url := some u' }) := by
        intro g f hg
        rw [q1, q2, parseQuery_query p1, parseQuery_query p2]
        have e := fun cs => (addPairs_values [] cs fun k => @decide (Wanted f k) (Classical.propDecidable _)).map g
        refine (e _).trans (.trans ?_ (e _).symm)
        simp only [List.filter_nil, List.flatMap_nil, List.nil_append]
        refine (((p3.filter _).map Prod.snd).map g).trans (.trans (.of_eq ?_) (((p4.filter _).map Prod.snd).map g).symm)
        clear p3 p4 hd
        induction ws with
        | nil => rfl
        | cons w ws ih =>
          have ih := ih fun w' hw' => hg w' (List.mem_cons_of_mem _ hw')
          simp only [List.map_cons, List.filter_cons]
          split
          · rename_i hw
            rw [List.map_cons, List.map_cons, List.map_cons, List.map_cons, ih, hg w List.mem_cons_self (by simpa using hw)]
          · exact ih
      have sn : ∀ (g : Bytes → Bytes) (f : Filter),
          LikeNames g f ((queryOf env.lib k).map Prod.fst) ((queryOf env.lib { k with url := some u' }).map Prod.fst) := by
        intro g f
        rw [q1, q2, parseQuery_query p1, parseQuery_query p2]
        have key : ∀ n, n ∈ (addPairs [] (argsOf ps)).map Prod.fst ↔ n ∈ (addPairs [] (argsOf ps')).map Prod.fst := by
          intro n
          rw [addPairs_keys, addPairs_keys, (p3.map Prod.fst).mem_iff, (p4.map Prod.fst).mem_iff, List.map_map, List.map_map]
          rfl
        obtain ⟨l, -, h1, -, -⟩ := likeNames_self g f ((addPairs [] (argsOf ps)).map Prod.fst)
        exact ⟨l, l, h1, ⟨h1.1, fun n => by rw [h1.2, key]⟩, .refl _⟩
      have hg : ∀ f, (v = .argsGet f ∨ ∃ f', v = .args f f') → ∀ w ∈ ws, Wanted f w.1 → pipe env.lib t ts w.2.1 = pipe env.lib t ts w.2.2 :=
        fun f hf w hm hw => C122_dissolved (hd ts v f hr hf w hm hw t)
      have url : ∀ (g : Bytes → Bytes) (T : Bytes → Bytes → Prop), (∀ p b b', T p b → T p b' → b = b') →
          LikeUrl (fun u b => T u.path b) g k { k with url := some u' } := by
        refine fun g T hT => ⟨by rw [h2]; simp, fun a a' b b' e e' hb hb' => ?_⟩
        rw [h2] at e
        cases e
        cases e'
        rw [hp] at hb'
        rw [hT _ _ _ hb hb']
      clear hr
      revert hs hg
      generalize pipe env.lib t ts = g
      intro hs hg
      induction v generalizing g with
      | count v ih => exact ih hdc _ hs fun _ _ _ _ _ => rfl
      | custom f => exact hs.elim
      | queryString => exact absurd (.inl rfl) hdc
      | requestUri => exact absurd (.inr rfl) hdc
      | args a f => exact ⟨sv g a fun w hm hw => hg a (.inr ⟨f, rfl⟩) w hm hw, hs.2⟩
      | argsNames a f => exact ⟨sn g a, hs.2⟩
      | argsGet f => exact sv g f fun w hm hw => hg f (.inl rfl) w hm hw
      | argsGetNames f => exact sn g f
      | requestBasename => exact url g Basename fun _ _ _ h h' => (basename_unique h).trans (basename_unique h').symm
      | requestFilename => exact url g (fun p b => b = p) fun _ _ _ h h' => h.trans h'.symm
      | requestHeadersNames f => exact ⟨by rw [h2]; simp, hs.2⟩
      | _ => exact hs
  · rintro op k k' ⟨h1, h2⟩
    cases op with
    | processRequestHeader hd => cases hd <;> exact ⟨by rw [h1]; rfl, h2⟩
    | processResponseHeaders c p hd => cases hd <;> exact ⟨by rw [h1]; rfl, h2⟩
    | processRequestURL a m p => exact ⟨by rw [h1]; rfl, .inl rfl⟩
    | _ => exact ⟨by rw [h1]; rfl, h2⟩
  · intro k
    exact ⟨rfl, .inr ⟨rfl, rfl⟩⟩

/-! ### Examples -/

def Sample.veilRule (ts : List Trans) (v : Var) : Rule := { vars := [v], trans := ts, op := some (.rx ⟨b!"attack", (· == b!"attack")⟩), actions := [.deny] }

theorem Sample.veil_rules {ts : List Trans} {v : Var} {p : Int} {r : Rule} (h : r ∈ (rules [(2, veilRule ts v)]).phases p) :
    r = { veilRule ts v with phase := 2 } := by
  by_cases hp : p = 2
  · subst hp; exact List.mem_singleton.1 h
  · have he : (rules [(2, veilRule ts v)]).phases p = [] := by simp [rules, RuleSet.addRules, RuleSet.addRule, veilRule, hp, phaseEnd, phaseBegin]
    rw [he] at h; cases h

theorem Sample.veil_stock {ts : List Trans} {v : Var} (hv : v.Stock) (ht : ∀ x ∈ ts, x.Stock) : (rules [(2, veilRule ts v)]).Stock := by
  refine ⟨fun p r h => ?_, fun _ h => by cases h⟩
  rw [veil_rules h]
  exact ⟨⟨fun w hw => by rw [List.mem_singleton.1 hw]; exact hv, ht, (fun o h => by cases h; trivial),
    fun a ha => by rw [List.mem_singleton.1 ha]; trivial⟩, fun _ h => by cases h⟩

theorem Sample.veil_reads {ts ts' : List Trans} {v w : Var} (h : ReadThrough (rules [(2, veilRule ts v)]) ts' w) : w = v ∧ ts' = ts := by
  obtain ⟨p, r, hr, h⟩ := h
  rw [veil_rules hr] at h
  rcases h with ⟨h, e⟩ | ⟨s, hs, -⟩
  · exact ⟨List.mem_singleton.1 h, e⟩
  · cases hs

/-- `%41TTack`, percent-encoded and in mixed case, is `attack` to `t:urlDecode,t:lowercase`. -/
theorem Sample.veil_dissolved (t : Tx) : Dissolved queryEnv.lib t [.urlDecode, .lowercase] b!"attack" b!"%41TTack" := by
  refine .later (.here ?_)
  have e : ∀ s, Trans.run queryEnv.lib t .urlDecode s = transUrlDecode s := fun _ => rfl
  rw [e, e, show transUrlDecode b!"attack" = b!"attack" by decide, show transUrlDecode b!"%41TTack" = b!"ATTack" by decide]
  exact (caseVariant_iff _ _).2 (by decide)

/-- In a header. -/
example (rest : GoMap) :
    outcome ((newTransaction queryEnv.limits).steps queryEnv (rules [(2, veilRule [.urlDecode, .lowercase] (.requestHeaders {}))]) 9
        (tickOps [] ((b!"User-Agent", [b!"attack"]) :: rest))) =
      outcome ((newTransaction queryEnv.limits).steps queryEnv (rules [(2, veilRule [.urlDecode, .lowercase] (.requestHeaders {}))]) 9
        (tickOps [] ((b!"User-Agent", [b!"%41TTack"]) :: rest))) := by
  refine C122_header (env := queryEnv) (name := b!"User-Agent") (ws := [(b!"attack", b!"%41TTack")]) (veil_stock (by exact trivial) ?_) (by decide) (by decide)
    (fun ts f hr _ w hw t => ?_) [] rest
    [.processConnection b!"1.2.3.4" b!"5" [] [], .processRequestURL (some { path := b!"/", rawQuery := [] }) b!"GET" b!"HTTP/1.1"] [.result] 9
  · intro x hx
    simp only [List.mem_cons, List.not_mem_nil, or_false] at hx
    rcases hx with rfl | rfl <;> trivial
  · rw [(veil_reads hr).2, List.mem_singleton.1 hw]
    exact veil_dissolved t

/-- Either is refused. -/
example : (match outcome ((newTransaction queryEnv.limits).steps queryEnv (rules [(2, veilRule [.urlDecode, .lowercase] (.requestHeaders {}))]) 9
        (tickOps [] [(b!"User-Agent", [b!"%41TTack"])])) with
      | .ok (os, _) => os.getLast?.map fun o => match o with | .intervention i => i.disruptive | _ => false
      | _ => none) = some true := by decide +kernel

/-- The transformations in the other order do not take the disguise off: `t:lowercase,t:urlDecode`
leaves `Attack` of `%41ttack`, and a rule that knows `attack` lets it pass. -/
theorem C122_order :
    outcome ((newTransaction queryEnv.limits).steps queryEnv (rules [(2, veilRule [.lowercase, .urlDecode] (.requestHeaders {}))]) 9
        (tickOps [] [(b!"User-Agent", [b!"attack"])])) ≠
      outcome ((newTransaction queryEnv.limits).steps queryEnv (rules [(2, veilRule [.lowercase, .urlDecode] (.requestHeaders {}))]) 9
        (tickOps [] [(b!"User-Agent", [b!"%41ttack"])])) := by decide +kernel

/-- `t:removeWhitespace` does not undo a space within a character: what it makes of the two halves
are two replacement characters. -/
theorem C122_split_character (lib : Lib) (t : Tx) :
    Trans.run lib t .removeWhitespace [0xC3, 32, 0xA9] ≠ Trans.run lib t .removeWhitespace [0xC3, 0xA9] := by
  show transRemoveWhitespace [0xC3, 32, 0xA9] ≠ transRemoveWhitespace [0xC3, 0xA9]
  decide

/-- Two arguments, one encoded twice. -/
theorem Sample.veil_paired : PairedArguments { path := b!"/", rawQuery := b!"a=attack&b=+" } { path := b!"/", rawQuery := b!"b=%20&a=%2541TTack" }
    [(b!"a", b!"attack", b!"%41TTack"), (b!"b", b!" ", b!" ")] := by
  have arg : ∀ p n v : Bytes, p ≠ [] → queryUnescape (p.takeWhile (· != 61)) = some n → queryUnescape (p.drop ((p.takeWhile (· != 61)).length + 1)) = some v →
      IsPiece p (.arg n v) := fun p n v hp h1 h2 => (key_arg hp n v).1 ⟨h1, h2⟩
  refine ⟨rfl, [.arg b!"a" b!"attack", .arg b!"b" b!" "], [.arg b!"b" b!" ", .arg b!"a" b!"%41TTack"], ?_, ?_, ?_, ?_⟩
  · exact .more (s := b!"a=attack") (c := 38) (by decide) (arg _ _ _ (by decide) rfl rfl) (by decide) (.one (by decide) (arg _ _ _ (by decide) rfl rfl))
  · exact .more (s := b!"b=%20") (c := 38) (by decide) (arg _ _ _ (by decide) rfl rfl) (by decide) (.one (by decide) (arg _ _ _ (by decide) rfl rfl))
  · exact .refl _
  · exact .swap ..

example (h : GoMap) : outcome ((newTransaction queryEnv.limits).steps queryEnv (rules [(2, veilRule [.urlDecode, .lowercase] (.argsGet {}))]) 9
      (tickOps b!"a=attack&b=+" h)) =
    outcome ((newTransaction queryEnv.limits).steps queryEnv (rules [(2, veilRule [.urlDecode, .lowercase] (.argsGet {}))]) 9 (tickOps b!"b=%20&a=%2541TTack" h)) := by
  refine C122_arguments (env := queryEnv) rfl (veil_stock (by exact trivial) ?_) (fun ts v hr => by rw [(veil_reads hr).1]; rintro (h | h) <;> cases h) veil_paired
    (fun ts v f hr _ w hw _ t => ?_) [.processConnection b!"1.2.3.4" b!"5" [] []] [.processRequestHeader (some h), .result] b!"GET" b!"HTTP/1.1" 9
  · intro x hx
    simp only [List.mem_cons, List.not_mem_nil, or_false] at hx
    rcases hx with rfl | rfl <;> trivial
  · rw [(veil_reads hr).2]
    simp only [List.mem_cons, List.not_mem_nil, or_false] at hw
    rcases hw with rfl | rfl
    · exact veil_dissolved t
    · exact .same _ _

end Verif
