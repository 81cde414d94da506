import Verif.Proofs.Guise
import Verif.Props.Query
import Verif.Props.Multipart
/-! C114: what no rule reads makes no difference. -/
namespace Verif
open Sample Spec

/-! ### What a variable reads -/

/-- The selectors keep the name: it is included, if anything is, and not excluded. -/
def Spec.Wanted (f : Filter) (name : Bytes) : Prop :=
  (f.incl = [] ∨ name ∈ f.incl) ∧ (f.inclRx = [] ∨ ∃ r ∈ f.inclRx, r.run name = true) ∧ name ∉ f.excl ∧ ¬ ∃ r ∈ f.exclRx, r.run name = true

open Classical in
/-- The entries kept have the same values, in any order. -/
def Spec.SameValues (f : Filter) (m m' : GoMap) : Prop :=
  ((m.filter fun e => decide (Wanted f e.1)).flatMap Prod.snd).Perm ((m'.filter fun e => decide (Wanted f e.1)).flatMap Prod.snd)

/-- The entries kept have the same names. -/
def Spec.SameNames (f : Filter) (m m' : GoMap) : Prop := ∀ name, Wanted f name → (name ∈ m.map Prod.fst ↔ name ∈ m'.map Prod.fst)

/-- The arguments of the query. -/
def Spec.queryOf (lib : Lib) (k : Facts) : GoMap :=
  match k.url with
  | none => []
  | some u => (lib.parseQuery u.rawQuery).1

/-- The lines of a header. -/
def Spec.linesOf (h : Option GoMap) (name : Bytes) : List Bytes :=
  match (h.getD []).find? fun e => e.1 == name with
  | none => []
  | some e => e.2

/-- A request that may have a body. -/
def Spec.Posts (k : Facts) : Prop := k.method ∈ [b!"POST", b!"PUT", b!"PATCH"]

/-- The body is read the same way: in neither case, or in both with the same content type. -/
def Spec.SameReading (k k' : Facts) : Prop :=
  (Posts k ↔ Posts k') ∧ (Posts k → (firstValue k.headers b!"Content-Type").getD [] = (firstValue k'.headers b!"Content-Type").getD [])

/-- What REQUEST_URI takes of an URL. -/
def Spec.uriOf (u : URL) : URL := { path := u.path, rawPath := u.rawPath, forceQuery := u.forceQuery, rawQuery := u.rawQuery, fragment := u.fragment }

/-- The variable finds the same in what the host has told. -/
def Spec.SeesSame (lib : Lib) : Var → Facts → Facts → Prop
  | .args g _, k, k' => SameValues g (queryOf lib k) (queryOf lib k') ∧ SameReading k k'
  | .argsNames g _, k, k' => SameNames g (queryOf lib k) (queryOf lib k') ∧ SameReading k k'
  | .argsGet f, k, k' => SameValues f (queryOf lib k) (queryOf lib k')
  | .argsGetNames f, k, k' => SameNames f (queryOf lib k) (queryOf lib k')
  | .argsPost _, k, k' => SameReading k k'
  | .argsPostNames _, k, k' => SameReading k k'
  | .queryString, k, k' => k.url.map URL.rawQuery = k'.url.map URL.rawQuery
  | .remoteAddr, k, k' => k.srcIp = k'.srcIp
  | .requestBasename, k, k' => k.url.map URL.path = k'.url.map URL.path
  | .requestBody, k, k' => SameReading k k'
  | .requestCookies _, k, k' => linesOf k.headers b!"Cookie" = linesOf k'.headers b!"Cookie"
  | .requestCookiesNames _, k, k' => linesOf k.headers b!"Cookie" = linesOf k'.headers b!"Cookie"
  | .requestFilename, k, k' => k.url.map URL.path = k'.url.map URL.path
  | .requestHeaders f, k, k' => SameValues f (k.headers.getD []) (k'.headers.getD [])
  | .requestHeadersNames f, k, k' => (k.url = none ↔ k'.url = none) ∧ SameNames f (k.headers.getD []) (k'.headers.getD [])
  | .requestMethod, k, k' => k.method = k'.method
  | .requestProtocol, k, k' => k.proto = k'.proto
  | .requestUri, k, k' => k.url.map uriOf = k'.url.map uriOf
  | .responseBody, _, _ => True
  | .responseContentLength, k, k' => (firstValue k.respHeaders b!"Content-Length").getD [] = (firstValue k'.respHeaders b!"Content-Length").getD []
  | .responseContentType, k, k' => (firstValue k.respHeaders b!"Content-Type").getD [] = (firstValue k'.respHeaders b!"Content-Type").getD []
  | .responseHeaders f, k, k' => SameValues f (k.respHeaders.getD []) (k'.respHeaders.getD [])
  | .responseHeadersNames f, k, k' => SameNames f (k.respHeaders.getD []) (k'.respHeaders.getD [])
  | .responseProtocol, k, k' => k.respProto = k'.respProto
  | .responseStatus, k, k' => k.status = k'.status
  | .count v, k, k' => SeesSame lib v k k'
  | .custom _, _, _ => False

/-- The rules, or rules chained to them, have the variable. -/
def Spec.ReadBy (rs : RuleSet) (v : Var) : Prop := ∃ p, ∃ r ∈ rs.phases p, v ∈ r.vars ∨ ∃ s ∈ r.subRules, v ∈ s.vars

/-- What the rules read is the same. -/
def Spec.Unnoticed (lib : Lib) (rs : RuleSet) (k k' : Facts) : Prop := ∀ v, ReadBy rs v → SeesSame lib v k k'

/-- Two histories in which the host tells different things, the difference going unnoticed at
every point. -/
inductive Spec.Retold (lib : Lib) (rs : RuleSet) : Facts → Facts → List Op → List Op → Prop
  | nil {k k' : Facts} : Retold lib rs k k' [] []
  | cons {k k' : Facts} {op op' : Op} {a b : List Op} : Kin op op' → Unnoticed lib rs (told k op) (told k' op') →
      Retold lib rs (told k op) (told k' op') a b → Retold lib rs k k' (op :: a) (op' :: b)

/-- What is answered and the rules evaluated, or a panic. -/
def Spec.outcome (x : Res (Tx × List Out × Trace)) : Res (List Out × Trace) := x.bind fun y => .ok y.2

/-! ### Variables -/

theorem wanted_keep (f : Filter) (name : Bytes) : f.keep name = true ↔ Wanted f name := f.keep_iff name

theorem Spec.SameValues.fetch {f : Filter} {m m' : GoMap} (h : SameValues f m m') (o : IterOrd) : (f.fetch o m).Perm (f.fetch o m') := by
  classical
  have e : ∀ m : GoMap, (m.filter fun e => f.keep e.1) = m.filter fun e => decide (Wanted f e.1) := by
    intro m
    refine List.filter_congr fun x _ => ?_
    rw [Bool.eq_iff_iff, wanted_keep, decide_eq_true_iff]
  refine (f.fetch_perm o m).trans (.trans ?_ (f.fetch_perm o m').symm)
  rw [e, e]
  exact h

theorem Spec.SameNames.names {f : Filter} {m m' : GoMap} (h : SameNames f m m') (o : IterOrd) : (f.names o m).Perm (f.names o m') := by
  refine perm_of_nodup (f.names_nodup o m) (f.names_nodup o m') fun name => ?_
  rw [f.mem_names, f.mem_names, wanted_keep]
  exact and_congr_left (h name)

theorem readCookie_lines (h : GoMap) : readCookie h = (linesOf (some h) b!"Cookie").foldl readCookieLine [] := by
  simp only [readCookie, linesOf, lookup_find, Option.getD_some]
  cases h.find? fun e => e.1 == b!"Cookie" <;> rfl

theorem posts_iff (t : Tx) : hasBodyMethod t.method = true ↔ Posts t.facts := by
  show _ ↔ t.method ∈ _
  simp [hasBodyMethod, or_assoc]

section
variable {env : Env} {S : Facts → Facts → Prop}

theorem parseBody_guise (tp : BodyType) (bnd : Bytes) {t u : Tx} (h : Guise S t u) :
    (parseBody env tp bnd t).Both (fun x y => Guise S x.1 y.1 ∧ x.2 = y.2) (parseBody env tp bnd u) := by
  have eb : u.reqBody = t.reqBody := h.get Tx.reqBody fun _ _ => rfl
  cases tp with
  | urlencoded =>
    have hw := h.map (f := fun t' => { t' with reqBody := t.reqBody.string.1 }) (fun _ _ => rfl) (fun _ => rfl)
    simp only [parseBody, eb]
    split
    · exact .ok ⟨hw.map (f := fun t => t.abortWithError 413 errOutOfMemLimit) (fun _ _ => rfl) (fun _ => rfl), rfl⟩
    · exact .ok ⟨hw, rfl⟩
  | multipart =>
    rcases hf : env.lib.readForm t.reqBody.content bnd env.limits.requestBodyInMem with ⟨r, p⟩
    simp only [parseBody, eb, hf]
    have hw := h.map (f := fun t' => { t' with reqBody := t.reqBody.afterForm p }) (fun _ _ => rfl) (fun _ => rfl)
    cases r with
    | ok m => exact .ok ⟨hw, rfl⟩
    | tooLarge => exact .ok ⟨hw.map (f := fun t => t.abortWithError 413 errMessageTooLarge) (fun _ _ => rfl) (fun _ => rfl), rfl⟩
    | err e => exact .ok ⟨hw, rfl⟩
    | hang => exact .fuel

theorem bodyLoop_guise (ct bnd : Bytes) : ∀ (tps : List BodyType) {t u : Tx}, Guise S t u →
    (requestBodyLoop env ct bnd tps t).Both (fun x y => Guise S x.1 y.1 ∧ x.2 = y.2) (requestBodyLoop env ct bnd tps u)
  | [], t, u, h => .ok ⟨h, rfl⟩
  | tp :: tps, t, u, h => by
    have ec : u.cache = t.cache := h.get Tx.cache fun _ _ => rfl
    simp only [requestBodyLoop, ec]
    split
    · exact bodyLoop_guise ct bnd tps h
    · cases t.cache.lookup tp with
      | some res =>
        simp only
        split
        · exact bodyLoop_guise ct bnd tps h
        · exact .ok ⟨h, rfl⟩
      | none =>
        simp only
        refine (parseBody_guise tp bnd h).bind fun x y hxy => ?_
        obtain ⟨x, res, err⟩ := x
        obtain ⟨y, res', err'⟩ := y
        obtain ⟨h1, h2⟩ := hxy
        cases h2
        have h1 := h1.map (f := fun t => t.setCache tp res) (fun _ _ => rfl) (fun _ => rfl)
        cases err with
        | some e => exact .ok ⟨h1.map (f := fun t => { t with reqBodyError := some e }) (fun _ _ => rfl) (fun _ => rfl), rfl⟩
        | none =>
          simp only
          split
          · exact bodyLoop_guise ct bnd tps h1
          · exact .ok ⟨h1, rfl⟩

theorem Spec.SameReading.method {t u : Tx} (hr : SameReading t.facts u.facts) : hasBodyMethod u.method = hasBodyMethod t.method := by
  rw [Bool.eq_iff_iff, posts_iff, posts_iff]
  exact hr.1.symm

theorem Spec.SameReading.type {t u : Tx} (hr : SameReading t.facts u.facts) (hm : hasBodyMethod t.method = true) :
    headerGet u.reqHeader b!"Content-Type" = headerGet t.reqHeader b!"Content-Type" := by
  rw [headerGet_first, headerGet_first]
  exact (hr.2 ((posts_iff t).1 hm)).symm

theorem bodyParse_guise {t u : Tx} (h : Guise S t u) (hr : SameReading t.facts u.facts) :
    (requestBodyParse env t).Both (fun x y => Guise S x.1 y.1 ∧ x.2 = y.2) (requestBodyParse env u) := by
  have eb : u.reqBody = t.reqBody := h.get Tx.reqBody fun _ _ => rfl
  simp only [requestBodyParse, hr.method, eb]
  cases hm : hasBodyMethod t.method with
  | false => exact .ok ⟨h, rfl⟩
  | true =>
    rw [hr.type hm]
    simp only [Bool.not_true, Bool.false_eq_true, if_false]
    split
    · exact .ok ⟨h, rfl⟩
    · exact bodyLoop_guise _ _ _ h

theorem post_guise (f : Filter) {t u : Tx} (h : Guise S t u) (hr : SameReading t.facts u.facts) :
    (fetchArgsPost env f t).Both (fun x y => x.1 = y.1 ∧ Guise S x.2 y.2) (fetchArgsPost env f u) := by
  refine (bodyParse_guise h hr).bind fun x y hxy => ?_
  obtain ⟨x, tp, v⟩ := x
  obtain ⟨y, tp', v'⟩ := y
  obtain ⟨h1, h2⟩ := hxy
  cases h2
  simp only
  split <;> exact .ok ⟨rfl, h1⟩

theorem postNames_guise (f : Filter) {t u : Tx} (h : Guise S t u) (hr : SameReading t.facts u.facts) :
    (fetchArgsPostNames env f t).Both (fun x y => x.1 = y.1 ∧ Guise S x.2 y.2) (fetchArgsPostNames env f u) := by
  refine (bodyParse_guise h hr).bind fun x y hxy => ?_
  obtain ⟨x, tp, v⟩ := x
  obtain ⟨y, tp', v'⟩ := y
  obtain ⟨h1, h2⟩ := hxy
  cases h2
  simp only
  split <;> first | exact .ok ⟨rfl, h1⟩ | exact .panic

theorem get_query (f : Filter) (t : Tx) (hf : ∀ m, m = [] → f.fetch env.ord m = []) : fetchArgsGet env f t = f.fetch env.ord (queryOf env.lib t.facts) := by
  show _ = f.fetch env.ord (match t.url with | none => [] | some u => (env.lib.parseQuery u.rawQuery).1)
  simp only [fetchArgsGet]
  cases t.url with
  | none => exact (hf [] rfl).symm
  | some u => rfl

theorem unread_fetch_nil (f : Filter) (o : IterOrd) : f.fetch o [] = [] := (f.fetch_perm o []).eq_nil

theorem unread_names_nil (f : Filter) (o : IterOrd) : f.names o [] = [] := by
  refine List.eq_nil_iff_forall_not_mem.2 fun k hk => ?_
  rw [f.mem_names] at hk
  cases hk.1

theorem getNames_query (f : Filter) (t : Tx) : fetchArgsGetNames env f t = f.names env.ord (queryOf env.lib t.facts) := by
  show _ = f.names env.ord (match t.url with | none => [] | some u => (env.lib.parseQuery u.rawQuery).1)
  simp only [fetchArgsGetNames]
  cases t.url with
  | none => exact (unread_names_nil f _).symm
  | some u => rfl

/-- A variable that finds the same shows the same. -/
theorem Spec.SeesSame.fetch : ∀ (v : Var) {t u : Tx}, Guise S t u → SeesSame env.lib v t.facts u.facts →
    (v.fetch env t).Both (fun x y => x.1.Perm y.1 ∧ Guise S x.2 y.2) (v.fetch env u) := by
  have get : ∀ (f : Filter) {t u : Tx}, SameValues f (queryOf env.lib t.facts) (queryOf env.lib u.facts) → (fetchArgsGet env f t).Perm (fetchArgsGet env f u) := by
    intro f t u h
    rw [get_query f t fun m e => e ▸ unread_fetch_nil f _, get_query f u fun m e => e ▸ unread_fetch_nil f _]
    exact h.fetch _
  have getNames : ∀ (f : Filter) {t u : Tx}, SameNames f (queryOf env.lib t.facts) (queryOf env.lib u.facts) →
      (fetchArgsGetNames env f t).Perm (fetchArgsGetNames env f u) := by
    intro f t u h
    rw [getNames_query, getNames_query]
    exact h.names _
  have url : ∀ {t u : Tx} {α : Type} {g : URL → α} (F : α → List Bytes), t.facts.url.map g = u.facts.url.map g →
      (match t.url with | none => [] | some u => F (g u)) = (match u.url with | none => [] | some u => F (g u)) := by
    intro t u α g F h
    have h : t.url.map g = u.url.map g := h
    cases ht : t.url <;> cases hu : u.url <;> rw [ht, hu] at h <;> simp at h <;> simp [h]
  have cookies : ∀ {t u : Tx} (F : GoMap → List Bytes), F [] = [] → linesOf t.facts.headers b!"Cookie" = linesOf u.facts.headers b!"Cookie" →
      (match t.reqHeader with | none => [] | some h => F (readCookie h)) = (match u.reqHeader with | none => [] | some h => F (readCookie h)) := by
    intro t u F hF h
    have key : ∀ o : Option GoMap, (match o with | none => [] | some h => F (readCookie h)) = F ((linesOf o b!"Cookie").foldl readCookieLine []) := by
      intro o
      cases o with
      | none => exact hF.symm
      | some m => simp only [readCookie_lines]
    rw [key, key]
    exact congrArg (fun l => F (l.foldl readCookieLine [])) h
  intro v
  induction v with
  | custom f => intro _ _ _ hv; exact hv.elim
  | count v ih =>
    intro t u h hv
    simp only [Var.fetch]
    refine (ih h hv).bind fun x y hxy => .ok ⟨?_, hxy.2⟩
    exact .of_eq (by rw [hxy.1.length_eq])
  | args a b =>
    intro t u h hv
    simp only [Var.fetch]
    refine (post_guise b h hv.2).bind fun x y hxy => .ok ⟨?_, hxy.2⟩
    rw [hxy.1]
    exact (get a hv.1).append_right _
  | argsNames a b =>
    intro t u h hv
    simp only [Var.fetch]
    refine (postNames_guise b h hv.2).bind fun x y hxy => .ok ⟨?_, hxy.2⟩
    rw [hxy.1]
    exact (getNames a hv.1).append_right _
  | argsGet f => intro t u h hv; exact .ok ⟨get f hv, h⟩
  | argsGetNames f => intro t u h hv; exact .ok ⟨getNames f hv, h⟩
  | argsPost f => intro t u h hv; exact (post_guise f h hv).imp fun a b hab => ⟨hab.1 ▸ .refl _, hab.2⟩
  | argsPostNames f => intro t u h hv; exact (postNames_guise f h hv).imp fun a b hab => ⟨hab.1 ▸ .refl _, hab.2⟩
  | queryString => intro t u h hv; exact .ok ⟨.of_eq (url (fun q => [q]) hv), h⟩
  | requestFilename => intro t u h hv; exact .ok ⟨.of_eq (url (fun q => [q]) hv), h⟩
  | requestBasename => intro t u h hv; exact .ok ⟨.of_eq (url (fun q => [basename q]) hv), h⟩
  | requestUri => intro t u h hv; exact .ok ⟨.of_eq (url (fun q => [env.lib.urlString q]) hv), h⟩
  | remoteAddr => intro t u h hv; exact .ok ⟨.of_eq (congrArg (fun x => [x]) hv), h⟩
  | requestMethod => intro t u h hv; exact .ok ⟨.of_eq (congrArg (fun x => [x]) hv), h⟩
  | requestProtocol => intro t u h hv; exact .ok ⟨.of_eq (congrArg (fun x => [x]) hv), h⟩
  | responseProtocol => intro t u h hv; exact .ok ⟨.of_eq (congrArg (fun x => [x]) hv), h⟩
  | responseStatus => intro t u h hv; exact .ok ⟨.of_eq (congrArg (fun x => [itoa x]) hv), h⟩
  | responseContentLength =>
    intro t u h hv
    simp only [Var.fetch, headerGet_first]
    have hv : (firstValue t.respHeader b!"Content-Length").getD [] = (firstValue u.respHeader b!"Content-Length").getD [] := hv
    rw [hv]
    exact .ok ⟨.refl _, h⟩
  | responseContentType =>
    intro t u h hv
    simp only [Var.fetch, headerGet_first]
    have hv : (firstValue t.respHeader b!"Content-Type").getD [] = (firstValue u.respHeader b!"Content-Type").getD [] := hv
    rw [hv]
    exact .ok ⟨.refl _, h⟩
  | requestCookies f => intro t u h hv; exact .ok ⟨.of_eq (cookies (f.fetch env.ord) (unread_fetch_nil _ _) hv), h⟩
  | requestCookiesNames f => intro t u h hv; exact .ok ⟨.of_eq (cookies (f.names env.ord) (unread_names_nil _ _) hv), h⟩
  | requestHeaders f => intro t u h hv; exact .ok ⟨SameValues.fetch hv _, h⟩
  | responseHeaders f => intro t u h hv; exact .ok ⟨SameValues.fetch hv _, h⟩
  | responseHeadersNames f => intro t u h hv; exact .ok ⟨SameNames.names hv _, h⟩
  | requestHeadersNames f =>
    intro t u h hv
    obtain ⟨hu, hv⟩ := hv
    have hu : t.url = none ↔ u.url = none := hu
    refine .ok ⟨?_, h⟩
    cases ht : t.url with
    | none => rw [hu.1 ht]
    | some a =>
      cases hu' : u.url with
      | none => rw [hu.2 hu'] at ht; cases ht
      | some b => exact SameNames.names hv _
  | requestBody =>
    intro t u h hr
    have hr : SameReading t.facts u.facts := hr
    have eb : u.reqBody = t.reqBody := h.get Tx.reqBody fun _ _ => rfl
    simp only [Var.fetch, fetchRequestBody, hr.method, eb]
    cases hm : hasBodyMethod t.method with
    | false => exact .ok ⟨.refl _, h⟩
    | true =>
      rw [hr.type hm]
      simp only [Bool.not_true, Bool.false_eq_true, if_false]
      split
      · exact .ok ⟨.refl _, h⟩
      · split
        · exact .ok ⟨.refl _, h⟩
        · split
          · exact .ok ⟨.refl _, h⟩
          · have hw := h.map (f := fun t' => { t' with reqBody := t.reqBody.string.1 }) (fun _ _ => rfl) (fun _ => rfl)
            split
            · exact .ok ⟨.refl _, hw.map (f := fun t => t.abortWithError 413 errOutOfMemLimit) (fun _ _ => rfl) (fun _ => rfl)⟩
            · exact .ok ⟨.refl _, hw⟩
  | responseBody =>
    intro t u h _
    have eb : u.respBody = t.respBody := h.get Tx.respBody fun _ _ => rfl
    simp only [Var.fetch, fetchResponseBody, eb]
    split
    · exact .ok ⟨.refl _, h⟩
    · have hw := h.map (f := fun t' => { t' with respBody := t.respBody.string.1 }) (fun _ _ => rfl) (fun _ => rfl)
      split
      · exact .ok ⟨.refl _, hw.map (f := fun t => t.abortWithError 500 errOutOfMemLimit) (fun _ _ => rfl) (fun _ => rfl)⟩
      · exact .ok ⟨.refl _, hw⟩

end

/-! ### Histories -/

theorem RuleSet.Stock.keepsFacts {rs : RuleSet} (h : rs.Stock) : rs.KeepsFacts := by
  have key : ∀ a : Action, a.Stock → a.KeepsFacts := by
    intro a ha
    cases a <;> first | trivial | exact ha.elim
  refine ⟨fun p r hr a ha => key a ?_, fun a ha => key a (h.default a ha)⟩
  have hs := h.rules p r hr
  rcases List.mem_append.1 ha with ha | ha
  · exact hs.1.actions a ha
  · obtain ⟨s, h1, h2⟩ := List.mem_flatMap.1 ha
    exact (hs.2 s h1).actions a h2

theorem unnoticed_refl {lib : Lib} {rs : RuleSet} (hrs : rs.Stock) (k : Facts) : Unnoticed lib rs k k := by
  have key : ∀ v : Var, v.Stock → SeesSame lib v k k := by
    intro v
    induction v with
    | custom f => intro h; exact h.elim
    | count v ih => exact ih
    | _ => intro _; simp [SeesSame, SameValues, SameNames, SameReading]
  rintro v ⟨p, r, hr, hv | ⟨s, hs, hv⟩⟩
  · exact key v ((hrs.rules p r hr).1.vars v hv)
  · exact key v (((hrs.rules p r hr).2 s hs).vars v hv)

theorem retold_outcome {env : Env} {rs : RuleSet} (hrs : rs.Stock) (n : Nat) {k k' : Facts} {a b : List Op} (h : Retold env.lib rs k k' a b) :
    ∀ {t u : Tx}, t.facts = k → u.facts = k' → Guise (Unnoticed env.lib rs) t u → outcome (t.steps env rs n a) = outcome (u.steps env rs n b) := by
  have hF : FetchGuised env (Unnoticed env.lib rs) (fun ts v => (∀ x ∈ ts, x.Stock) ∧ ReadBy rs v) := fun ts v hv _ _ hg =>
    (SeesSame.fetch v hg (hg.seen v hv.2)).imp fun x y hxy => ⟨by rw [funext (pipe_stock hv.1 x.2 y.2)]; exact hxy.1.map _, hxy.2⟩
  have hA : ∀ p, ∀ r ∈ rs.phases p, r.Reads (fun ts v => (∀ x ∈ ts, x.Stock) ∧ ReadBy rs v) := fun p r hr =>
    ⟨fun v hv => ⟨(hrs.rules p r hr).1.trans, p, r, hr, .inl hv⟩, fun s hs v hv => ⟨((hrs.rules p r hr).2 s hs).trans, p, r, hr, .inr ⟨s, hs, hv⟩⟩⟩
  induction h with
  | nil => intros; rfl
  | @cons k k' op op' a b hk hs _ ih =>
    rintro t u rfl rfl hg
    have hb := step_guise hF hrs hA n hk hg hs
    simp only [Tx.steps, outcome]
    generalize hx : t.step env rs n op = x, hy : u.step env rs n op' = y at hb
    cases hb with
    | panic => rfl
    | fuel => rfl
    | @ok x y hb =>
      obtain ⟨t1, o, tr⟩ := x
      obtain ⟨u1, o', tr'⟩ := y
      obtain ⟨h1, h2⟩ := hb
      cases h2
      have := ih (C68_call hrs.keepsFacts hx).1 (C68_call hrs.keepsFacts hy).1 h1
      simp only [Res.bind, outcome] at this ⊢
      generalize Tx.steps env rs n t1 a = x, Tx.steps env rs n u1 b = y at this
      cases x <;> cases y <;> simp_all

/-- C114: let the host tell a transaction other things, such that no rule reads a difference.
Then every call answers the same and the same rules are evaluated. -/
theorem C114_unread {env : Env} {rs : RuleSet} (hrs : rs.Stock) {a b : List Op} (h : Retold env.lib rs {} {} a b) (n : Nat) :
    outcome ((newTransaction env.limits).steps env rs n a) = outcome ((newTransaction env.limits).steps env rs n b) :=
  retold_outcome hrs n h rfl rfl ⟨rfl, unnoticed_refl hrs _⟩

/-- The same for rules loaded from text. -/
theorem C114_loaded {lib : Lib} {vo : VarOrd} {ord : IterOrd} {text : Bytes} {set : DireSet} (hload : DireSet.addSecLangString lib vo [] text = .ok (set, none))
    {a b : List Op} (h : Retold lib (set.execute newEngine).ruleSet {} {} a b) (n : Nat) :
    outcome ((set.execute newEngine).newTransaction.steps ((set.execute newEngine).env lib ord) (set.execute newEngine).ruleSet n a) =
      outcome ((set.execute newEngine).newTransaction.steps ((set.execute newEngine).env lib ord) (set.execute newEngine).ruleSet n b) :=
  C114_unread (env := (set.execute newEngine).env lib ord) (loaded_stock hload) h n

/-! ### What may be told otherwise -/

/-- The same calls, after a difference that goes unnoticed and stays so. -/
theorem retold_same {lib : Lib} {rs : RuleSet} {R : Facts → Facts → Prop} (hU : ∀ k k', R k k' → Unnoticed lib rs k k')
    (hT : ∀ op k k', R k k' → R (told k op) (told k' op)) : ∀ (ops : List Op) {k k' : Facts}, R k k' → Retold lib rs k k' ops ops
  | [], _, _, _ => .nil
  | op :: ops, _, _, h => .cons (.same op) (hU _ _ (hT op _ _ h)) (retold_same hU hT ops (hT op _ _ h))

/-- A history in which one call tells something else, and what comes after it. -/
theorem retold_once {lib : Lib} {rs : RuleSet} (hrs : rs.Stock) {R : Facts → Facts → Prop} (hU : ∀ k k', R k k' → Unnoticed lib rs k k')
    (hT : ∀ op k k', R k k' → R (told k op) (told k' op)) {op op' : Op} (hk : Kin op op') (hR : ∀ k, R (told k op) (told k op')) (after : List Op) :
    ∀ (before : List Op) (k : Facts), Retold lib rs k k (before ++ op :: after) (before ++ op' :: after)
  | [], k => .cons hk (hU _ _ (hR k)) (retold_same hU hT after (hR k))
  | o :: before, k => .cons (.same o) (unnoticed_refl hrs _) (retold_once hrs hU hT hk hR after before (told k o))

/-- C114, an instance: no rule depends on the address or the port the client connected to. -/
theorem C114_destination {env : Env} {rs : RuleSet} (hrs : rs.Stock) (before after : List Op) (ip port dst dport dst' dport' : Bytes) (n : Nat) :
    outcome ((newTransaction env.limits).steps env rs n (before ++ .processConnection ip port dst dport :: after)) =
      outcome ((newTransaction env.limits).steps env rs n (before ++ .processConnection ip port dst' dport' :: after)) := by
  refine C114_unread hrs (retold_once hrs (R := fun k k' => k' = { k with dstIp := k'.dstIp, dstPort := k'.dstPort }) ?_ ?_ (.connection ..) ?_ after before {}) n
  · intro k k' h v hv
    have hr := unnoticed_refl (lib := env.lib) hrs k v hv
    rw [h]
    revert hr
    clear hv
    induction v with
    | count v ih => exact ih
    | _ => exact id
  · intro op k k' h
    cases op with
    | processRequestHeader hd => rw [h]; cases hd <;> rfl
    | processResponseHeaders c p hd => rw [h]; cases hd <;> rfl
    | _ => rw [h]; rfl
  · intro k; rfl

/-- The variable, or the one it counts, is not this one. -/
def Spec.Besides (p : Var → Prop) : Var → Prop
  | .count v => Besides p v
  | v => ¬ p v

/-- Neither QUERY_STRING nor REQUEST_URI, which show the query as it is spelled. -/
def Spec.Decoded : Var → Prop := Besides fun v => v = .queryString ∨ v = .requestUri

/-- The same URL, with a query that says the same: the same arguments, in any order and however
they are percent-encoded. -/
def Spec.SameArguments (u u' : URL) : Prop :=
  u' = { u with rawQuery := u'.rawQuery } ∧ ∃ ps ps', Query u.rawQuery ps ∧ Query u'.rawQuery ps' ∧ (argsOf ps).Perm (argsOf ps')

theorem SameArguments.values {u u' : URL} (h : SameArguments u u') (f : Filter) :
    SameValues f (parseQuery u.rawQuery).1 (parseQuery u'.rawQuery).1 ∧ SameNames f (parseQuery u.rawQuery).1 (parseQuery u'.rawQuery).1 := by
  obtain ⟨-, ps, ps', h1, h2, h3⟩ := h
  rw [parseQuery_query h1, parseQuery_query h2]
  constructor
  · have e := fun cs => addPairs_values [] cs fun k => @decide (Wanted f k) (Classical.propDecidable _)
    refine (e _).trans (.trans ?_ (e _).symm)
    exact ((h3.filter _).map _).append_left _
  · intro name _
    rw [addPairs_keys, addPairs_keys, (h3.map Prod.fst).mem_iff]

/-- C114, an instance: how the arguments of a query are percent-encoded and in which order they
come does not matter to rules that read neither QUERY_STRING nor REQUEST_URI. -/
theorem C114_query {env : Env} (hl : env.lib.parseQuery = parseQuery) {rs : RuleSet} (hrs : rs.Stock) (hv : ∀ v, ReadBy rs v → Decoded v) {u u' : URL}
    (hu : SameArguments u u') (before after : List Op) (m p : Bytes) (n : Nat) :
    outcome ((newTransaction env.limits).steps env rs n (before ++ .processRequestURL (some u) m p :: after)) =
      outcome ((newTransaction env.limits).steps env rs n (before ++ .processRequestURL (some u') m p :: after)) := by
  refine C114_unread hrs (retold_once hrs
    (R := fun k k' => k' = { k with url := k'.url } ∧ (k.url = k'.url ∨ k.url = some u ∧ k'.url = some u')) ?_ ?_ (.url ..) ?_ after before {}) n
  · rintro k k' ⟨h1, h2 | ⟨h2, h3⟩⟩ v hr
    · rw [h1, ← h2]
      exact unnoticed_refl hrs k v hr
    · have hs := unnoticed_refl (lib := env.lib) hrs k v hr
      have hd := hv v hr
      rw [h1, h3]
      have q1 : queryOf env.lib k = (parseQuery u.rawQuery).1 := by simp only [queryOf, h2, hl]
      have q2 : queryOf env.lib { k with url := some u' } = (parseQuery u'.rawQuery).1 := by simp only [queryOf, hl]
      have hp : u'.path = u.path := by rw [hu.1]
      clear hr
      induction v with
      | count v ih => exact ih hs hd
      | custom f => exact hs.elim
      | queryString => exact absurd (.inl rfl) hd
      | requestUri => exact absurd (.inr rfl) hd
      | args g f => exact ⟨by rw [q1, q2]; exact (SameArguments.values hu g).1, hs.2⟩
      | argsNames g f => exact ⟨by rw [q1, q2]; exact (SameArguments.values hu g).2, hs.2⟩
      | argsGet f => show SameValues _ _ _; rw [q1, q2]; exact (SameArguments.values hu f).1
      | argsGetNames f => show SameNames _ _ _; rw [q1, q2]; exact (SameArguments.values hu f).2
      | requestBasename => show k.url.map URL.path = some u'.path; rw [h2, hp]; rfl
      | requestFilename => show k.url.map URL.path = some u'.path; rw [h2, hp]; rfl
      | requestHeadersNames f => exact ⟨by rw [h2]; simp, hs.2⟩
      | _ => exact hs
  · rintro op k k' ⟨h1, h2⟩
    cases op with
    | processRequestHeader hd => cases hd <;> exact ⟨by rw [h1]; rfl, h2⟩
    | processResponseHeaders c p hd => cases hd <;> exact ⟨by rw [h1]; rfl, h2⟩
    | processRequestURL a m p => exact ⟨by rw [h1]; rfl, .inl rfl⟩
    | _ => exact ⟨by rw [h1]; rfl, h2⟩
  · intro k
    exact ⟨rfl, .inr ⟨rfl, rfl⟩⟩

/-- The variable shows nothing of the request header of this name. -/
def Spec.Ignores (name : Bytes) : Var → Prop := Besides fun v =>
  ∃ f, Wanted f name ∧ (v = .requestHeaders f ∨ v = .requestHeadersNames f)

open Classical in
theorem filter_unwanted {f : Filter} {name : Bytes} (hn : ¬ Wanted f name) (m : GoMap) :
    (m.filter fun e => e.1 != name).filter (fun e => decide (Wanted f e.1)) = m.filter fun e => decide (Wanted f e.1) := by
  rw [List.filter_filter]
  refine List.filter_congr fun e _ => ?_
  by_cases h : e.1 = name
  · rw [h]; simp [hn]
  · simp [h]

theorem find_other {name other : Bytes} (h : other ≠ name) (m : GoMap) :
    (m.filter fun e => e.1 != name).find? (fun e => e.1 == other) = m.find? fun e => e.1 == other := by
  rw [List.find?_filter]
  congr 1
  funext e
  by_cases he : e.1 = other
  · simp [he, h]
  · simp [he]

/-- C114, an instance: a request header that no rule reads may be there or not and have any
values.  `Cookie` and `Content-Type` are headers that other variables read. -/
theorem C114_header {env : Env} {rs : RuleSet} (hrs : rs.Stock) {name : Bytes} (hv : ∀ v, ReadBy rs v → Ignores name v) (hc : name ≠ b!"Cookie")
    (ht : name ≠ b!"Content-Type") {h h' : GoMap} (hh : h.filter (·.1 != name) = h'.filter (·.1 != name)) (before after : List Op) (n : Nat) :
    outcome ((newTransaction env.limits).steps env rs n (before ++ .processRequestHeader (some h) :: after)) =
      outcome ((newTransaction env.limits).steps env rs n (before ++ .processRequestHeader (some h') :: after)) := by
  refine C114_unread hrs (retold_once hrs
    (R := fun k k' => k' = { k with headers := k'.headers } ∧ (k.headers = k'.headers ∨ k.headers = some h ∧ k'.headers = some h')) ?_ ?_ (.header ..) ?_ after before {}) n
  · rintro k k' ⟨h1, h2 | ⟨h2, h3⟩⟩ v hr
    · rw [h1, ← h2]
      exact unnoticed_refl hrs k v hr
    · have hs := unnoticed_refl (lib := env.lib) hrs k v hr
      have hd := hv v hr
      rw [h1, h3]
      have ff : ∀ other, other ≠ name → h.find? (fun e => e.1 == other) = h'.find? fun e => e.1 == other := by
        intro other ho
        rw [← find_other ho h, hh, find_other ho h']
      have fv : (firstValue k.headers b!"Content-Type").getD [] = (firstValue (some h') b!"Content-Type").getD [] := by
        rw [h2]
        simp only [firstValue, Option.bind_eq_bind, Option.bind_some, ff _ ht.symm]
      have fc : linesOf k.headers b!"Cookie" = linesOf (some h') b!"Cookie" := by
        rw [h2]
        simp only [linesOf, Option.getD_some, ff _ hc.symm]
      have sv : ∀ f, ¬ Wanted f name → SameValues f (k.headers.getD []) h' := by
        intro f hf
        rw [h2, Option.getD_some, SameValues, ← filter_unwanted hf h, hh, filter_unwanted hf h']
      have sn : ∀ f, ¬ Wanted f name → SameNames f (k.headers.getD []) h' := by
        intro f hf other ho
        have hne : other ≠ name := fun e => hf (e ▸ ho)
        rw [h2, Option.getD_some]
        have key : ∀ m : GoMap, other ∈ m.map Prod.fst ↔ other ∈ (m.filter fun e => e.1 != name).map Prod.fst := by
          intro m
          simp [hne]
        rw [key h, hh, ← key h']
      clear hr
      induction v with
      | count v ih => exact ih hs hd
      | custom f => exact hs.elim
      | args g f => exact ⟨hs.1, Iff.rfl, fun _ => fv⟩
      | argsNames g f => exact ⟨hs.1, Iff.rfl, fun _ => fv⟩
      | argsPost f => exact ⟨Iff.rfl, fun _ => fv⟩
      | argsPostNames f => exact ⟨Iff.rfl, fun _ => fv⟩
      | requestBody => exact ⟨Iff.rfl, fun _ => fv⟩
      | requestCookies f => exact fc
      | requestCookiesNames f => exact fc
      | requestHeaders f => exact sv f fun hw => hd ⟨f, hw, .inl rfl⟩
      | requestHeadersNames f => exact ⟨Iff.rfl, sn f fun hw => hd ⟨f, hw, .inr rfl⟩⟩
      | _ => exact hs
  · rintro op k k' ⟨h1, h2⟩
    cases op with
    | processRequestHeader hd => cases hd <;> exact ⟨by rw [h1]; rfl, .inl rfl⟩
    | processResponseHeaders c p hd => cases hd <;> exact ⟨by rw [h1]; rfl, h2⟩
    | _ => exact ⟨by rw [h1]; rfl, h2⟩
  · intro k
    exact ⟨rfl, .inr ⟨rfl, rfl⟩⟩

/-! ### Examples -/

def Sample.tickRule (v : Var) : Rule := { vars := [v], op := some (.rx ⟨b!"A", (· == b!"A")⟩), actions := [.deny] }

theorem Sample.tick_rules {v : Var} {p : Int} {r : Rule} (h : r ∈ (rules [(2, tickRule v)]).phases p) : r = { tickRule v with phase := 2 } := by
  by_cases hp : p = 2
  · subst hp; exact List.mem_singleton.1 h
  · have he : (rules [(2, tickRule v)]).phases p = [] := by simp [rules, RuleSet.addRules, RuleSet.addRule, tickRule, hp, phaseEnd, phaseBegin]
    rw [he] at h; cases h

theorem Sample.tick_stock {v : Var} (hv : v.Stock) : (rules [(2, tickRule v)]).Stock := by
  refine ⟨fun p r h => ?_, fun _ h => by cases h⟩
  rw [tick_rules h]
  exact ⟨⟨fun w hw => by rw [List.mem_singleton.1 hw]; exact hv, (fun _ h => by cases h), (fun o h => by cases h; trivial),
    fun a ha => by rw [List.mem_singleton.1 ha]; trivial⟩, fun _ h => by cases h⟩

theorem Sample.tick_reads {v w : Var} (h : ReadBy (rules [(2, tickRule v)]) w) : w = v := by
  obtain ⟨p, r, hr, h⟩ := h
  rw [tick_rules hr] at h
  rcases h with h | ⟨s, hs, -⟩
  · exact List.mem_singleton.1 h
  · cases hs

def Sample.tickOps (q : Bytes) (h : GoMap) : List Op :=
  [.processConnection b!"1.2.3.4" b!"5" [] [], .processRequestURL (some { path := b!"/", rawQuery := q }) b!"GET" b!"HTTP/1.1",
    .processRequestHeader (some h), .result]

theorem Sample.tick_query : SameArguments { path := b!"/", rawQuery := b!"a=%41;b=+" } { path := b!"/", rawQuery := b!"b=%20&a=A" } := by
  have arg : ∀ p n v : Bytes, p ≠ [] → queryUnescape (p.takeWhile (· != 61)) = some n → queryUnescape (p.drop ((p.takeWhile (· != 61)).length + 1)) = some v →
      IsPiece p (.arg n v) := fun p n v hp h1 h2 => (key_arg hp n v).1 ⟨h1, h2⟩
  refine ⟨rfl, [.arg b!"a" b!"A", .arg b!"b" b!" "], [.arg b!"b" b!" ", .arg b!"a" b!"A"], ?_, ?_, ?_⟩
  · exact .more (s := b!"a=%41") (c := 59) (by decide) (arg _ _ _ (by decide) rfl rfl) (by decide) (.one (by decide) (arg _ _ _ (by decide) rfl rfl))
  · exact .more (s := b!"b=%20") (c := 38) (by decide) (arg _ _ _ (by decide) rfl rfl) (by decide) (.one (by decide) (arg _ _ _ (by decide) rfl rfl))
  · exact .swap ..

/-- The two queries say the same, and a rule on ARGS_GET refuses either. -/
example (h : GoMap) : outcome ((newTransaction queryEnv.limits).steps queryEnv (rules [(2, tickRule (.argsGet {}))]) 9 (tickOps b!"b=%20&a=A" h)) =
    outcome ((newTransaction queryEnv.limits).steps queryEnv (rules [(2, tickRule (.argsGet {}))]) 9 (tickOps b!"a=%41;b=+" h)) :=
  (C114_query (env := queryEnv) rfl (tick_stock (by exact trivial)) (fun v hv => by rw [tick_reads hv]; rintro (h | h) <;> cases h) tick_query
    [.processConnection b!"1.2.3.4" b!"5" [] []] [.processRequestHeader (some h), .result] b!"GET" b!"HTTP/1.1" 9).symm

example : (match outcome ((newTransaction queryEnv.limits).steps queryEnv (rules [(2, tickRule (.argsGet {}))]) 9 (tickOps b!"a=%41;b=+" [])) with
      | .ok (os, _) => os.getLast?.map fun o => match o with | .intervention i => i.disruptive | _ => false
      | _ => none) = some true := by decide +kernel

/-- With QUERY_STRING the spelling does matter. -/
theorem C114_spelling :
    outcome ((newTransaction queryEnv.limits).steps queryEnv (rules [(2, tickRule .queryString)]) 9 (tickOps b!"A" [])) ≠
      outcome ((newTransaction queryEnv.limits).steps queryEnv (rules [(2, tickRule .queryString)]) 9 (tickOps b!"%41" [])) := by decide +kernel

/-- A rule on all request headers but `X-Trace`: what that header says makes no difference. -/
example (vs : List Bytes) :
    outcome ((newTransaction queryEnv.limits).steps queryEnv (rules [(2, tickRule (.requestHeaders { excl := [b!"X-Trace"] }))]) 9
        (tickOps [] [(b!"X-Trace", vs), (b!"Accept", [b!"A"])])) =
      outcome ((newTransaction queryEnv.limits).steps queryEnv (rules [(2, tickRule (.requestHeaders { excl := [b!"X-Trace"] }))]) 9
        (tickOps [] [(b!"Accept", [b!"A"])])) := by
  refine C114_header (env := queryEnv) (name := b!"X-Trace") (tick_stock (by exact trivial)) (fun v hv => ?_) (by decide) (by decide) rfl
    [.processConnection b!"1.2.3.4" b!"5" [] [], .processRequestURL (some { path := b!"/", rawQuery := [] }) b!"GET" b!"HTTP/1.1"] [.result] 9
  rw [tick_reads hv]
  rintro ⟨f, hw, h | h⟩ <;> cases h
  exact hw.2.2.1 (List.mem_singleton.2 rfl)

/-- `Accept`, which the rule does read, makes one. -/
example : outcome ((newTransaction queryEnv.limits).steps queryEnv (rules [(2, tickRule (.requestHeaders { excl := [b!"X-Trace"] }))]) 9
        (tickOps [] [(b!"X-Trace", []), (b!"Accept", [b!"A"])])) ≠
      outcome ((newTransaction queryEnv.limits).steps queryEnv (rules [(2, tickRule (.requestHeaders { excl := [b!"X-Trace"] }))]) 9
        (tickOps [] [(b!"X-Trace", []), (b!"Accept", [b!"B"])])) := by decide +kernel

end Verif
