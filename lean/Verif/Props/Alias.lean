import Verif.Model.Alias
import Verif.Props.Variables
import Verif.Props.Media
/-! C111: what the host does to its own data afterwards. -/
namespace Verif
open Spec Sample

/-! ### The claim -/

/-- A call of a program whose data are values. -/
structure Spec.VCall where
  i : Nat
  env : Env
  rs : RuleSet
  op : Op

/-- The program that hands over copies. -/
def Spec.copied : Objs → List Stir → List VCall
  | _, [] => []
  | o, .setMap a m :: as => copied { o with maps := fun b => if b = a then m else o.maps b } as
  | o, .setUrl a u :: as => copied { o with urls := fun b => if b = a then u else o.urls b } as
  | o, .call i env rs op ref :: as => ⟨i, env, rs, op.given o ref⟩ :: copied o as

/-- Calls with values on several transactions. -/
def Spec.valueSteps (n : Nat) : List Tx → List VCall → Res (List Tx × List Out)
  | ts, [] => .ok (ts, [])
  | ts, c :: cs =>
    match ts[c.i]? with
    | none => .panic
    | some t => (t.step c.env c.rs n c.op).bind fun (t, o, _) =>
      (valueSteps n (ts.set c.i t) cs).bind fun (ts, os) => .ok (ts, o :: os)

/-- The rules the calls see do not alter what the host has told. -/
def Spec.AllKeep (as : List Stir) : Prop := ∀ i env rs op ref, .call i env rs op ref ∈ as → rs.KeepsFacts

/-- C111: it makes no difference whether a host hands over its header maps and URLs, and goes
on using and changing them, or copies of them: every call answers the same. -/
def C111_statement : Prop :=
  ∀ (n : Nat) (o : Objs) (ts : List Tx) (as : List Stir), AllKeep as →
    (Lent.steps n ⟨o, ts.map ({}, ·)⟩ as).bind (fun x => .ok x.2) = (valueSteps n ts (copied o as)).bind (fun x => .ok x.2)

/-! ### When it holds -/

/-- The address of an object that a call hands over: a map. -/
def Stir.mapGiven : Stir → Option Nat
  | .call _ _ _ (.processRequestHeader _) r => r
  | .call _ _ _ (.processResponseHeaders _ _ _) r => r
  | _ => none

/-- A URL. -/
def Stir.urlGiven : Stir → Option Nat
  | .call _ _ _ (.processRequestURL _ _ _) r => r
  | _ => none

/-- No object is changed once it has been handed over. -/
def Spec.HandsOff : List Stir → Prop
  | [] => True
  | a :: as => (∀ x m, a.mapGiven = some x → .setMap x m ∉ as) ∧ (∀ x u, a.urlGiven = some x → .setUrl x u ∉ as) ∧ HandsOff as

theorem through_none (o : Objs) (t : Tx) : t.through o {} = t := rfl

theorem follow_set {α : Type} {r : Option Nat} {mem : Nat → α} {own : Option α} {a : Nat} {v : α} (h : r ≠ some a) :
    follow r (fun b => if b = a then v else mem b) own = follow r mem own := by
  cases r with
  | none => rfl
  | some b => simp only [follow, if_neg (fun e : b = a => h (e ▸ rfl))]

/-- What is read through references after the call is what the call has left. -/
theorem through_after {o : Objs} {l : Links} {op : Op} {ref : Option Nat} {env : Env} {rs : RuleSet} (hrs : rs.KeepsFacts) {n : Nat} {t t' : Tx} {out : Out} {tr : Trace}
    (h : (t.through o l).step env rs n (op.given o ref) = .ok (t', out, tr)) : t'.through o (l.after op ref) = t' := by
  have hf := (C68_call hrs h).1
  have key : ∀ (l' : Links), (∀ a, l'.url = some a → t'.url = some (o.urls a)) → (∀ a, l'.req = some a → t'.reqHeader = some (o.maps a)) →
      (∀ a, l'.resp = some a → t'.respHeader = some (o.maps a)) → t'.through o l' = t' := by
    intro l' h1 h2 h3
    have e1 : follow l'.url o.urls t'.url = t'.url := by
      cases hl : l'.url with
      | none => rfl
      | some a => exact (h1 a hl).symm
    have e2 : follow l'.req o.maps t'.reqHeader = t'.reqHeader := by
      cases hl : l'.req with
      | none => rfl
      | some a => exact (h2 a hl).symm
    have e3 : follow l'.resp o.maps t'.respHeader = t'.respHeader := by
      cases hl : l'.resp with
      | none => rfl
      | some a => exact (h3 a hl).symm
    simp only [Tx.through, e1, e2, e3]
  have u : t'.url = (told (t.through o l).facts (op.given o ref)).url := by rw [← hf]; rfl
  have q : t'.reqHeader = (told (t.through o l).facts (op.given o ref)).headers := by rw [← hf]; rfl
  have p : t'.respHeader = (told (t.through o l).facts (op.given o ref)).respHeaders := by rw [← hf]; rfl
  have old1 : ∀ a, l.url = some a → (t.through o l).facts.url = some (o.urls a) := by
    intro a ha; simp only [Tx.facts, Tx.through, ha, follow]
  have old2 : ∀ a, l.req = some a → (t.through o l).facts.headers = some (o.maps a) := by
    intro a ha; simp only [Tx.facts, Tx.through, ha, follow]
  have old3 : ∀ a, l.resp = some a → (t.through o l).facts.respHeaders = some (o.maps a) := by
    intro a ha; simp only [Tx.facts, Tx.through, ha, follow]
  refine key _ (fun a ha => ?_) (fun a ha => ?_) (fun a ha => ?_)
  · rw [u]
    cases op
    case processRequestURL => cases ha; rfl
    case processRequestHeader x => cases ref <;> cases x <;> exact old1 a ha
    case processResponseHeaders c pr x => cases ref <;> cases x <;> exact old1 a ha
    all_goals exact old1 a ha
  · rw [q]
    cases op
    case processRequestURL => cases ref <;> exact old2 a ha
    case processRequestHeader x => cases ha; rfl
    case processResponseHeaders c pr x => cases ref <;> cases x <;> exact old2 a ha
    all_goals exact old2 a ha
  · rw [p]
    cases op
    case processRequestURL => cases ref <;> exact old3 a ha
    case processRequestHeader x => cases ref <;> cases x <;> exact old3 a ha
    case processResponseHeaders c pr x => cases ha; rfl
    all_goals exact old3 a ha

/-- No transaction refers to an object that will be changed. -/
def Lent.Safe (s : Lent) (as : List Stir) : Prop :=
  ∀ x ∈ s.txs, (∀ a m, x.1.req = some a ∨ x.1.resp = some a → .setMap a m ∉ as) ∧ ∀ a u, x.1.url = some a → .setUrl a u ∉ as

/-- What the transactions are, read through their references. -/
def Lent.seen (s : Lent) : List Tx := s.txs.map fun x => x.2.through s.objs x.1

theorem lent_values {n : Nat} : ∀ {as : List Stir} {s : Lent}, AllKeep as → HandsOff as → s.Safe as →
    (s.steps n as).bind (fun x => .ok (x.1.seen, x.2)) = valueSteps n s.seen (copied s.objs as) := by
  intro as
  induction as with
  | nil => intro s _ _ _; rfl
  | cons a as ih =>
    intro s hk ho hs
    have hk' : AllKeep as := fun i env rs op ref h => hk i env rs op ref (List.mem_cons_of_mem _ h)
    cases a with
    | setMap a m =>
      have hs' : Lent.Safe { s with objs := { s.objs with maps := fun b => if b = a then m else s.objs.maps b } } as :=
        fun x hx => ⟨fun b v h hm => (hs x hx).1 b v h (List.mem_cons_of_mem _ hm), fun b v h hm => (hs x hx).2 b v h (List.mem_cons_of_mem _ hm)⟩
      have e : Lent.seen { s with objs := { s.objs with maps := fun b => if b = a then m else s.objs.maps b } } = s.seen := by
        refine List.map_congr_left fun x hx => ?_
        have ne : ∀ b, x.1.req = some b ∨ x.1.resp = some b → b ≠ a := by
          rintro b hb rfl
          exact (hs x hx).1 b m hb List.mem_cons_self
        simp only [Tx.through, follow_set fun h => ne a (.inl h) rfl, follow_set fun h => ne a (.inr h) rfl]
      have := ih (s := { s with objs := { s.objs with maps := fun b => if b = a then m else s.objs.maps b } }) hk' ho.2.2 hs'
      rw [e] at this
      simp only [Lent.steps, Lent.step, Res.bind_ok', copied, List.nil_append]
      cases hr : Lent.steps n { s with objs := { s.objs with maps := fun b => if b = a then m else s.objs.maps b } } as with
      | ok x => rw [hr] at this; exact this
      | panic => rw [hr] at this; exact this
      | fuel => rw [hr] at this; exact this
    | setUrl a u =>
      have hs' : Lent.Safe { s with objs := { s.objs with urls := fun b => if b = a then u else s.objs.urls b } } as :=
        fun x hx => ⟨fun b v h hm => (hs x hx).1 b v h (List.mem_cons_of_mem _ hm), fun b v h hm => (hs x hx).2 b v h (List.mem_cons_of_mem _ hm)⟩
      have e : Lent.seen { s with objs := { s.objs with urls := fun b => if b = a then u else s.objs.urls b } } = s.seen := by
        refine List.map_congr_left fun x hx => ?_
        have ne : ∀ b, x.1.url = some b → b ≠ a := by
          rintro b hb rfl
          exact (hs x hx).2 b u hb List.mem_cons_self
        simp only [Tx.through, follow_set fun h => ne a h rfl]
      have := ih (s := { s with objs := { s.objs with urls := fun b => if b = a then u else s.objs.urls b } }) hk' ho.2.2 hs'
      rw [e] at this
      simp only [Lent.steps, Lent.step, Res.bind_ok', copied, List.nil_append]
      cases hr : Lent.steps n { s with objs := { s.objs with urls := fun b => if b = a then u else s.objs.urls b } } as with
      | ok x => rw [hr] at this; exact this
      | panic => rw [hr] at this; exact this
      | fuel => rw [hr] at this; exact this
    | call i env rs op ref =>
      simp only [Lent.steps, Lent.step, copied, valueSteps]
      have ei : s.seen[i]? = s.txs[i]?.map fun x => x.2.through s.objs x.1 := List.getElem?_map
      rw [ei]
      cases hi : s.txs[i]? with
      | none => rfl
      | some x =>
        obtain ⟨l, t⟩ := x
        simp only [Option.map_some]
        cases hst : (t.through s.objs l).step env rs n (op.given s.objs ref) with
        | panic => rfl
        | fuel => rfl
        | ok y =>
          obtain ⟨t', out, tr⟩ := y
          simp only [Res.bind_ok']
          have ha := through_after (hk i env rs op ref List.mem_cons_self) hst
          have es : Lent.seen { s with txs := s.txs.set i (l.after op ref, t') } = s.seen.set i t' := by
            simp only [Lent.seen, List.map_set, ha]
          have hs' : Lent.Safe { s with txs := s.txs.set i (l.after op ref, t') } as := by
            intro x hx
            rcases List.mem_or_eq_of_mem_set hx with hx | rfl
            · exact ⟨fun b v h hm => (hs x hx).1 b v h (List.mem_cons_of_mem _ hm), fun b v h hm => (hs x hx).2 b v h (List.mem_cons_of_mem _ hm)⟩
            · have h0 := hs _ (List.mem_of_getElem? hi)
              have h1 := ho.1
              have h2 := ho.2.1
              have old1 : ∀ b v, l.req = some b ∨ l.resp = some b → .setMap b v ∉ as := fun b v h hm => h0.1 b v h (List.mem_cons_of_mem _ hm)
              have old2 : ∀ b v, l.url = some b → .setUrl b v ∉ as := fun b v h hm => h0.2 b v h (List.mem_cons_of_mem _ hm)
              cases op
              case processRequestURL => exact ⟨old1, fun b v h => h2 b v h⟩
              case processRequestHeader => exact ⟨fun b v h => h.elim (fun h => h1 b v h) (fun h => old1 b v (.inr h)), old2⟩
              case processResponseHeaders => exact ⟨fun b v h => h.elim (fun h => old1 b v (.inl h)) (fun h => h1 b v h), old2⟩
              all_goals exact ⟨old1, old2⟩
          have := ih (s := { s with txs := s.txs.set i (l.after op ref, t') }) hk' ho.2.2 hs'
          rw [es] at this
          rw [← this]
          cases Lent.steps n { s with txs := s.txs.set i (l.after op ref, t') } as <;> rfl

/-- C111: so it is for hosts that do not change what they have handed over; they may hand over
the same object as often as they like, to any transactions.  So Model/Transaction, in which
what is handed over is a value, describes these hosts. -/
theorem C111_hands_off_partial (n : Nat) (o : Objs) (ts : List Tx) (as : List Stir) (hk : AllKeep as) (ho : HandsOff as) :
    (Lent.steps n ⟨o, ts.map ({}, ·)⟩ as).bind (fun x => .ok (x.1.seen, x.2)) = valueSteps n ts (copied o as) := by
  have e : Lent.seen ⟨o, ts.map ({}, ·)⟩ = ts := by
    simp only [Lent.seen, List.map_map]
    have : ((fun x : Links × Tx => x.2.through o x.1) ∘ fun t => (({} : Links), t)) = id := rfl
    rw [this, List.map_id]
  have := lent_values (n := n) (s := ⟨o, ts.map ({}, ·)⟩) hk ho (by
    intro x hx
    obtain ⟨t, _, rfl⟩ := List.mem_map.1 hx
    exact ⟨fun a m h => (by rcases h with h | h <;> cases h), fun a u h => by cases h⟩)
  rwa [e] at this

/-! ### What a change does -/

/-- C111: for a transaction that refers to a map with its request headers, changing the map is
like calling `ProcessRequestHeader` again, which processes no phase any more and returns
nothing. -/
theorem C111_retold_headers (env : Env) (rs : RuleSet) (n : Nat) (o : Objs) (l : Links) (a : Nat) (m : GoMap) (t : Tx)
    (hl : l.req = some a) (hr : l.resp ≠ some a) (hp : phaseRequestHeaders ≤ t.phase) :
    (t.through o l).step env rs n (.processRequestHeader (some m)) =
      .ok (t.through { o with maps := fun b => if b = a then m else o.maps b } l, .unit, []) := by
  simp only [Tx.step, processPhase, ge_iff_le]
  rw [if_pos (by exact hp)]
  simp only [Res.bind_ok', Tx.through, follow_set hr]
  rw [hl]
  simp only [follow, orEmpty, Option.getD_some, if_true]

/-- C111: the same for response headers and `ProcessResponseHeaders`. -/
theorem C111_retold_response (env : Env) (rs : RuleSet) (n : Nat) (o : Objs) (l : Links) (a : Nat) (m : GoMap) (t : Tx)
    (hl : l.resp = some a) (hr : l.req ≠ some a) (hp : phaseResponseHeaders ≤ t.phase) :
    (t.through o l).step env rs n (.processResponseHeaders t.respCode t.respProto (some m)) =
      .ok (t.through { o with maps := fun b => if b = a then m else o.maps b } l, .unit, []) := by
  simp only [Tx.step, processPhase, ge_iff_le]
  rw [if_pos (by exact hp)]
  simp only [Res.bind_ok', Tx.through, follow_set hr]
  rw [hl]
  simp only [follow, orEmpty, Option.getD_some, if_true]

/-- C111: the same for URLs and `ProcessRequestURL`. -/
theorem C111_retold_url (env : Env) (rs : RuleSet) (n : Nat) (o : Objs) (l : Links) (a : Nat) (u : URL) (t : Tx) (hl : l.url = some a) :
    (t.through o l).step env rs n (.processRequestURL (some u) t.method t.reqProto) =
      .ok (t.through { o with urls := fun b => if b = a then u else o.urls b } l, .unit, []) := by
  simp only [Tx.step, Tx.through]
  rw [hl]
  simp only [follow, if_true]

/-- C111: a transaction is not touched by changes of objects it does not refer to. -/
theorem C111_others (o : Objs) (l : Links) (a : Nat) (m : GoMap) (u : URL) (t : Tx) :
    (l.req ≠ some a → l.resp ≠ some a → t.through { o with maps := fun b => if b = a then m else o.maps b } l = t.through o l) ∧
    (l.url ≠ some a → t.through { o with urls := fun b => if b = a then u else o.urls b } l = t.through o l) :=
  ⟨fun h1 h2 => by simp only [Tx.through, follow_set h1, follow_set h2], fun h => by simp only [Tx.through, follow_set h]⟩

/-! ### The refutation -/

/-- Forms with a parameter called `evil` are denied. -/
def Sample.formRules : RuleSet :=
  { phases := fun p => if p = 3 then [{ phase := 3, vars := [.argsPostNames {}], op := some (.rx ⟨b!"evil", (· == b!"evil")⟩), actions := [.deny] }] else [] }

def Sample.formObjs : Objs := { maps := fun _ => [(b!"Content-Type", [b!"application/x-www-form-urlencoded"])], urls := fun _ => {} }

/-- A proxy that has the headers inspected and then, before the body, does `between` to its objects. -/
def Sample.proxy (between : List Stir) : List Stir :=
  [.call 0 mediaEnv formRules (.processRequestURL none b!"POST" []) none, .call 0 mediaEnv formRules (.processRequestHeader none) (some 7)] ++ between ++
  [.call 0 mediaEnv formRules (.appendRequestBody b!"evil=1" {}) none, .call 0 mediaEnv formRules .processRequestBody none, .call 0 mediaEnv formRules .result none]

theorem Sample.formRules_keep : formRules.KeepsFacts := by
  refine ⟨?_, by simp [formRules]⟩
  intro p r hr a ha
  simp only [formRules] at hr
  split at hr
  · rw [List.mem_singleton] at hr
    subst hr
    simp only [Rule.allActions, List.flatMap_nil, List.append_nil, List.mem_singleton] at ha
    subst ha
    trivial
  · cases hr

theorem Sample.proxy_keeps (between : List Stir) (h : ∀ a ∈ between, ∃ x m, a = .setMap x m) : AllKeep (proxy between) := by
  intro i env rs op ref hm
  simp only [proxy, List.mem_append, List.mem_cons, List.not_mem_nil, or_false, Stir.call.injEq] at hm
  rcases hm with ((⟨_, _, rfl, _⟩ | ⟨_, _, rfl, _⟩) | hm) | ⟨_, _, rfl, _⟩ | ⟨_, _, rfl, _⟩ | ⟨_, _, rfl, _⟩
  all_goals first
    | exact formRules_keep
    | (obtain ⟨_, _, e⟩ := h _ hm; cases e)

/-- Whether the last answer is a disruptive verdict. -/
def Sample.lentDenied (r : Res (List Out)) : Option Bool :=
  match r with
  | .ok os => os.getLast?.map fun o => match o with | .intervention i => i.disruptive | _ => false
  | _ => none

/-- The proxy removes hop-by-hop or content headers from the map it will forward: the body is
not inspected. -/
theorem C111_refuted : ¬ C111_statement := by
  intro h
  have := h 20 formObjs [newTransaction limits] (proxy [.setMap 7 []]) (proxy_keeps _ (by simp))
  have := congrArg lentDenied this
  revert this
  decide +kernel

example : lentDenied ((Lent.steps 20 ⟨formObjs, [({}, newTransaction limits)]⟩ (proxy [.setMap 7 []])).bind fun x => .ok x.2) = some false := by decide +kernel

/-- Changing another map, or the map before it is handed over, is harmless. -/
example : HandsOff (.setMap 7 [] :: .setMap 7 (formObjs.maps 0) :: proxy [.setMap 8 []]) := by
  simp only [HandsOff, proxy, Stir.mapGiven, Stir.urlGiven, List.cons_append, List.nil_append, List.mem_cons, List.not_mem_nil, reduceCtorEq, Option.some.injEq,
    Stir.setMap.injEq, or_false, false_or, not_false_eq_true, implies_true, and_true, true_and, false_implies]
  rintro x m rfl ⟨h, _⟩
  cases h

example : lentDenied ((Lent.steps 20 ⟨formObjs, [({}, newTransaction limits)]⟩ (.setMap 7 [] :: .setMap 7 (formObjs.maps 0) :: proxy [.setMap 8 []])).bind fun x => .ok x.2) =
    some true := by decide +kernel

/-- A host that takes header maps from a pool: the first transaction sees the headers of the
second request. -/
example : lentDenied ((Lent.steps 20 ⟨{ formObjs with maps := fun _ => [] }, [({}, newTransaction limits), ({}, newTransaction limits)]⟩
    (proxy [.setMap 7 (formObjs.maps 0), .call 1 mediaEnv formRules (.processRequestHeader none) (some 7)])).bind fun x => .ok x.2) = some true := by decide +kernel

end Verif
