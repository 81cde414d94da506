import Verif.Props.Plant
/-!
C98: rules that a host builds in Go from the stock variables, transformations, operators
and actions.
-/
namespace Verif
open Sample Spec

namespace Spec

/-- The rule set of a call. -/
noncomputable def kitOf (lib : Lib) (c : HostCall) : Kit := { Kit.plus {} (c.rules.map (chainOf lib.rx)) with defaults := c.defaults }

open Classical in
/-- A sequence of calls on the machine of C94: each evaluates the rules given with it, and
tells what `replied` says. -/
noncomputable def hostRun (lib : Lib) : Mach Held → List HostCall → Ending (Mach Held × List (Option Out))
  | m, [] => .returns (m, [])
  | m, c :: cs =>
    if Fatal m.known c.op then .panics
    else (callBy heldSight (evalChain lib { req := c.limits.requestBodyAccess, resp := c.limits.responseBodyAccess, inMem := c.limits.requestBodyInMem } c.defaults)
      (ofPhase (kitOf lib c).chains) m c.op).bind fun x =>
        (hostRun lib x.1 cs).bind fun y => .returns (y.1, replied (kitOf lib c).chains m c.op x.2 :: y.2)

/-- What is seen of what a call returns: everything but the number returned by `Next`. -/
def shownBy (c : HostCall) (o : Out) : Option Out :=
  match c.op with
  | .next => none
  | _ => some o

end Spec

theorem hostRules_mean (lib : Lib) (c : HostCall) : RulesMean lib (kitOf lib c) (hostRules lib c.rules c.defaults) :=
  addDefaults_means (addRules_means (.empty lib) c.rules) c.defaults

theorem host_lands {lib : Lib} {cs : List HostCall} : ∀ {m : Mach Held} {t : Tx}, LikeHeld m t →
    Lands (fun n => Tx.hostCalls lib n t cs) (fun x y => List.zipWith shownBy cs y.2 = x.2) (hostRun lib m cs) := by
  induction cs with
  | nil => intro m t _; exact .ok rfl
  | cons c cs ih =>
    intro m t h
    rw [hostRun]
    by_cases hf : Fatal m.known c.op
    · rw [if_pos hf]
      simp only [Tx.hostCalls, alike_fatal h hf]
      exact .panic
    · rw [if_neg hf]
      have hm := hostRules_mean lib c
      have hal := (alike_call (ord := c.ord) (lim := c.limits) c.op hm h hf).also
        (R' := fun x y => LikeHeld x.1 y.1 ∧ shownBy c y.2 = replied (kitOf lib c).chains m c.op x.2)
        (fun x y hxy hn => ⟨hxy.1, by
          obtain ⟨n, hn⟩ := hn
          obtain ⟨⟨u, o, tr⟩, hs, hy⟩ := Res.bind_eq_ok.1 hn
          cases hy
          by_cases hne : c.op = .next
          · simp only [shownBy, hne]; rfl
          · rw [← hxy.2, alike_reply hm h hf hs hne]
            simp only [shownBy]⟩)
      have := hal.bind (g := fun y n => (Tx.hostCalls lib n y.1 cs).bind fun z => .ok (z.1, y.2 :: z.2))
        (S := fun x y => List.zipWith shownBy (c :: cs) y.2 = x.2)
        (h := fun x => (hostRun lib x.1 cs).bind fun y => .returns (y.1, replied (kitOf lib c).chains m c.op x.2 :: y.2)) (fun x y hxy => by
          refine ((ih hxy.1).bind (g := fun z _ => .ok (z.1, y.2 :: z.2)) (S := fun x y => List.zipWith shownBy (c :: cs) y.2 = x.2)
            (h := fun y => .returns (y.1, replied (kitOf lib c).chains m c.op x.2 :: y.2)) ?_)
          intro u v huv
          exact .ok (by rw [List.zipWith_cons_cons, hxy.2, huv]))
      refine Eq.mp ?_ this
      congr
      funext n
      rw [Tx.hostCalls]
      cases t.step { lib, ord := c.ord, limits := c.limits } (hostRules lib c.rules c.defaults) n c.op <;> rfl

/-- C98.  For every transaction and every sequence of calls on it, with any rules made from
the stock parts and any default actions, added or changed between the calls like the
limits: the calls return what the reference says, panic when it panics, and do not return
when it does not. -/
theorem C98_exact (lib : Lib) (l : Limits) (cs : List HostCall) :
    Lands (fun n => Tx.hostCalls lib n (newTransaction l) cs) (fun x y => List.zipWith shownBy cs y.2 = x.2)
      (hostRun lib { known := { mem := l.requestBodyInMem, most := l.requestBody, respMost := l.responseBody } } cs) :=
  host_lands (alike_new l)

/-! ### Cases -/

/-- A connection, when phase 1 has one chain. -/
theorem hostRun_connection {lib : Lib} {c : HostCall} {ch : Chain} {a b d e : Bytes} (hop : c.op = .processConnection a b d e)
    (hk : ofPhase (kitOf lib c).chains 1 = [ch]) (l : Limits) (m : Mach Held)
    (hm : m = { known := { mem := l.requestBodyInMem, most := l.requestBody, respMost := l.responseBody, facts := { srcIp := a, srcPort := b, dstIp := d, dstPort := e } }, phase := 1 }) :
    (evalChain lib { req := c.limits.requestBodyAccess, resp := c.limits.responseBodyAccess, inMem := c.limits.requestBodyInMem } c.defaults 0 ch m = .panics →
      hostRun lib { known := { mem := l.requestBodyInMem, most := l.requestBody, respMost := l.responseBody } } [c] = .panics) ∧
    (evalChain lib { req := c.limits.requestBodyAccess, resp := c.limits.responseBodyAccess, inMem := c.limits.requestBodyInMem } c.defaults 0 ch m = .hangs →
      hostRun lib { known := { mem := l.requestBodyInMem, most := l.requestBody, respMost := l.responseBody } } [c] = .hangs) := by
  have hf : ∀ k, ¬ Fatal k c.op := fun k => by rw [hop]; exact id
  have key : ∀ r, endBy (evalChain lib { req := c.limits.requestBodyAccess, resp := c.limits.responseBodyAccess, inMem := c.limits.requestBodyInMem } c.defaults) 1 [ch] m = r →
      callBy heldSight (evalChain lib { req := c.limits.requestBodyAccess, resp := c.limits.responseBodyAccess, inMem := c.limits.requestBodyInMem } c.defaults)
        (ofPhase (kitOf lib c).chains) { known := { mem := l.requestBodyInMem, most := l.requestBody, respMost := l.responseBody } } c.op = r.bind fun m => .returns (m, []) := by
    rintro _ rfl
    simp only [callBy, hop, phaseOf, hk]
    refine (if_neg (show ¬ (1 : Int) ≤ 0 by decide)).trans ((if_neg (show ¬ (false = true) by decide)).trans ?_)
    rw [hm]
    rfl
  constructor
  · intro he
    have := key _ (endBy_crash (.crash (by rfl) he))
    rw [hostRun, if_neg (hf _), this]
    rfl
  · intro he
    have := key _ (endBy_none (by
      rintro ⟨o, h⟩
      cases h with
      | over h => exact absurd h (by simp)
      | crash hc h => cases hc; rw [he] at h; cases h
      | stop hc h _ => cases hc; rw [he] at h; cases h
      | go hc h _ _ => cases hc; rw [he] at h; cases h))
    rw [hostRun, if_neg (hf _), this]
    rfl

/-- A rule on the number of client addresses, which is always one, run on connection. -/
def countRule (op : Option (OpTok × Bytes)) (acts : List HostAct) : HostRule := .mk 1 1 [.count (.new .remoteAddr)] [] op false acts []

theorem countRule_asks (lib : Lib) (sw : Switches) (op : Option (OpTok × Bytes)) (acts : List HostAct) (k : Held) :
    ∃ P : Bytes → Prop, (∀ y, P y ↔ y = b!"1") ∧ askEach lib sw (partOf lib.rx (countRule op acts)).asks k = .returns (P, k, []) := by
  refine ⟨_, fun y => ?_, rfl⟩
  have e : ∀ vals : List Bytes, Lists lib k.facts (Picked lib.rx []) vals .remoteAddr ↔ [k.facts.srcIp] = vals :=
    fun vals => ⟨fun h => Option.some.inj h, fun h => congrArg some h⟩
  constructor
  · rintro (⟨vals, h1, h2⟩ | h)
    · cases (e vals).1 h1
      exact h2.trans (by show itoa 1 = _; decide +kernel)
    · cases h
  · rintro rfl
    exact .inl ⟨_, (e _).2 rfl, (by decide +kernel : b!"1" = itoa 1)⟩

open Classical in
theorem countRule_try (lib : Lib) (sw : Switches) (op : Option (OpTok × Bytes)) (acts : List HostAct) (m : Mach Held) :
    tryPart lib sw (partOf lib.rx (countRule op acts)) m =
      if ([] : List Bytes) = [] ∧ (∃ y, y = b!"1") ∧ ¬ ∃ o, Works lib (partOf lib.rx (countRule op acts)) o then .panics
      else .returns (refuse [] m, ([] : List Bytes) = [] ∧ ∃ o y, Works lib (partOf lib.rx (countRule op acts)) o ∧ y = b!"1" ∧
        (Accepts lib o (pipe lib (newTransaction newDefaultLimits) ([].map transOf) y) ↔ o.not = false)) := by
  obtain ⟨P, hP, hask⟩ := countRule_asks lib sw op acts m.known
  have : P = (· = b!"1") := funext fun y => propext (hP y)
  subst this
  rw [tryPart, hask]
  rfl

theorem countRule_eval (lib : Lib) (sw : Switches) (defaults : List HostAct) (j : Nat) (op : Option (OpTok × Bytes)) (acts : List HostAct) (m : Mach Held) :
    (∀ a, tryPart lib sw (partOf lib.rx (countRule op acts)) { m with rule := j } = .returns a → a.2 →
      evalChain lib sw defaults j (chainOf lib.rx (countRule op acts)) m =
        firesParts heldSight defaults [partOf lib.rx (countRule op acts)] (a.1, j + 1)) ∧
    (tryPart lib sw (partOf lib.rx (countRule op acts)) { m with rule := j } = .panics →
      evalChain lib sw defaults j (chainOf lib.rx (countRule op acts)) m = .panics) := by
  have e : evalChain lib sw defaults j (chainOf lib.rx (countRule op acts)) m =
    (tryParts lib sw [partOf lib.rx (countRule op acts)] { m with rule := j }).bind fun a =>
      open Classical in if a.2 then firesParts heldSight defaults [partOf lib.rx (countRule op acts)] (a.1, j + 1) else .returns (a.1, j + 1) := rfl
  rw [e, tryParts]
  refine ⟨fun a ha h2 => ?_, fun ha => ?_⟩
  · rw [ha]
    exact (congrArg (fun x => Ending.bind x _) (if_pos h2)).trans (if_pos trivial)
  · rw [ha]; rfl

/-- `block` among the default actions: the first rule with `block` that fires never
ends. -/
theorem C98_block_forever (lib : Lib) (ord : IterOrd) (l : Limits) (defaults acts : List HostAct) (h1 : HostAct.block ∈ defaults) (h2 : HostAct.block ∈ acts)
    (a b d e : Bytes) (n : Nat) :
    Tx.hostCalls lib n (newTransaction l)
      [{ limits := l, rules := [countRule (some (.eq, b!"1")) acts], defaults := defaults, ord := ord, op := .processConnection a b d e }] = .fuel := by
  have h := C98_exact lib l [{ limits := l, rules := [countRule (some (.eq, b!"1")) acts], defaults := defaults, ord := ord, op := .processConnection a b d e }]
  rw [(hostRun_connection (ch := chainOf lib.rx (countRule (some (.eq, b!"1")) acts)) rfl rfl l _ rfl).2 ?_] at h
  · exact h n
  · have hn : Numeral b!"1" 1 := (parse_trim_iff _ _).1 (by decide +kernel)
    have hw : Works lib (partOf lib.rx (countRule (some (.eq, b!"1")) acts)) ⟨.eq, false, b!"1"⟩ := by
      rcases applyOperator_spec lib ⟨.eq, false, b!"1"⟩ with ⟨op, _, hop⟩ | ⟨_, er, he⟩
      · exact ⟨rfl, op, hop⟩
      · have : newOperatorCompare .eq b!"1" = some ⟨.eq, 1, b!"1"⟩ := by decide +kernel
        simp only [applyOperator, this, Option.map_some] at he
        cases he
    have hacc : Accepts lib ⟨.eq, false, b!"1"⟩ b!"1" := .inr ⟨.eq, 1, rfl, hn, .inl ⟨1, hn, rfl⟩⟩
    refine ((countRule_eval lib _ defaults 0 (some (.eq, b!"1")) acts _).1 _
      ((countRule_try lib _ _ acts _).trans (if_neg fun h => h.2.2 ⟨_, hw⟩)) ?_).trans (if_pos ⟨h1, _, List.mem_cons_self, h2⟩)
    exact ⟨rfl, _, _, hw, rfl, fun _ => rfl, fun _ => hacc⟩

/-- A rule without an operator, or whose operator the constructor rejected: the call panics
as soon as there is a value. -/
theorem C98_no_operator (lib : Lib) (ord : IterOrd) (l : Limits) (op : Option (OpTok × Bytes)) (defaults acts : List HostAct)
    (hop : op = none ∨ (∃ re, op = some (.rx, re) ∧ lib.rx re = none) ∨ ∃ tk s, op = some (tk, s) ∧ tk ≠ .rx ∧ ¬ ∃ v, Numeral s v)
    (a b d e : Bytes) :
    ∃ n₀, ∀ n ≥ n₀, Tx.hostCalls lib n (newTransaction l)
      [{ limits := l, rules := [countRule op acts], defaults := defaults, ord := ord, op := .processConnection a b d e }] = .panic := by
  have h := C98_exact lib l [{ limits := l, rules := [countRule op acts], defaults := defaults, ord := ord, op := .processConnection a b d e }]
  rw [(hostRun_connection (ch := chainOf lib.rx (countRule op acts)) rfl rfl l _ rfl).1 ?_] at h
  · exact h.2
  · have hw : ¬ ∃ o, Works lib (partOf lib.rx (countRule op acts)) o := by
      rintro ⟨o, h1, x, h2⟩
      rcases hop with rfl | ⟨re, rfl, h3⟩ | ⟨tk, s, rfl, h3, h4⟩
      · cases h1
      · cases h1
        cases h2 with
        | rx _ h => rw [h3] at h; cases h
        | cmp h _ => cases h
      · cases h1
        cases h2 with
        | rx h _ => exact h3 h
        | cmp _ h => exact h4 ⟨_, h⟩
    refine (countRule_eval lib _ defaults 0 op acts _).2 ?_
    rw [countRule_try]
    exact if_pos ⟨rfl, ⟨_, rfl⟩, hw⟩

/-- What the calls return. -/
def hostOuts (cs : List HostCall) : Option (List Out) :=
  match Tx.hostCalls lib 9 (newTransaction limits) cs with
  | .ok (_, os) => some os
  | _ => none

/-- The calls of a host that connects and asks for the verdict. -/
def connects (rules : List HostRule) (defaults : List HostAct) : List HostCall :=
  [.processConnection b!"1.2.3.4" b!"5" [] [], .result].map fun op => { limits, rules, defaults, ord, op }

-- `block` does what the default actions say, in turn: here the status is chosen first.
example : (hostOuts (connects [countRule (some (.eq, b!" 1 ")) [.block]] [.deny, .status 451])).map (·.getLast?) =
    some (some (.intervention { status := 451, log := [b!"[client 1.2.3.4:5] (phase 1) ModSecurity: Access denied with code 403"], disruptive := true })) := by
  decide +kernel
-- `pass` undoes an earlier `deny`, log and all.
example : (hostOuts (connects [countRule (some (.eq, b!"1")) [.deny, .pass]] [])).map (·.getLast?) = some (some (.intervention { status := 200 })) := by
  decide +kernel
-- Counted twice: one; a rejected comparison is no operator.
example : (hostOuts (connects [.mk 7 1 [.count (.count (.new .argsGet))] [] (some (.eq, b!"1")) false [.deny] []] [])).isSome = true ∧
    hostOuts (connects [.mk 7 1 [.count (.count (.new .argsGet))] [] (some (.eq, b!"one")) false [.deny] []] []) = none := by
  decide +kernel
-- A rule that does not fire leaves `block` alone; phases outside 1 to 6 count for nothing.
example : (hostOuts (connects [countRule (some (.eq, b!"2")) [.block], .mk 7 0 [.new .remoteAddr] [] none false [.deny] []] [.block])).map (·.getLast?) =
    some (some (.intervention { status := 200 })) := by
  decide +kernel
example (n : Nat) : Tx.hostCalls lib n (newTransaction limits) [{ limits, rules := [countRule (some (.eq, b!"1")) [.block]], defaults := [.deny, .block], ord, op := .processConnection [] [] [] [] }] = .fuel :=
  C98_block_forever lib ord limits _ _ (by decide) (by decide) _ _ _ _ n
example := C98_no_operator lib ord limits none [] [.deny] (.inl rfl) b!"1.2.3.4" b!"5" [] []

/-- A host program with rules made in Go: the rule is added after the transaction was made,
the default action after the rule. -/
def goActs : List Act :=
  [.newEngine, .newRules, .newTransactionWith (some 0) (some 1) false, .shop .newRule, .shop (.newVar .remoteAddr), .shop (.newCount 0), .shop (.vars 0 true [1]),
   .shop (.operator 0 .eq b!"1"), .shop (.actions 0 true [.block]), .shop (.phase 0 1), .addRules 1 [0], .addDefaults 1 [.deny],
   .call 0 ord (.processConnection b!"1.2.3.4" b!"5" [] []), .call 0 ord .result]

/-- The last verdict of a host program. -/
def lastVerdict (as : List Act) : Option Intervention :=
  match Plant.acts lib 9 {} as with
  | .ok (_, os) => os.getLast?.bind fun o => match o with
    | .returned (.intervention i) => some i
    | _ => none
  | _ => none

-- C95 covers it; this is what comes out.
example : lastVerdict goActs = some { status := 403, log := [b!"[client 1.2.3.4:5] (phase 1) ModSecurity: Access denied with code 403"], disruptive := true } := by
  decide +kernel
example := C95_host lib goActs

end Verif
