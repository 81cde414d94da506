import Verif.Props.HostBody
/-! C130: the limits an engine starts with (modsecurity/engine.go:28-34). -/
namespace Verif
open Sample

/-- The limits as the comments of `NewDefaultLimits` give them: 128kb, 1gb, 512kb. -/
def Spec.documentedMemory : Int := 128 * 1024
def Spec.documentedRequest : Int := 1024 * 1024 * 1024
def Spec.documentedResponse : Int := 512 * 1024

/-- C130: a transaction of an engine whose limits nobody changed accepts chunks of bodies
exactly up to the documented limits. -/
def C130_statement : Prop :=
  ∀ (lib : Lib) (ord : IterOrd) (n : Nat) (ops : List HostOp) (w w' : World) (os : List HostOut) (p : Bytes) (o : HostOut),
    World.steps lib ord n {} (.newTransaction false :: ops) = .ok (w, .created (some 0) :: os) →
    TameRules 0 0 {} ops → (∀ p io, .appendRequestBody p io ∈ callsOf 0 ops → io = .none) →
    (w.step lib ord n (.call 0 (.appendRequestBody p .none)) = .ok (w', o) →
      (o = .returned (.error none) ↔
        ((Spec.requestChunks (callsOf 0 ops) (returnsOf 0 ops os)).length : Int) + p.length ≤ Spec.documentedRequest)) ∧
    (w.step lib ord n (.call 0 (.appendResponseBody p .none)) = .ok (w', o) →
      (o = .returned (.error none) ↔
        ((Spec.responseChunks (callsOf 0 ops) (returnsOf 0 ops os)).length : Int) + p.length ≤ Spec.documentedResponse))

/-- The limits in force, for any calls: 128 MB of a request, and 60 bytes less than 512 kB of a
response. -/
theorem C130_exact {lib : Lib} {ord : IterOrd} {n : Nat} {ops : List HostOp} {w w' : World} {os : List HostOut} {p : Bytes} {o : HostOut}
    (h : World.steps lib ord n {} (.newTransaction false :: ops) = .ok (w, .created (some 0) :: os))
    (hr : TameRules 0 0 {} ops) (hio : ∀ p io, .appendRequestBody p io ∈ callsOf 0 ops → io = .none) :
    (w.step lib ord n (.call 0 (.appendRequestBody p .none)) = .ok (w', o) →
      o = .returned (.error (if ((Spec.requestChunks (callsOf 0 ops) (returnsOf 0 ops os)).length : Int) + p.length ≤ 128 * 1024 * 1024
        then none else some .outOfFileLimit))) ∧
    (∀ io, w.step lib ord n (.call 0 (.appendResponseBody p io)) = .ok (w', o) →
      o = .returned (.error (if ((Spec.responseChunks (callsOf 0 ops) (returnsOf 0 ops os)).length : Int) + p.length ≤ 512 * 1024 - 60
        then none else some .outOfFileLimit))) :=
  ⟨fun h2 => C80_request_limit (w := {}) h hr hio h2, fun _ h2 => C80_response_limit (w := {}) h hr h2⟩

/-- C130, the half that holds: what is accepted is within the documented limits.  Missing:
everything within them is accepted. -/
theorem C130_partial {lib : Lib} {ord : IterOrd} {n : Nat} {ops : List HostOp} {w w' : World} {os : List HostOut} {p : Bytes}
    (h : World.steps lib ord n {} (.newTransaction false :: ops) = .ok (w, .created (some 0) :: os))
    (hr : TameRules 0 0 {} ops) (hio : ∀ p io, .appendRequestBody p io ∈ callsOf 0 ops → io = .none) :
    (w.step lib ord n (.call 0 (.appendRequestBody p .none)) = .ok (w', .returned (.error none)) →
      ((Spec.requestChunks (callsOf 0 ops) (returnsOf 0 ops os)).length : Int) + p.length ≤ Spec.documentedRequest) ∧
    (∀ io, w.step lib ord n (.call 0 (.appendResponseBody p io)) = .ok (w', .returned (.error none)) →
      ((Spec.responseChunks (callsOf 0 ops) (returnsOf 0 ops os)).length : Int) + p.length ≤ Spec.documentedResponse) := by
  refine ⟨fun h2 => ?_, fun io h2 => ?_⟩
  · have := (C130_exact (p := p) h hr hio).1 h2
    split at this
    · simp only [Spec.documentedRequest]; omega
    · cases this
  · have := (C130_exact (p := p) h hr hio).2 io h2
    split at this
    · simp only [Spec.documentedResponse]; omega
    · cases this

/-- The world with one new transaction. -/
def oneFresh : World := { txs := [(0, newTransaction newDefaultLimits)] }

theorem oneFresh_steps : World.steps Sample.lib Sample.ord 9 {} [.newTransaction false] = .ok (oneFresh, [.created (some 0)]) := rfl

theorem oneFresh_response (p : Bytes) (h : (524228 : Int) < p.length) :
    ∃ w', oneFresh.step Sample.lib Sample.ord 9 (.call 0 (.appendResponseBody p .none)) = .ok (w', .returned (.error (some .outOfFileLimit))) := by
  have h1 : (0 : Int) + p.length > 524228 := by omega
  refine ⟨oneFresh, ?_⟩
  simp [World.step, oneFresh, Tx.step, newTransaction, newBuffer, newDefaultLimits, Buf.write, Res.bind, h]

theorem oneFresh_request (p : Bytes) (h : (134217728 : Int) < p.length) :
    ∃ w', oneFresh.step Sample.lib Sample.ord 9 (.call 0 (.appendRequestBody p .none)) = .ok (w', .returned (.error (some .outOfFileLimit))) := by
  refine ⟨oneFresh, ?_⟩
  simp [World.step, oneFresh, Tx.step, newTransaction, newBuffer, newDefaultLimits, Buf.write, Res.bind, h]

/-- Half a megabyte of response is refused. -/
theorem C130_refuted : ¬ C130_statement := by
  intro hs
  obtain ⟨w', hw⟩ := oneFresh_response (List.replicate 524288 65) (by rw [List.length_replicate]; omega)
  have := (hs Sample.lib Sample.ord 9 [] oneFresh w' [] (List.replicate 524288 65) _ oneFresh_steps (fun x hx => (by cases hx))
    (fun p io hx => (by cases hx))).2 hw
  simp only [List.length_replicate] at this
  have h2 := this.2 (by simp [Spec.documentedResponse, Spec.responseChunks, callsOf])
  cases h2

/-- So is a request of one gigabyte, or of one byte more than 128 megabytes. -/
theorem C130_refused (p : Bytes) (h : (128 * 1024 * 1024 : Int) < p.length) :
    ∃ w', oneFresh.step Sample.lib Sample.ord 9 (.call 0 (.appendRequestBody p .none)) = .ok (w', .returned (.error (some .outOfFileLimit))) :=
  oneFresh_request p (by omega)

/-- The third of the comments is right: with access to request bodies switched on, an urlencoded
body of up to 128kb is shown to rules, and a longer one rejects the transaction when looked at
(`Spec.Oversize`). -/
theorem C130_memory (lib : Lib) (ord : IterOrd) (resp : Bool) (rs : RuleSet) (hrs : rs.KeepsBodies) (n : Nat) (ops : List Op) (t : Tx)
    (os : List Out) (tr : Trace) (hio : ∀ p io, .appendRequestBody p io ∈ ops → io = .none)
    (env : Env) (henv : env = { lib, ord, limits := { newEngine.limits with requestBodyAccess := true, responseBodyAccess := resp } })
    (h : (newTransaction env.limits).steps env rs n ops = .ok (t, os, tr))
    (hm : t.method = b!"POST" ∨ t.method = b!"PUT" ∨ t.method = b!"PATCH")
    (hu : Spec.Urlencoded env.lib t) (hne : Spec.requestChunks ops os ≠ []) :
    if ((Spec.requestChunks ops os).length : Int) ≤ Spec.documentedMemory
    then ∃ t', Var.requestBody.fetch env t = .ok ([Spec.requestChunks ops os], t') ∧ t'.abort = t.abort ∧ t'.interv = t.interv
    else Spec.Oversize env t := by
  subst henv
  split
  · rename_i hle
    exact C44_request_body_history _ rs hrs n ops t os tr hio h rfl hm hu hne hle
  · rename_i hle
    refine C45_history _ rs hrs n ops t os tr hio h (show (0 : Int) ≤ 131072 by omega) rfl hm hu ?_
    show (131072 : Int) < _
    simp only [Spec.documentedMemory] at hle
    omega

/-- A request with an urlencoded body in two chunks, and a response. -/
example :
    let ops : List HostOp := [.call 0 (.appendRequestBody b!"a=1" .none), .enable 0, .call 0 (.appendResponseBody b!"x" .none)]
    ∃ w os, World.steps lib ord 9 {} (.newTransaction false :: ops) = .ok (w, .created (some 0) :: os) ∧ TameRules 0 0 {} ops ∧
      (∀ p io, .appendRequestBody p io ∈ callsOf 0 ops → io = .none) ∧
      Spec.requestChunks (callsOf 0 ops) (returnsOf 0 ops os) = b!"a=1" ∧ Spec.responseChunks (callsOf 0 ops) (returnsOf 0 ops os) = b!"x" := by
  refine ⟨_, _, rfl, ?_, ?_, by decide +kernel, by decide +kernel⟩
  · intro x hx
    have e : x.2.1 = {} := by
      simp [Heap.view] at hx
      rcases hx with rfl | rfl <;> rfl
    rw [e]
    exact ⟨fun p r hr => (by cases hr), fun a ha => (by cases ha)⟩
  · intro p io h
    simp [callsOf] at h
    exact h.2

example :
    let env : Env := { lib, ord, limits := { newEngine.limits with requestBodyAccess := true } }
    ∃ t os tr, (newTransaction env.limits).steps env {} 9
        [.processRequestURL none b!"POST" b!"HTTP/1.1", .processRequestHeader (some [(b!"Content-Type", [b!"application/x-www-form-urlencoded"])]),
          .appendRequestBody b!"a=1&" .none, .appendRequestBody b!"b=2" .none] = .ok (t, os, tr) ∧
      t.method = b!"POST" ∧ Spec.Urlencoded env.lib t ∧ Var.requestBody.fetch env t = .ok ([b!"a=1&b=2"], t.readReq) := by
  refine ⟨_, _, _, rfl, rfl, ?_, ?_⟩
  · simp only [Spec.Urlencoded]; decide +kernel
  · rfl

end Verif
