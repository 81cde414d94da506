import Verif.Proofs.Filter
import Verif.Proofs.Rule
/-! Fetching under two iteration orders. -/
namespace Verif

/-- The same outcome up to the order of the values. -/
def SameUpToOrder (a b : Res (List Bytes × Tx)) : Prop :=
  (∃ x y t, a = .ok (x, t) ∧ b = .ok (y, t) ∧ x.Perm y) ∨ (a = .panic ∧ b = .panic) ∨ (a = .fuel ∧ b = .fuel)

theorem SameUpToOrder.refl (a : Res (List Bytes × Tx)) : SameUpToOrder a a := by
  cases a with
  | ok a => exact .inl ⟨a.1, a.1, a.2, rfl, rfl, .refl _⟩
  | panic => exact .inr (.inl ⟨rfl, rfl⟩)
  | fuel => exact .inr (.inr ⟨rfl, rfl⟩)

theorem SameUpToOrder.ok {x y : List Bytes} (h : x.Perm y) (t : Tx) : SameUpToOrder (.ok (x, t)) (.ok (y, t)) :=
  .inl ⟨x, y, t, rfl, rfl, h⟩

theorem SameUpToOrder.bind {a b : Res (List Bytes × Tx)} {f g : List Bytes × Tx → Res (List Bytes × Tx)}
    (h : SameUpToOrder a b) (hf : ∀ x y t, x.Perm y → SameUpToOrder (f (x, t)) (g (y, t))) :
    SameUpToOrder (a.bind f) (b.bind g) := by
  rcases h with ⟨x, y, t, rfl, rfl, hp⟩ | ⟨rfl, rfl⟩ | ⟨rfl, rfl⟩
  · exact hf x y t hp
  · exact .inr (.inl ⟨rfl, rfl⟩)
  · exact .inr (.inr ⟨rfl, rfl⟩)

section
variable (env : Env) (o : IterOrd)

theorem parseBody_ord (tp : BodyType) (bd : Bytes) (t : Tx) :
    parseBody { env with ord := o } tp bd t = parseBody env tp bd t := by cases tp <;> rfl

theorem requestBodyLoop_ord (ct bd : Bytes) : ∀ (tps : List BodyType) (t : Tx),
    requestBodyLoop { env with ord := o } ct bd tps t = requestBodyLoop env ct bd tps t := by
  intro tps
  induction tps with
  | nil => intro t; rfl
  | cons tp tps ih => intro t; simp only [requestBodyLoop, ih, parseBody_ord]

theorem requestBodyParse_ord (t : Tx) : requestBodyParse { env with ord := o } t = requestBodyParse env t := by
  simp only [requestBodyParse, requestBodyLoop_ord]

theorem fetchArgsPost_ord (f : Filter) (t : Tx) :
    SameUpToOrder (fetchArgsPost env f t) (fetchArgsPost { env with ord := o } f t) := by
  simp only [fetchArgsPost, requestBodyParse_ord]
  cases requestBodyParse env t with
  | panic => exact .refl _
  | fuel => exact .refl _
  | ok a =>
    simp only [Res.bind_ok']
    split
    · exact .ok (f.fetch_ord _ _ _) _
    · exact .ok (f.fetch_ord _ _ _) _
    · exact .refl _

theorem fetchArgsPostNames_ord (f : Filter) (t : Tx) :
    SameUpToOrder (fetchArgsPostNames env f t) (fetchArgsPostNames { env with ord := o } f t) := by
  simp only [fetchArgsPostNames, requestBodyParse_ord]
  cases requestBodyParse env t with
  | panic => exact .refl _
  | fuel => exact .refl _
  | ok a =>
    simp only [Res.bind_ok']
    split
    · exact .ok (f.names_ord _ _ _) _
    · exact .ok (f.names_ord _ _ _) _
    · exact .refl _
    · exact .refl _

theorem fetchArgsGet_ord (f : Filter) (t : Tx) : (fetchArgsGet env f t).Perm (fetchArgsGet { env with ord := o } f t) := by
  simp only [fetchArgsGet]
  split
  · exact .refl _
  · exact f.fetch_ord _ _ _

theorem fetchArgsGetNames_ord (f : Filter) (t : Tx) :
    (fetchArgsGetNames env f t).Perm (fetchArgsGetNames { env with ord := o } f t) := by
  simp only [fetchArgsGetNames]
  split
  · exact .refl _
  · exact f.names_ord _ _ _

theorem Var.fetch_ord : ∀ (v : Var) (t : Tx), SameUpToOrder (v.fetch env t) (v.fetch { env with ord := o } t) := by
  intro v
  induction v with
  | args g p =>
    intro t; simp only [Var.fetch]
    exact (fetchArgsPost_ord env o p t).bind fun x y t' h => .ok (.append (fetchArgsGet_ord env o g t) h) _
  | argsNames g p =>
    intro t; simp only [Var.fetch]
    exact (fetchArgsPostNames_ord env o p t).bind fun x y t' h => .ok (.append (fetchArgsGetNames_ord env o g t) h) _
  | argsGet f => intro t; simp only [Var.fetch]; exact .ok (fetchArgsGet_ord env o f t) _
  | argsGetNames f => intro t; simp only [Var.fetch]; exact .ok (fetchArgsGetNames_ord env o f t) _
  | argsPost f => intro t; exact fetchArgsPost_ord env o f t
  | argsPostNames f => intro t; exact fetchArgsPostNames_ord env o f t
  | requestCookies f =>
    intro t; simp only [Var.fetch]
    split
    · exact .refl _
    · exact .ok (f.fetch_ord _ _ _) _
  | requestCookiesNames f =>
    intro t; simp only [Var.fetch]
    split
    · exact .refl _
    · exact .ok (f.names_ord _ _ _) _
  | requestHeaders f => intro t; exact .ok (f.fetch_ord _ _ _) _
  | requestHeadersNames f =>
    intro t; simp only [Var.fetch]
    split
    · exact .refl _
    · exact .ok (f.names_ord _ _ _) _
  | responseHeaders f => intro t; exact .ok (f.fetch_ord _ _ _) _
  | responseHeadersNames f => intro t; exact .ok (f.names_ord _ _ _) _
  | count v ih =>
    intro t; simp only [Var.fetch]
    refine (ih t).bind fun x y t' h => ?_
    simp only [h.length_eq]; exact .refl _
  | _ => intro t; exact .refl _

theorem fetchVars_ord (r : Rule) : ∀ (vs : List Var) (t : Tx),
    SameUpToOrder (fetchVars env r vs t) (fetchVars { env with ord := o } r vs t) := by
  intro vs
  induction vs with
  | nil => intro t; exact .refl _
  | cons v vs ih =>
    intro t
    simp only [fetchVars, Rule.transformVariable]
    refine SameUpToOrder.bind ((Var.fetch_ord env o v t).bind fun x y t h => ?_) fun x y t h => ?_
    · exact .ok (h.map _) _
    · exact (ih t).bind fun x' y' t h' => .ok (.append h h') _

theorem matchLoop_perm {r : Rule} {t : Tx} {x y : List Bytes} (h : x.Perm y) : matchLoop r t x = matchLoop r t y := by
  cases hop : r.op with
  | some op =>
    rw [matchLoop_iff hop, matchLoop_iff hop]
    congr 1
    have : (∃ v ∈ x, r.not ≠ op.run t v) ↔ (∃ v ∈ y, r.not ≠ op.run t v) := by
      constructor
      · rintro ⟨v, hv, hh⟩; exact ⟨v, h.mem_iff.1 hv, hh⟩
      · rintro ⟨v, hv, hh⟩; exact ⟨v, h.mem_iff.2 hv, hh⟩
    simp only [this]
  | none =>
    have key : ∀ l : List Bytes, matchLoop r t l = if l.length = 0 then .ok false else if t.abort then .ok false else .panic := by
      intro l; cases l <;> simp [matchLoop, hop]
    rw [key, key, h.length_eq]

theorem Rule.matches_ord (r : Rule) (t : Tx) : r.matches { env with ord := o } t = r.matches env t := by
  simp only [Rule.matches]
  rcases fetchVars_ord env o r r.vars t with ⟨x, y, t', e1, e2, h⟩ | ⟨e1, e2⟩ | ⟨e1, e2⟩
  · rw [e1, e2]; simp only [Res.bind_ok', matchLoop_perm h]
  · rw [e1, e2]
  · rw [e1, e2]

theorem matchSubs_ord : ∀ (ss : List Rule) (t : Tx), matchSubs { env with ord := o } ss t = matchSubs env ss t := by
  intro ss
  induction ss with
  | nil => intro t; rfl
  | cons s ss ih => intro t; simp only [matchSubs, Rule.matches_ord, ih]

theorem Rule.run_ord (rs : RuleSet) (n : Nat) (r : Rule) (t : Tx) :
    r.run { env with ord := o } rs n t = r.run env rs n t := by
  simp only [Rule.run, Rule.matches_ord, matchSubs_ord]

theorem processLoop_ord (rs : RuleSet) (p : Int) : ∀ (n : Nat) (i : Int) (t : Tx),
    processLoop { env with ord := o } rs p n i t = processLoop env rs p n i t := by
  intro n
  induction n with
  | zero => intro i t; rfl
  | succ n ih => intro i t; simp only [processLoop, RuleSet.process, Rule.run_ord, ih]

theorem processPhase_ord (rs : RuleSet) (n : Nat) (p : Int) (t : Tx) :
    processPhase { env with ord := o } rs n p t = processPhase env rs n p t := by
  simp only [processPhase, processPhase', processLoop_ord]

theorem Tx.step_ord (rs : RuleSet) (n : Nat) (t : Tx) (op : Op) :
    t.step { env with ord := o } rs n op = t.step env rs n op := by
  cases op <;> simp only [Tx.step, processPhase_ord]

theorem Tx.steps_ord (rs : RuleSet) (n : Nat) : ∀ (ops : List Op) (t : Tx),
    t.steps { env with ord := o } rs n ops = t.steps env rs n ops := by
  intro ops
  induction ops with
  | nil => intro t; rfl
  | cons op ops ih => intro t; simp only [Tx.steps, Tx.step_ord, ih]

end
end Verif
