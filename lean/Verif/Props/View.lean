import Verif.Props.Told
/-!
Reading a rule text as a list of chains, and what is known of a transaction when the
conditions of the chains are evaluated.
-/
namespace Verif
open Sample Spec

/-! ### Reading a text as a list of chains -/

/-- The rules of a text. -/
def Spec.rulesIn (dirs : List PDir) : List PRule := dirs.filterMap fun | .rule p => some p | _ => none

/-- The chains of a text: a rule with `chain` belongs together with the next rule. -/
def Spec.chainsOf : List PRule → List (List PRule)
  | [] => []
  | p :: ps =>
    if p.acts.chain then
      match chainsOf ps with
      | [] => [[p]]
      | c :: cs => (p :: c) :: cs
    else [p] :: chainsOf ps

/-- The operator accepts the text: the pattern matches, or the comparison holds
between the number (0 if it is none) and the argument. -/
def Spec.Accepts (lib : Lib) (o : POp) (s : Bytes) : Prop :=
  (o.tk = .rx ∧ ∃ f, lib.rx o.arg = some f ∧ f s = true) ∨
  ∃ k n, cmpOf o.tk = some k ∧ Numeral o.arg n ∧ ((∃ v, Numeral s v ∧ Cmp k v n) ∨ ((¬ ∃ v, Numeral s v) ∧ Cmp k 0 n))

/-- The condition of a written rule, given what the host has told (no variable may
read a body): some value of its variables, transformed, is accepted (with `!`: is not
accepted) by the operator. -/
def Spec.Holds (lib : Lib) (k : Facts) (p : PRule) : Prop :=
  ∃ v ∈ p.vars, ∃ y, Tested lib k p.vars (v.tk, v.count) y ∧
    (Accepts lib p.op (pipe lib (newTransaction newDefaultLimits) (p.acts.trans.map transOf) y) ↔ p.op.not = false)

/-- `y` is one of the values tested for the variable `v` of a rule with the variables
`vs`, where `L` relates names, values and variables. -/
def Spec.TestedBy (rx : Bytes → Option (Bytes → Bool)) (L : (Bytes → Prop) → List Bytes → VarTok → Prop) (vs : List PVar)
    (v : VarTok × Bool) (y : Bytes) : Prop :=
  ∃ vals, L (Picked rx (selectors vs v.1 v.2)) vals v.1 ∧ if v.2 then y = itoa vals.length else y ∈ vals

/-- The condition of a written rule, where `L` relates names, values and variables. -/
def Spec.HoldsBy (lib : Lib) (L : (Bytes → Prop) → List Bytes → VarTok → Prop) (p : PRule) : Prop :=
  ∃ v ∈ p.vars, ∃ y, TestedBy lib.rx L p.vars (v.tk, v.count) y ∧
    (Accepts lib p.op (pipe lib (newTransaction newDefaultLimits) (p.acts.trans.map transOf) y) ↔ p.op.not = false)

/-- One of the rules of a chain has the action `deny`. -/
def Spec.Denies (c : List PRule) : Prop := ∃ p ∈ c, ∃ a ∈ p.acts.action, a.tk = .deny

/-- The phase of a chain is that of its first rule. -/
def Spec.chainPhase (c : List PRule) : Int := (c.head?.map fun p => p.acts.phase).getD 0

/-- Along the calls, the phase `q` is processed (by the first call for it, if no
later phase came before), and `k` is what the host has told by then. -/
def Spec.Processed (ops : List Op) (q : Int) (k : Facts) : Prop :=
  ∃ pre call post, ops = pre ++ call :: post ∧ phaseOf call = some q ∧ (∀ o ∈ pre, ∀ q', phaseOf o = some q' → q' < q) ∧
    k = (pre ++ [call]).foldl told {}

/-- The same, where `after` gives what is known after some calls. -/
def Spec.ProcessedBy {K : Type} (after : List Op → K) (ops : List Op) (q : Int) (k : K) : Prop :=
  ∃ pre call post, ops = pre ++ call :: post ∧ phaseOf call = some q ∧ (∀ o ∈ pre, ∀ q', phaseOf o = some q' → q' < q) ∧
    k = after (pre ++ [call])

/-- An action that denies, logs, blocks (with no default actions: does nothing) or
describes. -/
def Spec.Mild (a : PAct) : Prop := a.tk = .deny ∨ a.tk = .log ∨ a.tk = .block ∨ ∃ k, metaName a.tk = some k

/-! ### The loaded chains -/

/-- `r` is the loaded chain `c`. -/
def ChainMeans (lib : Lib) (c : List PRule) (r : Rule) : Prop :=
  ∃ p ps r0 rs, c = p :: ps ∧ RuleMeans lib p r0 ∧ Pairs (RuleMeans lib) ps rs ∧ r = { r0 with subRules := rs }

theorem Pairs.length_eq {α β : Type} {R : α → β → Prop} {as : List α} {bs : List β} (h : Pairs R as bs) : as.length = bs.length := by
  induction h with
  | nil => rfl
  | cons _ _ ih => simp [ih]

theorem Pairs.left {α β : Type} {R : α → β → Prop} {as : List α} {bs : List β} (h : Pairs R as bs) : ∀ a ∈ as, ∃ b ∈ bs, R a b := by
  induction h with
  | nil => simp
  | cons h _ ih =>
    intro x hx
    rcases List.mem_cons.1 hx with rfl | hx
    · exact ⟨_, List.mem_cons_self, h⟩
    · obtain ⟨b, h1, h2⟩ := ih x hx; exact ⟨b, List.mem_cons_of_mem _ h1, h2⟩

theorem Pairs.right {α β : Type} {R : α → β → Prop} {as : List α} {bs : List β} (h : Pairs R as bs) : ∀ b ∈ bs, ∃ a ∈ as, R a b := by
  induction h with
  | nil => simp
  | cons h _ ih =>
    intro x hx
    rcases List.mem_cons.1 hx with rfl | hx
    · exact ⟨_, List.mem_cons_self, h⟩
    · obtain ⟨a, h1, h2⟩ := ih x hx; exact ⟨a, List.mem_cons_of_mem _ h1, h2⟩

theorem takeChain_means {lib : Lib} : ∀ {dirs : List PDir} {ds : List Dire}, Pairs (DirMeans lib) dirs ds →
    rulesOf (takeChain ds).2.1 = [] ∧
    ∃ dirs', Pairs (DirMeans lib) dirs' (takeChain ds).2.2 ∧
      ((chainsOf (rulesIn dirs) = [] ∧ (takeChain ds).1 = [] ∧ chainsOf (rulesIn dirs') = []) ∨
        ∃ c, chainsOf (rulesIn dirs) = c :: chainsOf (rulesIn dirs') ∧ Pairs (RuleMeans lib) c (takeChain ds).1) := by
  intro dirs ds h
  induction h with
  | nil => exact ⟨rfl, [], .nil, .inl ⟨rfl, rfl, rfl⟩⟩
  | @cons d d' dirs ds hd hds ih =>
    obtain ⟨i0, dirs', i1, i2⟩ := ih
    cases hd with
    | @rule p r hr =>
      cases hc : p.acts.chain with
      | false =>
        refine ⟨rfl, dirs, hds, .inr ⟨[p], ?_, .cons hr .nil⟩⟩
        simp [rulesIn, chainsOf, hc]
      | true =>
        refine ⟨i0, dirs', i1, .inr ?_⟩
        rcases i2 with ⟨j1, j2, j3⟩ | ⟨c, j1, j2⟩
        · refine ⟨[p], ?_, ?_⟩
          · have : chainsOf (p :: rulesIn dirs) = [[p]] := by simp [chainsOf, hc, j1]
            rw [j3]; exact this
          · show Pairs _ _ (r :: (takeChain ds).1)
            rw [j2]; exact .cons hr .nil
        · refine ⟨p :: c, ?_, .cons hr j2⟩
          have : chainsOf (p :: rulesIn dirs) = (p :: c) :: chainsOf (rulesIn dirs') := by simp [chainsOf, hc, j1]
          exact this
    | ruleEng => exact ⟨i0, dirs', i1, i2⟩
    | reqBody => exact ⟨i0, dirs', i1, i2⟩
    | resBody => exact ⟨i0, dirs', i1, i2⟩

theorem ruleMeans_flat {lib : Lib} {p : PRule} {r : Rule} (h : RuleMeans lib p r) : r = { r with subRules := [] } := by
  have := h.subRules
  cases r; simp only at this; subst this; rfl

/-- The rules of the loaded set are the chains of the text. -/
theorem group_means {lib : Lib} (n : Nat) : ∀ {dirs : List PDir} {ds : List Dire}, ds.length ≤ n → Pairs (DirMeans lib) dirs ds →
    Pairs (ChainMeans lib) (chainsOf (rulesIn dirs)) (rulesOf (group ds)) := by
  induction n with
  | zero =>
    intro dirs ds hn h
    have : ds = [] := List.length_eq_zero_iff.1 (Nat.le_zero.1 hn)
    subst this
    cases h
    simp only [group]; exact .nil
  | succ n ih =>
    intro dirs ds hn h
    cases h with
    | nil => simp only [group]; exact .nil
    | @cons d d' dirs ds hd hds =>
      have hn' : ds.length ≤ n := by simpa using hn
      cases hd with
      | @rule p r hr =>
        cases hc : p.acts.chain with
        | false =>
          rw [C57_group_single]
          have : chainsOf (rulesIn (.rule p :: dirs)) = [p] :: chainsOf (rulesIn dirs) := by simp [rulesIn, chainsOf, hc]
          rw [this]
          exact .cons ⟨p, [], r, [], rfl, hr, .nil, ruleMeans_flat hr⟩ (ih hn' hds)
        | true =>
          rw [group]
          obtain ⟨k0, dirs', k1, k2⟩ := takeChain_means hds
          have e3 : ∀ xs ys, rulesOf (xs ++ ys) = rulesOf xs ++ rulesOf ys := fun xs ys => List.filterMap_append
          show Pairs _ _ ({ r with subRules := r.subRules ++ (takeChain ds).1 } :: rulesOf ((takeChain ds).2.1 ++ group (takeChain ds).2.2))
          rw [e3, k0, List.nil_append, hr.subRules, List.nil_append]
          have hrest := ih (Nat.le_trans (takeChain_length ds) hn') k1
          show Pairs _ (chainsOf (p :: rulesIn dirs)) _
          rcases k2 with ⟨j1, j2, j3⟩ | ⟨c, j1, j2⟩
          · have : chainsOf (p :: rulesIn dirs) = [p] :: chainsOf (rulesIn dirs') := by simp [chainsOf, hc, j1, j3]
            rw [this]
            exact .cons ⟨p, [], r, _, rfl, hr, by rw [j2]; exact .nil, rfl⟩ hrest
          · have : chainsOf (p :: rulesIn dirs) = (p :: c) :: chainsOf (rulesIn dirs') := by simp [chainsOf, hc, j1]
            rw [this]
            exact .cons ⟨p, c, r, _, rfl, hr, j2, rfl⟩ hrest
      | ruleEng => rw [C57_group_other (by simp)]; exact ih (dirs := dirs) hn' hds
      | reqBody => rw [C57_group_other (by simp)]; exact ih (dirs := dirs) hn' hds
      | resBody => rw [C57_group_other (by simp)]; exact ih (dirs := dirs) hn' hds

/-- The rules of a chain are rules of the text. -/
theorem mem_chainsOf : ∀ {ps : List PRule} {c : List PRule} {p : PRule}, c ∈ chainsOf ps → p ∈ c → p ∈ ps := by
  intro ps
  induction ps with
  | nil => intro c p h; cases h
  | cons q ps ih =>
    intro c p h hp
    simp only [chainsOf] at h
    split at h
    · split at h
      · rw [List.mem_singleton] at h; subst h; rw [List.mem_singleton] at hp; subst hp; exact List.mem_cons_self
      · rename_i c' cs e
        rcases List.mem_cons.1 h with rfl | h
        · rcases List.mem_cons.1 hp with rfl | hp
          · exact List.mem_cons_self
          · exact List.mem_cons_of_mem _ (ih (by rw [e]; exact List.mem_cons_self) hp)
        · exact List.mem_cons_of_mem _ (ih (by rw [e]; exact List.mem_cons_of_mem _ h) hp)
    · rcases List.mem_cons.1 h with rfl | h
      · rw [List.mem_singleton] at hp; subst hp; exact List.mem_cons_self
      · exact List.mem_cons_of_mem _ (ih h hp)

theorem mem_rulesIn {dirs : List PDir} {p : PRule} : p ∈ rulesIn dirs ↔ .rule p ∈ dirs := by
  induction dirs with
  | nil => simp [rulesIn]
  | cons d dirs ih => cases d <;> simp_all [rulesIn]

/-! ### Conditions and actions -/

theorem numeral_unique {s : Bytes} {v w : Int} (h : Numeral s v) (h' : Numeral s w) : v = w := by
  have h1 := (parse_trim_iff _ _).2 h
  rw [(parse_trim_iff _ _).2 h'] at h1
  exact (Option.some.inj h1).symm

/-- The loaded operator accepts what the written one does. -/
theorem accepts_iff {lib : Lib} {o : POp} {op : Operator} (h : OpMeans lib o op) (t : Tx) (s : Bytes) : op.run t s = true ↔ Accepts lib o s := by
  cases h with
  | @rx f h1 h2 =>
    simp only [Operator.run, Accepts]
    constructor
    · intro h; exact .inl ⟨h1, f, h2, h⟩
    · rintro (⟨_, f', h3, h4⟩ | ⟨k, n, h3, _⟩)
      · rw [h2] at h3; cases h3; exact h4
      · rw [h1] at h3; cases h3
  | @cmp c h1 h2 =>
    have key : c.run s = true ↔ (∃ v, Numeral s v ∧ Cmp c.kind v c.arg) ∨ ((¬ ∃ v, Numeral s v) ∧ Cmp c.kind 0 c.arg) := by
      cases hp : parseInt (trimSpace s) with
      | none =>
        have hn : ¬ ∃ v, Numeral s v := fun ⟨v, hv⟩ => by rw [(parse_trim_iff _ _).2 hv] at hp; cases hp
        simp only [OperatorCompare.run, hp]
        refine (cmp_fn c.kind 0 c.arg).trans ⟨fun h => .inr ⟨hn, h⟩, ?_⟩
        rintro (⟨v, hv, _⟩ | ⟨_, h⟩)
        · exact absurd ⟨v, hv⟩ hn
        · exact h
      | some v =>
        have hv := (parse_trim_iff _ _).1 hp
        simp only [OperatorCompare.run, hp]
        refine (cmp_fn c.kind v c.arg).trans ⟨fun h => .inl ⟨v, hv, h⟩, ?_⟩
        rintro (⟨w, hw, h⟩ | ⟨h, _⟩)
        · rw [numeral_unique hv hw]; exact h
        · exact absurd ⟨v, hv⟩ h
    simp only [Operator.run, Accepts]
    rw [key]
    constructor
    · intro h; exact .inr ⟨_, _, h1, h2, h⟩
    · rintro (⟨h3, _⟩ | ⟨k, n, h3, h4, h5⟩)
      · rw [h3] at h1; cases h1
      · rw [h1] at h3; cases h3
        rw [numeral_unique h4 h2] at h5; exact h5

/-! ### Views: what is known of a transaction

The verdict is computed for any notion of knowledge that determines the values of the
variables; C83 takes what the host has told, C84 the accepted bodies as well. -/

/-- The transaction without cursor, verdict and data of the actions. -/
def Tx.core (t : Tx) : Tx := { t.sansCursor with interv := none, data := [], abort := false }

theorem core_of_sans {t u : Tx} (h : u.sansCursor = t.sansCursor) : u.core = t.core := by
  have : ({ u.sansCursor with interv := none, data := [], abort := false } : Tx) =
      { t.sansCursor with interv := none, data := [], abort := false } := by rw [h]
  exact this

/-- Cursor, verdict and data are untouched. -/
structure Untouched (t u : Tx) : Prop where
  phase : u.phase = t.phase
  currentRule : u.currentRule = t.currentRule
  nextRule : u.nextRule = t.nextRule
  abort : u.abort = t.abort
  interv : u.interv = t.interv
  data : u.data = t.data

theorem Untouched.refl (t : Tx) : Untouched t t := ⟨rfl, rfl, rfl, rfl, rfl, rfl⟩

theorem Untouched.trans {t u v : Tx} (h : Untouched t u) (h' : Untouched u v) : Untouched t v :=
  ⟨h'.phase.trans h.phase, h'.currentRule.trans h.currentRule, h'.nextRule.trans h.nextRule, h'.abort.trans h.abort, h'.interv.trans h.interv, h'.data.trans h.data⟩

/-- What is known (`know`) of the transactions that are `fine` after some calls, and how
it determines the values of the variables covered in a phase when that phase is
processed. -/
structure View (env : Env) where
  K : Type
  know : Tx → K
  facts : K → Facts
  fine : List Op → Tx → Prop
  lists : K → (Bytes → Prop) → List Bytes → VarTok → Prop
  covers : Int → VarTok → Prop
  know_core : ∀ {t u : Tx}, u.core = t.core → know u = know t
  facts_know : ∀ t, facts (know t) = t.facts
  fine_core : ∀ {h : List Op} {t u : Tx}, u.core = t.core → fine h t → fine h u
  perm : ∀ {k P tk vals vals'}, lists k P vals tk → lists k P vals' tk → vals.Perm vals'
  fetch : ∀ {h : List Op} {p : Int} {t : Tx} {tk : VarTok} {f : Filter} {x : Var} {P : Bytes → Prop}, covers p tk → (∃ o ∈ h, phaseOf o = some p) →
    variableOf f tk = some x → (Selectable tk = true → ∀ k, f.keep k = true ↔ P k) → fine h t →
    ∃ vals u, x.fetch env t = .ok (vals, u) ∧ Untouched t u ∧ fine h u ∧ know u = know t ∧ lists (know t) P vals tk

/-- The values of the variables of a loaded rule. -/
theorem view_tested {env : Env} (V : View env) {h : List Op} {p : Int} (hp : ∃ o ∈ h, phaseOf o = some p) {vs : List PVar} :
    ∀ {ks : List (VarTok × Bool)} {xs : List Var} {t : Tx}, Pairs (Carries env.lib.rx vs) ks xs → (∀ k ∈ ks, V.covers p k.1) → V.fine h t →
    ∃ ys t', FetchedValues env xs t ys t' ∧ Untouched t t' ∧ V.fine h t' ∧ V.know t' = V.know t ∧
      ∀ y, (∃ s, (s, y) ∈ ys) ↔ ∃ k ∈ ks, TestedBy env.lib.rx (V.lists (V.know t)) vs k y := by
  intro ks xs t hpairs hb hfine
  induction hpairs generalizing t with
  | nil => exact ⟨[], t, .nil, .refl _, hfine, rfl, by simp⟩
  | @cons k x ks xs hc _ ih =>
    obtain ⟨f, y, hsel, hy, hxy⟩ := hc
    obtain ⟨vals, u, h1, hu, huf, huk, h2⟩ := V.fetch (hb k List.mem_cons_self) hp hy (P := Picked env.lib.rx (selectors vs k.1 k.2))
      (fun hs => keep_picked (hsel hs)) hfine
    obtain ⟨ys, t', i, i0, i1, i2, i3⟩ := ih (fun k hk => hb k (List.mem_cons_of_mem _ hk)) huf
    have hval : x.fetch env t = .ok (if k.2 then [itoa vals.length] else vals, u) := by
      subst hxy
      cases hk : k.2 with
      | false => simpa using h1
      | true => simp only [if_true, Var.fetch, h1, Res.bind_ok']
    refine ⟨_, t', .cons hval i, hu.trans i0, i1, i2.trans huk, fun y => ?_⟩
    rw [huk] at i3
    have : y ∈ (if k.2 then [itoa vals.length] else vals) ↔ TestedBy env.lib.rx (V.lists (V.know t)) vs k y := by
      constructor
      · intro hy
        refine ⟨vals, h2, ?_⟩
        split
        · rename_i hk; rw [if_pos hk] at hy; simpa using hy
        · rename_i hk; rw [if_neg hk] at hy; exact hy
      · rintro ⟨vals', h3, h4⟩
        have hp := V.perm h3 h2
        split at h4
        · rename_i hk; rw [if_pos hk, h4, hp.length_eq]; simp
        · rename_i hk; rw [if_neg hk]; exact hp.mem_iff.1 h4
    simp only [List.mem_cons, exists_eq_or_imp]
    rw [← this, ← i3]
    simp only [List.mem_append, List.mem_map, Prod.mk.injEq]
    constructor
    · rintro ⟨s, ⟨z, h, _, rfl⟩ | h⟩
      · exact .inl h
      · exact .inr ⟨s, h⟩
    · rintro (h | ⟨s, h⟩)
      · exact ⟨u, .inl ⟨y, h, rfl, rfl⟩⟩
      · exact ⟨s, .inr h⟩

theorem fetchVars_total {env : Env} {r : Rule} {vs : List Var} {t t' : Tx} {ys : List (Tx × Bytes)} (h : FetchedValues env vs t ys t') :
    ∃ out, fetchVars env r vs t = .ok (out, t') := by
  induction h with
  | nil => exact ⟨[], rfl⟩
  | cons h _ ih =>
    obtain ⟨out, ih⟩ := ih
    exact ⟨_, by simp only [fetchVars, Rule.transformVariable, h, Res.bind_ok', ih]; rfl⟩

theorem fetchedValues_unique {env : Env} {vs : List Var} {t t' t'' : Tx} {ys ys' : List (Tx × Bytes)} (h : FetchedValues env vs t ys t')
    (h' : FetchedValues env vs t ys' t'') : ys' = ys ∧ t'' = t' := by
  induction h generalizing ys' with
  | nil => cases h'; exact ⟨rfl, rfl⟩
  | cons h _ ih =>
    cases h' with
    | cons g g' =>
      rw [h] at g
      cases g
      obtain ⟨rfl, rfl⟩ := ih g'
      exact ⟨rfl, rfl⟩

/-- The condition of a loaded rule. -/
theorem loaded_matches {env : Env} (V : View env) {h : List Op} {ph : Int} (hph : ∃ o ∈ h, phaseOf o = some ph) {p : PRule} {r : Rule}
    (hnot : r.not = p.op.not) (htr : r.trans = p.acts.trans.map transOf)
    (hvars : ∃ ks, ks.Nodup ∧ (∀ k, k ∈ ks ↔ ∃ v ∈ p.vars, (v.tk, v.count) = k) ∧ Pairs (Carries env.lib.rx p.vars) ks r.vars)
    (hop : ∃ op, r.op = some op ∧ OpMeans env.lib p.op op) {t : Tx}
    (hv : ∀ v ∈ p.vars, V.covers ph v.tk) (hfine : V.fine h t) (ha : t.abort = false) :
    ∃ b t', r.matches env t = .ok (b, t') ∧ Untouched t t' ∧ V.fine h t' ∧ V.know t' = V.know t ∧
      (b = true ↔ HoldsBy env.lib (V.lists (V.know t)) p) := by
  obtain ⟨op, ho, hom⟩ := hop
  obtain ⟨ks, _, hks, hpairs⟩ := hvars
  obtain ⟨ys, t', hys, hun, hf', hk', hval⟩ := view_tested V hph (vs := p.vars) hpairs (fun k hk => by
      obtain ⟨v, hvm, rfl⟩ := (hks k).1 hk
      exact hv v hvm) hfine
  obtain ⟨out, hout⟩ := fetchVars_total (r := r) hys
  obtain ⟨b, hm⟩ : ∃ b, r.matches env t = .ok (b, t') := by
    simp only [Rule.matches, hout, Res.bind_ok', matchLoop_iff ho]
    exact ⟨_, rfl⟩
  refine ⟨b, t', hm, hun, hf', hk', ?_⟩
  obtain ⟨ys', hys', hb⟩ := C09_condition ho hm
  obtain ⟨rfl, _⟩ := fetchedValues_unique hys hys'
  have eqv : ∀ s y, (op.run t' (pipe env.lib s r.trans y) ≠ r.not) ↔
      (Accepts env.lib p.op (pipe env.lib (newTransaction newDefaultLimits) (p.acts.trans.map transOf) y) ↔ p.op.not = false) := by
    intro s y
    rw [htr, hnot, pipe_builtin env.lib _ s (newTransaction newDefaultLimits), ← accepts_iff hom t']
    cases op.run t' _ <;> cases p.op.not <;> simp
  rw [hb]
  constructor
  · rintro ⟨_, ⟨s, y⟩, hy, hne⟩
    obtain ⟨k, hk, hte⟩ := (hval y).1 ⟨s, hy⟩
    obtain ⟨v, hvm, rfl⟩ := (hks k).1 hk
    exact ⟨v, hvm, y, hte, (eqv s y).1 hne⟩
  · rintro ⟨v, hvm, y, hte, hne⟩
    obtain ⟨s, hy⟩ := (hval y).2 ⟨_, (hks _).2 ⟨v, hvm, rfl⟩, hte⟩
    exact ⟨hun.abort.trans ha, (s, y), hy, (eqv s y).2 hne⟩

theorem loaded_matchSubs {env : Env} (V : View env) {h : List Op} {ph : Int} (hph : ∃ o ∈ h, phaseOf o = some ph) :
    ∀ {ps : List PRule} {rs : List Rule}, Pairs (RuleMeans env.lib) ps rs →
    ∀ {t : Tx}, (∀ p ∈ ps, ∀ v ∈ p.vars, V.covers ph v.tk) → V.fine h t → t.abort = false →
    ∃ b t', matchSubs env rs t = .ok (b, t') ∧ Untouched t t' ∧ V.fine h t' ∧ V.know t' = V.know t ∧
      (b = true ↔ ∀ p ∈ ps, HoldsBy env.lib (V.lists (V.know t)) p) := by
  intro ps rs hp
  induction hp with
  | nil => intro t _ hf _; exact ⟨true, t, rfl, .refl _, hf, rfl, by simp⟩
  | @cons p r ps rs hm _ ih =>
    intro t hv hf ha
    obtain ⟨b1, t1, g1, a1, a2, a3, k2⟩ := loaded_matches V hph hm.not hm.trans hm.vars hm.op (hv p List.mem_cons_self) hf ha
    cases b1 with
    | false =>
      refine ⟨false, t1, by simp only [matchSubs, g1, Res.bind_ok']; rfl, a1, a2, a3, ⟨fun h => (by cases h), fun h => ?_⟩⟩
      have := k2.2 (h p List.mem_cons_self)
      cases this
    | true =>
      obtain ⟨b, t2, g2, b1, b2, b3, j2⟩ := ih (fun p hp => hv p (List.mem_cons_of_mem _ hp)) a2 (a1.abort.trans ha)
      refine ⟨b, t2, by simp only [matchSubs, g1, Res.bind_ok']; exact g2, a1.trans b1, b2, b3.trans a3, ?_⟩
      rw [j2, a3]
      simp only [List.mem_cons, forall_eq_or_imp]
      exact ⟨fun h => ⟨k2.1 rfl, h⟩, fun h => h.2⟩

end Verif
