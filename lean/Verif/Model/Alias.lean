import Verif.Model.Transaction
/-!
The data a host hands over by reference.  `ProcessRequestURL` is given a `*url.URL`,
`ProcessRequestHeader` and `ProcessResponseHeaders` an `http.Header`, which is a map; the
transaction keeps the reference (modsecurity/transaction.go:185-196, 203-211) and the
variables read through it when a rule is evaluated.  Model/Transaction treats what is handed
over as a value; here are the objects that a value hides.  (Chunks of bodies are copied by
`Write`, strings cannot change.)
-/
namespace Verif

/-- The host's maps and URLs, by address. -/
structure Objs where
  maps : Nat → GoMap
  urls : Nat → URL

/-- Which of them a transaction refers to; what it does not share is in its own fields. -/
structure Links where
  url : Option Nat := none
  req : Option Nat := none
  resp : Option Nat := none
deriving DecidableEq

/-- A host's deed. -/
inductive Stir where
  /-- the content of a header map changes: `Set`, `Add`, `Del`, assignment, `delete`, ... -/
  | setMap (a : Nat) (m : GoMap)
  /-- a field of a URL is assigned -/
  | setUrl (a : Nat) (u : URL)
  /-- a call on transaction `i`, with the limits and rules of the moment.  `ref` is the
  object handed over; without it, one nobody else has, with the content in `op`. -/
  | call (i : Nat) (env : Env) (rs : RuleSet) (op : Op) (ref : Option Nat)

/-- The call with the content of the object handed over. -/
def Op.given (o : Objs) : Op → Option Nat → Op
  | .processRequestURL _ m p, some a => .processRequestURL (some (o.urls a)) m p
  | .processRequestHeader _, some a => .processRequestHeader (some (o.maps a))
  | .processResponseHeaders c p _, some a => .processResponseHeaders c p (some (o.maps a))
  | op, _ => op

/-- modsecurity/transaction.go:185-196, 203-211: the fields are assigned. -/
def Links.after (l : Links) : Op → Option Nat → Links
  | .processRequestURL _ _ _, r => { l with url := r }
  | .processRequestHeader _, r => { l with req := r }
  | .processResponseHeaders _ _ _, r => { l with resp := r }
  | _, _ => l

/-- What a field holds: what its reference leads to. -/
def follow {α : Type} (r : Option Nat) (mem : Nat → α) (own : Option α) : Option α :=
  match r with
  | some a => some (mem a)
  | none => own

/-- The transaction with what its references lead to. -/
def Tx.through (o : Objs) (l : Links) (t : Tx) : Tx :=
  { t with
    url := follow l.url o.urls t.url
    reqHeader := follow l.req o.maps t.reqHeader
    respHeader := follow l.resp o.maps t.respHeader }

/-- All objects and transactions. -/
structure Lent where
  objs : Objs
  txs : List (Links × Tx)

/-- One deed.  Calling a transaction that does not exist is a nil dereference. -/
def Lent.step (n : Nat) (s : Lent) : Stir → Res (Lent × List Out)
  | .setMap a m => .ok ({ s with objs := { s.objs with maps := fun b => if b = a then m else s.objs.maps b } }, [])
  | .setUrl a u => .ok ({ s with objs := { s.objs with urls := fun b => if b = a then u else s.objs.urls b } }, [])
  | .call i env rs op ref =>
    match s.txs[i]? with
    | none => .panic
    | some (l, t) =>
      ((t.through s.objs l).step env rs n (op.given s.objs ref)).bind fun (t, o, _) =>
        .ok ({ s with txs := s.txs.set i (l.after op ref, t) }, [o])

def Lent.steps (n : Nat) : Lent → List Stir → Res (Lent × List Out)
  | s, [] => .ok (s, [])
  | s, a :: as => (s.step n a).bind fun (s, o) => (Lent.steps n s as).bind fun (s, os) => .ok (s, o ++ os)

end Verif
