import Verif.Spec.Rules
/-! A concrete library, environment and rules for the examples beside the theorems. -/
namespace Verif.Sample

/-- A toy library: a "regular expression" matches exactly its own text, a query
has the single argument `q`. -/
def lib : Lib where
  rx := fun re => some fun s => s == re
  lowerHi := id
  parseQuery := fun s => ([(b!"q", [s])], none)
  urlString := fun u => u.path
  mediaType := fun s => (s, [])
  readForm := fun _ _ _ => (.ok [], 0)

/-- Iteration in list order. -/
def ord : IterOrd where
  run := id
  perm := fun _ => .refl _

/-- Body access on, small limits. -/
def limits : Limits :=
  { requestBodyAccess := true, responseBodyAccess := true, requestBody := 16, requestBodyInMem := 8, responseBody := 8 }

def env : Env := { lib, ord, limits }

/-- The regular expression that matches everything. -/
def any : Operator := .rx ⟨b!".*", fun _ => true⟩

/-- A rule on the request method that always matches. -/
def always (actions : List Action) : Rule := { vars := [.requestMethod], op := some any, actions }

/-- A rule on the request method that never matches. -/
def never (actions : List Action) : Rule := { vars := [.requestMethod], op := some any, not := true, actions }

/-- A rule set from a list of (phase, rule). -/
def rules (l : List (Int × Rule)) : RuleSet := ({} : RuleSet).addRules (l.map fun e => { e.2 with phase := e.1 })

def traceOf : Res (Tx × List Out × Trace) → Option Trace
  | .ok (_, _, tr) => some tr
  | _ => none

def outsOf : Res (Tx × List Out × Trace) → Option (List Out)
  | .ok (_, os, _) => some os
  | _ => none

def txOf : Res (Tx × List Out × Trace) → Option Tx
  | .ok (t, _, _) => some t
  | _ => none

/-- A whole exchange. -/
def exchange : List Op :=
  [.processConnection b!"1.2.3.4" b!"5" b!"6.7.8.9" b!"80", .processRequestURL (some { path := b!"/a" }) b!"GET" b!"HTTP/1.1",
   .processRequestHeader none, .processRequestBody, .processResponseHeaders 200 b!"HTTP/1.1" none, .processResponseBody,
   .processLogging]

def run (rs : RuleSet) (ops : List Op) : Res (Tx × List Out × Trace) :=
  (newTransaction limits).steps env rs 20 ops

end Verif.Sample
