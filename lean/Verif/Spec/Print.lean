import Verif.Spec.Syntax
/-! Printing syntax trees in one canonical style. -/
namespace Verif.Spec

/-- A byte inside a string delimited by `q`. -/
def escByte (q c : UInt8) : Bytes :=
  if c = 10 then b!"\\n" else if c = 13 then b!"\\r" else if c = 92 then b!"\\\\" else if c = q then [92, q] else [c]

/-- A string between quotation marks `q`. -/
def quoted (q : UInt8) (s : Bytes) : Bytes := q :: s.flatMap (escByte q) ++ [q]

/-- Pieces with a separator between them. -/
def joinWith (sep : UInt8) : List Bytes → Bytes
  | [] => []
  | [s] => s
  | s :: r => s ++ sep :: joinWith sep r

def printVar (v : PVar) : Bytes :=
  (if v.exclusion then [33] else if v.count then [38] else []) ++ varName v.tk ++
    (if v.index = [] then [] else 58 :: v.index)

def printOp (o : POp) : Bytes := (if o.not then [33] else []) ++ 64 :: opName o.tk ++ 32 :: o.arg

/-- `name:argument`. -/
def printAct (tk : ActTok) (arg : Bytes) : Bytes := actName tk ++ 58 :: arg

/-- Decimal digits of a number. -/
def digits (n : Nat) : Bytes := (Nat.toDigits 10 n).map fun c => UInt8.ofNat c.toNat

/-- A decimal number. -/
def number (n : Int) : Bytes := if n < 0 then 45 :: digits n.natAbs else digits n.natAbs

def printActs (a : PActs) : Bytes :=
  joinWith 44 (a.action.map (fun x => printAct x.tk x.arg) ++ a.trans.map (fun t => printAct .t (transName t)) ++
    (if a.chain then [actName .chain] else []) ++ (if a.phase = 0 then [] else [printAct .phase (number a.phase)]) ++
    [printAct .id (number a.id)])

/-- One directive on one line. -/
def printDir : PDir → Bytes
  | .rule r => b!"SecRule " ++ quoted 34 (joinWith 124 (r.vars.map printVar)) ++ 32 :: quoted 34 (printOp r.op) ++
      32 :: quoted 34 (printActs r.acts) ++ [10]
  | .ruleEng v => b!"SecRuleEngine " ++ (if v = 1 then b!"On" else if v = 0 then b!"Off" else b!"DetectionOnly") ++ [10]
  | .reqBody b => b!"SecRequestBodyAccess " ++ (if b then b!"On" else b!"Off") ++ [10]
  | .resBody b => b!"SecResponseBodyAccess " ++ (if b then b!"On" else b!"Off") ++ [10]

/-- A rule file. -/
def print (ds : List PDir) : Bytes := ds.flatMap printDir

/-- A variable that can be written: not excluded and counted at once, no separator in its index. -/
def WfVar (v : PVar) : Prop := ¬ (v.exclusion = true ∧ v.count = true) ∧ ∀ c ∈ v.index, c ≠ 44 ∧ c ≠ 124

/-- An action kept in the list: no comma in its argument, not one with a field of its own; severities are numbers. -/
def WfAct (a : PAct) : Prop :=
  (∀ c ∈ a.arg, c ≠ 44) ∧ a.tk ≠ .id ∧ a.tk ≠ .phase ∧ a.tk ≠ .t ∧ a.tk ≠ .chain ∧
    (a.tk = .severity → ∃ n : Int, 0 ≤ n ∧ n ≤ 7 ∧ a.arg = number n)

/-- A directive that can be written. -/
def WfDir : PDir → Prop
  | .rule r => r.vars ≠ [] ∧ (∀ v ∈ r.vars, WfVar v) ∧ (∀ a ∈ r.acts.action, WfAct a) ∧
      0 ≤ r.acts.phase ∧ r.acts.phase ≤ 5 ∧ InInt64 r.acts.id
  | .ruleEng v => v = 0 ∨ v = 1 ∨ v = 2
  | _ => True

end Verif.Spec
