import Verif.Model.Tx
/-!
Interventions as Go keeps them: records reached through pointers, whose log is a
slice of a backing array.  `Model/Tx.lean` treats an intervention as a value; this
file has the sharing that a value hides.
-/
namespace Verif

/-- A Go slice: a backing array, a length and a capacity (from the start of the array;
no slice in this code starts elsewhere).  The nil slice has capacity 0. -/
structure Slice where
  arr : Nat := 0
  len : Nat := 0
  cap : Nat := 0
deriving Repr, DecidableEq

/-- modsecurity/transaction.go:273-279, in memory.  (`Pause` and `Url` are never
assigned except by `Reset`.) -/
structure IvCell where
  status : Int := 0
  pause : Int := 0
  url : Option URL := none
  log : Slice := {}
  disruptive : Bool := false
deriving Repr, DecidableEq

/-- The part of memory that matters: backing arrays and interventions by address, the
number of each allocated, the `intervention` pointer and the `Abort` flag of the
transaction. -/
structure Mem where
  arrays : Nat → List Bytes := fun _ => []
  nArrays : Nat := 0
  cells : Nat → IvCell := fun _ => {}
  nCells : Nat := 0
  live : Option Nat := none
  abort : Bool := false

/-- The strings of a slice. -/
def Mem.lines (m : Mem) (s : Slice) : List Bytes := (m.arrays s.arr).take s.len

/-- The intervention at an address, as a value. -/
def Mem.read (m : Mem) (a : Nat) : Intervention :=
  { status := (m.cells a).status, pause := (m.cells a).pause, url := (m.cells a).url
    log := m.lines (m.cells a).log, disruptive := (m.cells a).disruptive }

/-- Store an intervention. -/
def Mem.put (m : Mem) (a : Nat) (c : IvCell) : Mem := { m with cells := fun b => if b = a then c else m.cells b }

/-- Go's `append(s, line)`: in place if the capacity allows it, else in a new array
(`grow` spare elements, as many as the runtime likes). -/
def Mem.append (m : Mem) (s : Slice) (line : Bytes) (grow : Nat) : Mem × Slice :=
  if s.len < s.cap then
    ({ m with arrays := fun b => if b = s.arr then (m.arrays b).set s.len line else m.arrays b }, { s with len := s.len + 1 })
  else
    ({ m with
        arrays := fun b => if b = m.nArrays then m.lines s ++ line :: List.replicate grow [] else m.arrays b
        nArrays := m.nArrays + 1 },
      { arr := m.nArrays, len := s.len + 1, cap := s.len + 1 + grow })

/-- modsecurity/transaction.go:281-287 `Reset`. -/
def IvCell.neutral : IvCell := { status := 200, pause := 0, url := none, log := {}, disruptive := false }

/-- modsecurity/transaction.go:228-234 `Intervention()`: the pointer, allocated on first use. -/
def Mem.intervention (m : Mem) : Mem × Nat :=
  match m.live with
  | some a => (m, a)
  | none => ({ m.put m.nCells .neutral with nCells := m.nCells + 1, live := some m.nCells }, m.nCells)

/-- What the library does to interventions.  `assign` stands for the assignments to
`Status` and `Disruptive` (modsecurity/actions/deny.go:24-37, transaction.go:245-246, 253-254). -/
inductive LibOp where
  | intervention
  | logf (line : Bytes) (grow : Nat)
  | assign (status : Option Int) (disruptive : Option Bool)
  | setAbort
  | reset
  | result
deriving DecidableEq

/-- The effect in memory, and the address returned. -/
def Mem.step (m : Mem) : LibOp → Mem × Option Nat
  -- transaction.go:228-234
  | .intervention => let (m, a) := m.intervention; (m, some a)
  -- transaction.go:269-270
  | .logf line grow =>
    let (m, a) := m.intervention
    let (m, s) := m.append (m.cells a).log line grow
    (m.put a { m.cells a with log := s }, none)
  | .assign st d =>
    let (m, a) := m.intervention
    (m.put a { m.cells a with status := st.getD (m.cells a).status, disruptive := d.getD (m.cells a).disruptive }, none)
  -- transaction.go:243, 251
  | .setAbort => ({ m with abort := true }, none)
  -- transaction.go:235-240
  | .reset => let (m, a) := m.intervention; (m.put a .neutral, none)
  -- transaction.go:257-263, 289-293
  | .result =>
    let (m, a) := m.intervention
    let b := m.nCells
    let m := { m.put b (m.cells a) with nCells := b + 1 }
    (if m.abort then m else m.put a .neutral, some b)

/-- A sequence of them, and the addresses returned. -/
def Mem.run (m : Mem) : List LibOp → Mem × List (Option Nat)
  | [] => (m, [])
  | op :: ops => ((m.step op).1.run ops |>.1, (m.step op).2 :: ((m.step op).1.run ops).2)

/-- What a host can do with an intervention it was given: assign its fields, assign
an element of the log, append to the log, or cut the log. -/
inductive KeeperOp where
  | assign (a : Nat) (status : Int) (disruptive : Bool)
  | setLine (a i : Nat) (line : Bytes)
  | append (a : Nat) (line : Bytes) (grow : Nat)
  | cut (a n : Nat)
deriving DecidableEq

/-- The effect in memory (nothing where Go panics). -/
def Mem.host (m : Mem) : KeeperOp → Mem
  | .assign a st d => m.put a { m.cells a with status := st, disruptive := d }
  | .setLine a i line =>
    let s := (m.cells a).log
    if i < s.len then { m with arrays := fun b => if b = s.arr then (m.arrays b).set i line else m.arrays b } else m
  | .append a line grow =>
    let (m, s) := m.append (m.cells a).log line grow
    m.put a { m.cells a with log := s }
  | .cut a n =>
    let s := (m.cells a).log
    if n ≤ s.cap then m.put a { m.cells a with log := { s with len := n } } else m

end Verif
