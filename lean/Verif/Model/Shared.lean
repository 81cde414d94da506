import Verif.Model.Buffer
/-!
The memory of a body buffer as Go keeps it.  `Model/Buffer.lean` treats `memBuf` as a value;
`Bytes` returns the slice itself, so that a host shares the backing array with the buffer.
-/
namespace Verif

/-- A slice of bytes from the beginning of an array: the array, the length; the capacity is
that of the array. -/
structure BSlice where
  arr : Nat
  len : Nat
deriving Repr, DecidableEq

/-- A buffer and the arrays that have been made for it.  What is in memory are the first `len`
bytes of the array `arr`; the field `memBuf` of `buf` is not used. -/
structure ShBuf where
  arrays : Nat → Bytes := fun _ => []
  count : Nat := 1
  arr : Nat := 0
  len : Nat := 0
  buf : Buf

/-- `newBuffer`: the array of a new `bytes.Buffer` has no room. -/
def newShBuf (memLimit fileLimit : Int) : ShBuf := { buf := newBuffer memLimit fileLimit }

/-- What a slice holds at present. -/
def ShBuf.look (m : ShBuf) (s : BSlice) : Bytes := (m.arrays s.arr).take s.len

/-- The buffer as a value. -/
def ShBuf.view (m : ShBuf) : Buf := { m.buf with memBuf := m.look ⟨m.arr, m.len⟩ }

/-- `bytes.Buffer.Write`: in place if there is room, else in a new array.  `room` is how much
spare room that gets (Go 1.12: 64 bytes in all at first, then twice the old capacity). -/
def ShBuf.store (room : Nat → Nat → Nat) (m : ShBuf) (p : Bytes) : ShBuf :=
  let a := m.arrays m.arr
  if m.len + p.length ≤ a.length then
    { m with
      arrays := fun k => if k = m.arr then a.take m.len ++ p ++ a.drop (m.len + p.length) else m.arrays k
      len := m.len + p.length }
  else
    { m with
      arrays := fun k => if k = m.count then a.take m.len ++ p ++ List.replicate (room a.length p.length) 0 else m.arrays k
      count := m.count + 1
      arr := m.count
      len := m.len + p.length }

/-- What a call on a buffer returns. -/
inductive BufAns where
  | number (n : Nat) (e : Option BufErr)
  | text (s : Bytes) (e : Option BufErr)
  | only (e : Option BufErr)
deriving Repr, DecidableEq

/-- A call on the buffer as a value (`Model/Buffer.lean`), with what it returns. -/
def Buf.ask (b : Buf) : BufOp → Res (Buf × BufAns)
  | .write p io => (b.write p io).bind fun r => .ok (r.1, .number r.2.1 r.2.2)
  | .string => .ok (b.string.1, .text b.string.2.1 b.string.2.2)
  | .bytes => .ok (b.string.1, .text b.string.2.1 b.string.2.2)
  | .read n => (b.read n).bind fun r => .ok (r.1, .text r.2.1 r.2.2)
  | .writeTo => b.writeTo.bind fun r => .ok (r.1, .text r.2.1 r.2.2)
  | .seek o w => (b.seek o w).bind fun r => .ok (r.1, .number r.2.1 r.2.2)
  | .close => b.close.bind fun r => .ok (r.1, .only r.2)

/-- A call on the buffer in memory: what `Write` adds to `memBuf` is stored.  (`memReader`, a
slice of the array as well, is made anew by every call that uses it.) -/
def ShBuf.call (room : Nat → Nat → Nat) (m : ShBuf) (op : BufOp) : Res (ShBuf × BufAns) :=
  (m.view.ask op).bind fun r => .ok ({ m.store room (r.1.memBuf.drop m.len) with buf := r.1 }, r.2)

/-- What a host does: it calls the buffer, or it assigns to an element of a slice that it got
from `Bytes`, the `k`-th one. -/
inductive HolderOp where
  | call (op : BufOp)
  | set (k i : Nat) (v : UInt8)
deriving Repr, DecidableEq

/-- The buffer, and the slices the host has got. -/
structure Holder where
  m : ShBuf
  got : List BSlice := []

/-- modsecurity/buffer.go:73-80: `Bytes` returns the slice of `memBuf`, and the host keeps it.
An assignment outside a slice is a panic of the host's. -/
def Holder.step (room : Nat → Nat → Nat) (h : Holder) : HolderOp → Res (Holder × Option BufAns)
  | .call op => (h.m.call room op).bind fun r =>
      .ok ({ m := r.1, got := if op = .bytes then h.got ++ [⟨r.1.arr, r.1.len⟩] else h.got }, some r.2)
  | .set k i v =>
    match h.got[k]? with
    | none => .panic
    | some s =>
      if i < s.len then
        .ok ({ h with m := { h.m with arrays := fun a => if a = s.arr then (h.m.arrays a).set i v else h.m.arrays a } }, none)
      else .panic

/-- What the host gets for its program. -/
def Holder.run (room : Nat → Nat → Nat) : Holder → List HolderOp → Res (Holder × List BufAns)
  | h, [] => .ok (h, [])
  | h, op :: ops => (h.step room op).bind fun r =>
      (r.1.run room ops).bind fun q => .ok (q.1, r.2.toList ++ q.2)

end Verif
