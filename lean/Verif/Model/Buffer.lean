import Verif.Model.Basic
/-! modsecurity/buffer.go: the body buffer, in memory up to `memLimit`, then in a
temporary file up to `fileLimit`. -/
namespace Verif

/-- Errors returned by the buffer (modsecurity/buffer.go:35-37), `io.EOF`, and
errors of the operating system. -/
inductive BufErr where
  | outOfFileLimit | outOfMemLimit | bufferReaded | eof | seek | io
deriving Repr, DecidableEq

/-- An open `*os.File`: its content, the current offset, whether it was closed. -/
structure File where
  content : Bytes
  pos : Nat
  closed : Bool := false
deriving Repr, DecidableEq

/-- modsecurity/buffer.go:24-33.  `dir` is only used to create the file.
`memReader` is the reader's slice and offset.  `int64` limits are `Int`. -/
structure Buf where
  length : Nat := 0
  memLimit : Int
  fileLimit : Int
  memBuf : Bytes := []
  memReader : Option (Bytes × Nat) := none
  fileBuf : Option File := none
  readed : Bool := false
deriving Repr, DecidableEq

/-- modsecurity/buffer.go:11-22 `newBuffer` (directory creation succeeding). -/
def newBuffer (memLimit fileLimit : Int) : Buf :=
  { memLimit := memLimit, fileLimit := fileLimit }

/-- What the operating system does during one `Write`: whether creating the
temporary file fails; and, for the copy of the memory buffer and the write of
the chunk, `some k` if only `k` bytes are written before an error. -/
structure IOFault where
  tempFail : Bool := false
  copyFail : Option Nat := none
  writeFail : Option Nat := none
deriving Repr, DecidableEq

/-- No I/O error. -/
def IOFault.none : IOFault := {}

/-- Content of a file after writing `p` at offset `pos` (holes are zero-filled;
writing nothing leaves none). -/
def writeAt (content : Bytes) (pos : Nat) (p : Bytes) : Bytes :=
  if p = [] then content
  else content.take pos ++ List.replicate (pos - content.length) 0 ++ p ++ content.drop (pos + p.length)

/-- `os.File.Write`: new file, bytes written, error. -/
def File.write (f : File) (p : Bytes) (fail : Option Nat) : File × Nat × Option BufErr :=
  if f.closed then (f, 0, some .io)
  else match fail with
    | none => ({ f with content := writeAt f.content f.pos p, pos := f.pos + p.length }, p.length, none)
    | some k =>
      let q := p.take k
      ({ f with content := writeAt f.content f.pos q, pos := f.pos + q.length }, q.length, some .io)

/-- modsecurity/buffer.go:39-64 `Write`.  Slicing `p[:memLimit-length]` with a
negative bound is the only possible panic. -/
def Buf.write (b : Buf) (p : Bytes) (io : IOFault) : Res (Buf × Nat × Option BufErr) :=
  if b.readed then .ok (b, 0, some .bufferReaded)
  else if (b.length : Int) + p.length > b.fileLimit then .ok (b, 0, some .outOfFileLimit)
  else match b.fileBuf with
    | none =>
      if (b.length : Int) + p.length > b.memLimit then
        if b.memLimit - b.length < 0 then .panic
        else
          let b := { b with memBuf := b.memBuf ++ p.take (b.memLimit - b.length).toNat }
          if io.tempFail then .ok (b, 0, some .io)
          else
            let (f, _, e) := File.write { content := [], pos := 0 } b.memBuf io.copyFail
            match e with
            | some e => .ok ({ b with fileBuf := some f }, 0, some e)
            | none =>
              let (f, wn, e) := f.write p io.writeFail
              .ok ({ b with fileBuf := some f, length := b.length + wn }, wn, e)
      else
        .ok ({ b with memBuf := b.memBuf ++ p, length := b.length + p.length }, p.length, none)
    | some f =>
      let (f, wn, e) := f.write p io.writeFail
      .ok ({ b with fileBuf := some f, length := b.length + wn }, wn, e)

/-- modsecurity/buffer.go:84-90 `initRead`.  `b.fileBuf.Seek(0, 0)` on a nil or
closed file only returns an error, which is ignored. -/
def Buf.initRead (b : Buf) : Buf :=
  if !b.readed then
    { b with
      memReader := some (b.memBuf, 0)
      fileBuf := b.fileBuf.map fun f => if f.closed then f else { f with pos := 0 } }
  else b

/-- modsecurity/buffer.go:65-72 `String` and 73-80 `Bytes`. -/
def Buf.string (b : Buf) : Buf × Bytes × Option BufErr :=
  let b := b.initRead
  (b, b.memBuf, if b.fileBuf.isSome then some .outOfMemLimit else none)

/-- What `Read` reads from (modsecurity/buffer.go:91-97): the file if there is one;
`none` if that is closed, so that reading fails. -/
def Buf.content (b : Buf) : Option Bytes :=
  match b.fileBuf with
  | none => some b.memBuf
  | some f => if f.closed then none else some f.content

/-- modsecurity/buffer.go:81-83 `Len`. -/
def Buf.len (b : Buf) : Nat := b.length

/-- `os.File.Read` into a slice of length `n`. -/
def File.read (f : File) (n : Nat) : File × Bytes × Option BufErr :=
  if f.closed then (f, [], some .io)
  else
    let out := (f.content.drop f.pos).take n
    ({ f with pos := f.pos + out.length }, out, if out.length = 0 ∧ 0 < n then some .eof else none)

/-- `bytes.Reader.Read` into a slice of length `n`. -/
def memRead (r : Bytes × Nat) (n : Nat) : (Bytes × Nat) × Bytes × Option BufErr :=
  if r.2 ≥ r.1.length then (r, [], some .eof)
  else
    let out := (r.1.drop r.2).take n
    ((r.1, r.2 + out.length), out, none)

/-- modsecurity/buffer.go:91-97 `Read` into a slice of length `n`.  (A nil
`memReader` cannot occur after `initRead` of an unread buffer; it is a panic.) -/
def Buf.read (b : Buf) (n : Nat) : Res (Buf × Bytes × Option BufErr) :=
  let b := b.initRead
  match b.fileBuf with
  | none =>
    match b.memReader with
    | none => .panic
    | some r =>
      let (r, out, e) := memRead r n
      .ok ({ b with memReader := some r }, out, e)
  | some f =>
    let (f, out, e) := f.read n
    .ok ({ b with fileBuf := some f }, out, e)

/-- modsecurity/buffer.go:98-104 `WriteTo` (to a writer that never fails):
the bytes written out. -/
def Buf.writeTo (b : Buf) : Res (Buf × Bytes × Option BufErr) :=
  let b := b.initRead
  match b.fileBuf with
  | none =>
    match b.memReader with
    | none => .panic
    | some r => .ok ({ b with memReader := some (r.1, r.1.length) }, r.1.drop r.2, none)
  | some f =>
    if f.closed then .ok (b, [], some .io)
    else .ok ({ b with fileBuf := some { f with pos := max f.pos f.content.length } },
          f.content.drop f.pos, none)

/-- The absolute offset denoted by `(offset, whence)` for a stream at `pos` of
size `size`; `none` when invalid. -/
def seekTarget (offset : Int) (whence : Int) (pos size : Nat) : Option Nat :=
  let abs : Option Int :=
    if whence = 0 then some offset
    else if whence = 1 then some (pos + offset)
    else if whence = 2 then some (size + offset)
    else none
  match abs with
  | some a => if a < 0 then none else some a.toNat
  | none => none

/-- modsecurity/buffer.go:105-111 `Seek`. -/
def Buf.seek (b : Buf) (offset whence : Int) : Res (Buf × Nat × Option BufErr) :=
  let b := b.initRead
  match b.fileBuf with
  | none =>
    match b.memReader with
    | none => .panic
    | some r =>
      match seekTarget offset whence r.2 r.1.length with
      | none => .ok (b, 0, some .seek)
      | some p => .ok ({ b with memReader := some (r.1, p) }, p, none)
  | some f =>
    if f.closed then .ok (b, 0, some .io)
    else match seekTarget offset whence f.pos f.content.length with
      | none => .ok (b, 0, some .seek)
      | some p => .ok ({ b with fileBuf := some { f with pos := p } }, p, none)

/-- modsecurity/buffer.go:113-124 `Close`: `b.fileBuf.Name()` on a nil file
panics; otherwise the file is closed and removed (success unless closed before). -/
def Buf.close (b : Buf) : Res (Buf × Option BufErr) :=
  match b.fileBuf with
  | none => .panic
  | some f => .ok ({ b with fileBuf := some { f with closed := true } }, if f.closed then some .io else none)

/-- One call on a body buffer. -/
inductive BufOp where
  | write (p : Bytes) (io : IOFault)
  | string
  | bytes
  | read (n : Nat)
  | writeTo
  | seek (offset whence : Int)
  | close
deriving Repr, DecidableEq

/-- State after one call. -/
def Buf.step (b : Buf) : BufOp → Res Buf
  | .write p io => (b.write p io).bind fun r => .ok r.1
  | .string => .ok b.string.1
  | .bytes => .ok b.string.1
  | .read n => (b.read n).bind fun r => .ok r.1
  | .writeTo => b.writeTo.bind fun r => .ok r.1
  | .seek o w => (b.seek o w).bind fun r => .ok r.1
  | .close => b.close.bind fun r => .ok r.1

/-- State after a history of calls; a panic ends the history. -/
def Buf.steps (b : Buf) : List BufOp → Res Buf
  | [] => .ok b
  | op :: ops => (b.step op).bind fun b => b.steps ops

end Verif
