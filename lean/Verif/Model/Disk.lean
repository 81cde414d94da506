import Verif.Model.Engine
/-!
The directory of temporary files: modsecurity/buffer.go:11-22 `newBuffer`, 126-138
`makeBufferDir`, and what modsecurity/transaction.go:58-86 `NewTransaction` makes of them.

The disk is a tree of directories and files as one process sees it.  A path is the list
of its names, from the root or from the working directory; there are no links, and the
names `.` and `..` do not occur.  `os.Stat`, `os.MkdirAll` and `ioutil.TempFile` are
modelled by what they are documented to do.
-/
namespace Verif

/-- Names from the root, or from the working directory. -/
abbrev DirPath := List Bytes

/-- What is at a path: a directory, whether this process may look names up in it and
whether it may add names to it; or something else. -/
inductive Inode where
  | dir (search write : Bool)
  | file
deriving Repr, DecidableEq

/-- `refused` are the names the file system has no place for (too long, for example). -/
structure Disk where
  at_ : DirPath → Option Inode
  refused : Bytes → Bool := fun _ => false

/-- Errors of the operating system: ENOENT, ENOTDIR, EACCES, ENAMETOOLONG. -/
inductive OsErr where
  | notExist | notDir | access | name
deriving Repr, DecidableEq

/-- Looking up the names of a path one after the other. -/
def Disk.walk (d : Disk) (here : DirPath) : DirPath → Except OsErr Inode
  | [] => match d.at_ here with
    | none => .error .notExist
    | some e => .ok e
  | n :: rest => match d.at_ here with
    | none => .error .notExist
    | some .file => .error .notDir
    | some (.dir search _) =>
      if !search then .error .access
      else if d.refused n then .error .name
      else d.walk (here ++ [n]) rest

/-- `os.Stat`. -/
def Disk.stat (d : Disk) (p : DirPath) : Except OsErr Inode := d.walk [] p

/-- The disk with something put at a path. -/
def Disk.put (d : Disk) (p : DirPath) (e : Inode) : Disk := { d with at_ := fun q => if q = p then some e else d.at_ q }

/-- `os.Mkdir(path, 0700)`, for the name `n` in the directory `p`.  The process may use
what it makes (the umask leaves the owner's bits).  EEXIST does not occur below. -/
def Disk.mkdir (d : Disk) (p : DirPath) (n : Bytes) : Disk × Option OsErr :=
  match d.stat p with
  | .error e => (d, some e)
  | .ok .file => (d, some .notDir)
  | .ok (.dir search write) =>
    if !search then (d, some .access)
    else if d.refused n then (d, some .name)
    else if !write then (d, some .access)
    else (d.put (p ++ [n]) (.dir true true), none)

/-- `os.MkdirAll(path, 0700)`: nothing if the directory is there; else the parent first,
then the directory. -/
def Disk.mkdirAll (d : Disk) (p : DirPath) : Disk × Option OsErr :=
  match d.stat p with
  | .ok (.dir _ _) => (d, none)
  | .ok .file => (d, some .notDir)
  | .error e =>
    match _h : p.getLast? with
    | none => (d, some e)
    | some n =>
      match d.mkdirAll p.dropLast with
      | (d, some e) => (d, some e)
      | (d, none) => d.mkdir p.dropLast n
termination_by p.length
decreasing_by
  cases p with
  | nil => cases _h
  | cons a l => simp

/-- `ioutil.TempFile(dir, …)`: whether a file can be made (its name being new). -/
def Disk.tempFile (d : Disk) (p : DirPath) : Bool :=
  match d.stat p with
  | .ok (.dir search write) => search && write
  | _ => false

/-- modsecurity/buffer.go:126-138 `makeBufferDir`; `none` is the empty string, which names
nothing, and which `os.MkdirAll` cannot make. -/
def Disk.makeBufferDir (d : Disk) : Option DirPath → Disk × Option OsErr
  | none => (d, some .notExist)
  | some p => match d.stat p with
    | .ok _ => (d, none)
    | .error .notExist => d.mkdirAll p
    | .error e => (d, some e)

/-- modsecurity/buffer.go:11-22 `newBuffer`. -/
def Disk.newBuffer (d : Disk) (dir : Option DirPath) (memLimit fileLimit : Int) : Disk × Except OsErr Buf :=
  match d.makeBufferDir dir with
  | (d, some e) => (d, .error e)
  | (d, none) => (d, .ok (Verif.newBuffer memLimit fileLimit))

/-- modsecurity/engine.go:3-9 `Engine`, as far as `NewTransaction` reads it: the embedded
pointers, which may be nil, and `Config.TmpPath` (19-21). -/
structure EngineRec where
  limits : Option Limits := some newDefaultLimits
  tmpPath : Option (Option DirPath) := some (some [b!"tmp"])

/-- Errors of `NewTransaction`. -/
inductive NewErr where
  | noEngine | noRuleSet | os (e : OsErr)
deriving Repr, DecidableEq

/-- modsecurity/transaction.go:58-86 `NewTransaction`: the disk after, and what is
returned.  The engine and the rule set (here only whether it is there) may be nil. -/
def newTransactionOn (d : Disk) (e : Option EngineRec) (rs : Bool) : Res (Disk × Except NewErr Tx) :=
  match e with
  | none => .ok (d, .error .noEngine)
  | some e =>
    if !rs then .ok (d, .error .noRuleSet)
    else match e.tmpPath, e.limits with
    | some dir, some l =>
      match d.newBuffer dir l.requestBodyInMem l.requestBody with
      | (d, .error x) => .ok (d, .error (.os x))
      | (d, .ok reqBody) =>
        match d.newBuffer dir l.responseBody l.responseBody with
        | (d, .error x) => .ok (d, .error (.os x))
        | (d, .ok respBody) => .ok (d, .ok { newTransaction l with reqBody, respBody })
    | _, _ => .panic

/-- What the operating system does during one `Write` of a body, if the disk is as it is
and nothing else goes wrong. -/
def Disk.io (d : Disk) (p : DirPath) : IOFault := { tempFail := !d.tempFile p }

/-- Appending chunks to a body one after the other; the error of each. -/
def Buf.writesOn (b : Buf) (io : IOFault) : List Bytes → Res (Buf × List (Option BufErr))
  | [] => .ok (b, [])
  | p :: ps => (b.write p io).bind fun (b, _, e) => (b.writesOn io ps).bind fun (b, es) => .ok (b, e :: es)

end Verif
