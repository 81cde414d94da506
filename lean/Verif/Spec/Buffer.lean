import Verif.Model.Buffer
/-! What a client of the body buffer observes: which chunks were accepted, and the
content that reading the whole body returns. -/
namespace Verif.Spec

/-- The chunk of a call, if the call is a write that returned no error. -/
def acceptedChunk (b : Buf) : BufOp → Bytes
  | .write p io => match b.write p io with
    | .ok (_, _, none) => p
    | _ => []
  | _ => []

/-- Concatenation of the chunks accepted during a history. -/
def accepted (b : Buf) : List BufOp → Bytes
  | [] => []
  | op :: ops => acceptedChunk b op ++ match b.step op with
    | .ok b' => accepted b' ops
    | _ => []

/-- The call is not a write hit by an operating-system failure. -/
def Faultless (op : BufOp) : Prop := ∀ p io, op = .write p io → io = IOFault.none

/-- The call is not a write for which creating the temporary file fails. -/
def TempWorks (op : BufOp) : Prop := ∀ p io, op = .write p io → io.tempFail = false

/-- The content copied out by `WriteTo`. -/
def body (b : Buf) : Option Bytes :=
  match b.writeTo with
  | .ok (_, out, none) => some out
  | _ => none

end Verif.Spec
