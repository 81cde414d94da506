import Verif.Model.Variables
/-!
Programs that read a stream, such as `multipart.Reader.ReadForm`: after what they
have been given so far they ask for some number of bytes, or stop.
-/
namespace Verif

/-- What one `Read` gives: the bytes, and the error, if any. -/
abbrev Reply := Bytes × Option BufErr

/-- A program reading a stream: from the replies so far, the number of bytes to ask
for next, or the outcome. -/
abbrev ReadProg := List Reply → Nat ⊕ FormRes

/-- The program, given `h` before, finds the stream in state `s` and stops with the
outcome `r`, leaving it in state `s'`.  `rd` tells what a state replies to a number of
bytes asked for, and the state after. -/
inductive Plays {σ : Type} (rd : σ → Nat → Reply → σ → Prop) (g : ReadProg) : List Reply → σ → FormRes → σ → Prop
  | stop {h : List Reply} {s : σ} {r : FormRes} : g h = .inr r → Plays rd g h s r s
  | ask {h : List Reply} {s s' s'' : σ} {k : Nat} {a : Reply} {r : FormRes} :
    g h = .inl k → rd s k a s' → Plays rd g (h ++ [a]) s' r s'' → Plays rd g h s r s''

/-- The bytes in order, from the offset in the state; then the end of the file. -/
def inOrder (c : Bytes) (p k : Nat) (a : Reply) (p' : Nat) : Prop :=
  a = ((c.drop p).take k, if c.length ≤ p then some .eof else none) ∧ p' = p + a.1.length

/-- The beginning every time; the state is the number of bytes asked for last.  Nothing
but an error if there is no content to read. -/
def repeating (c : Option Bytes) (_ k : Nat) (a : Reply) (k' : Nat) : Prop :=
  (match c with
    | some c => a = (c.take k, if c = [] then some .eof else none)
    | none => a = ([], some .io)) ∧ k' = k

/-- A body buffer, read with `Read`. -/
def fromBody (b : Buf) (k : Nat) (a : Reply) (b' : Buf) : Prop := b.read k = .ok (b', a.1, a.2)

/-- `multipart.Reader.ReadForm` is the program `g` (which depends on the boundary and on
the memory limit), and not to return means that `g` asks for ever.  Readers never ask
for 0 bytes. -/
structure Lib.Runs (lib : Lib) (g : Bytes → Int → ReadProg) : Prop where
  asks : ∀ bnd m h k, g bnd m h = .inl k → 0 < k
  stops : ∀ bnd m h, g bnd m h ≠ .inr .hang
  runs : ∀ c bnd m r p, r ≠ .hang → (lib.readForm c bnd m = (r, p) ↔ Plays (repeating c) (g bnd m) [] 0 r p)

/-- The program asks for at most `N` bytes at a time.  (The reader of `mime/multipart`
has a buffer of 4096 bytes.) -/
def AsksAtMost (N : Nat) (g : Bytes → Int → ReadProg) : Prop := ∀ bnd m h k, g bnd m h = .inl k → k ≤ N

end Verif
