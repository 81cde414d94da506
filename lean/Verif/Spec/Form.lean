import Verif.Spec.Media
import Verif.Spec.Syntax
/-! Forms as `multipart/form-data`: RFC 7578, RFC 2046 section 5.1. -/
namespace Verif.Spec

/-- The characters of names of header fields (RFC 7230 3.2.6): visible ASCII but delimiters. -/
def FieldChar (c : UInt8) : Prop := 33 ≤ c.toNat ∧ c.toNat ≤ 126 ∧ c ∉ b!"\"(),/:;<=>?@[\\]{}"

/-- Spaces and tabs. -/
def Blanks (s : Bytes) : Prop := ∀ c ∈ s, c = 32 ∨ c = 9

/-- The value of a header line: of one line, without spaces or tabs around. -/
structure LineValue (v : Bytes) : Prop where
  line : ∀ c ∈ v, c ≠ 13 ∧ c ≠ 10
  front : ∀ c ∈ v.head?, c ≠ 32 ∧ c ≠ 9
  back : ∀ c ∈ v.getLast?, c ≠ 32 ∧ c ≠ 9

/-- Lines that continue a header line: each begins with a blank. -/
inductive Continued : List Bytes → Bytes → Prop
  | nil : Continued [] []
  | cons {b v w text : Bytes} {vs : List Bytes} : b ≠ [] → Blanks b → Blanks w → LineValue v → v ≠ [] → Continued vs text →
      Continued (v :: vs) (b ++ v ++ w ++ b!"\r\n" ++ text)

/-- Pieces of a value, with a space between each two. -/
def spaced (v : Bytes) (vs : List Bytes) : Bytes := v ++ vs.flatMap (32 :: ·)

/-- The header lines of a part, each with its name and value.  A value may go on on further lines,
or begin on the next. -/
inductive HeaderLines : List (Bytes × Bytes) → Bytes → Prop
  | nil : HeaderLines [] []
  | cons {n v w w' text : Bytes} {ls : List (Bytes × Bytes)} : n ≠ [] → (∀ c ∈ n, FieldChar c) → Blanks w → Blanks w' → LineValue v → HeaderLines ls text →
      HeaderLines ((n, v) :: ls) (n ++ b!":" ++ w ++ v ++ w' ++ b!"\r\n" ++ text)
  | folded {n v w w' more text : Bytes} {vs : List Bytes} {ls : List (Bytes × Bytes)} : n ≠ [] → (∀ c ∈ n, FieldChar c) → Blanks w → Blanks w' → LineValue v → v ≠ [] →
      Continued vs more → HeaderLines ls text → HeaderLines ((n, spaced v vs) :: ls) (n ++ b!":" ++ w ++ v ++ w' ++ b!"\r\n" ++ more ++ text)
  | hanging {n v w more text : Bytes} {vs : List Bytes} {ls : List (Bytes × Bytes)} : n ≠ [] → (∀ c ∈ n, FieldChar c) → Blanks w → Continued (v :: vs) more →
      HeaderLines ls text → HeaderLines ((n, spaced v vs) :: ls) (n ++ b!":" ++ w ++ b!"\r\n" ++ more ++ text)

/-- No line has this name. -/
def Lacks (ls : List (Bytes × Bytes)) (key : Bytes) : Prop := ∀ l ∈ ls, ¬ CaseVariant l.1 key

/-- The first line with this name has the value. -/
def FirstSays (ls : List (Bytes × Bytes)) (key v : Bytes) : Prop :=
  ∃ a n b, ls = a ++ (n, v) :: b ∧ CaseVariant n key ∧ Lacks a key

/-- The value of a Content-Disposition that belongs to a form, with its parameters. -/
def OfForm (d : Bytes) (ps : List (Bytes × Bytes)) : Prop :=
  ∃ params w, NamesType d b!"form-data" params ∧ Params ps params w ∧ Distinct ps ∧ (Blank w ∨ LoneSemicolon w) ∧ ∀ p ∈ ps, 42 ∉ p.1

/-- Parts that belong to no form, by the header: without a name, with another disposition, or
without one. -/
inductive Skipped (ls : List (Bytes × Bytes)) : Prop
  | nameless {d : Bytes} {ps : List (Bytes × Bytes)} : FirstSays ls b!"Content-Disposition" d → OfForm d ps →
      (∀ n, (b!"name", n) ∈ ps → n = []) → Skipped ls
  | other {d m params : Bytes} : FirstSays ls b!"Content-Disposition" d → NamesType d m params → MediaType m → m ≠ b!"form-data" → Skipped ls
  | bare : Lacks ls b!"Content-Disposition" → Skipped ls

/-- A field with this name. -/
inductive IsField (ls : List (Bytes × Bytes)) : Bytes → Prop
  | mk {d n : Bytes} {ps : List (Bytes × Bytes)} : FirstSays ls b!"Content-Disposition" d → OfForm d ps → (b!"name", n) ∈ ps → n ≠ [] →
      (∀ f, (b!"filename", f) ∈ ps → f = []) → Lacks ls b!"Content-Type" → IsField ls n

/-- What a part is, by its header: a field with a name, or something that is no field: a file,
or something that belongs to no form. -/
inductive PartIs (ls : List (Bytes × Bytes)) : Option Bytes → Prop
  | field {n : Bytes} : IsField ls n → PartIs ls (some n)
  | file {d n f : Bytes} {ps : List (Bytes × Bytes)} : FirstSays ls b!"Content-Disposition" d → OfForm d ps → (b!"name", n) ∈ ps → n ≠ [] →
      (b!"filename", f) ∈ ps → f ≠ [] → PartIs ls none
  | skipped : Skipped ls → PartIs ls none

/-- What may stand in a part: anything in which no delimiter begins. -/
def NoDelimiter (bnd v : Bytes) : Prop := ¬ (b!"\r\n--" ++ bnd) <:+: (b!"\r\n" ++ v)

/-- What may stand in a part and not end it: a delimiter may begin in it, but goes on as one does not. -/
def NotEnded (bnd v : Bytes) : Prop := ∀ c ∈ b!" \t\r\n-", ¬ (b!"\r\n--" ++ bnd ++ [c]) <:+: (b!"\r\n" ++ v ++ b!"\r")

/-- The parts of a form, each with its name (if it is a field) and its content. -/
inductive Parts (bnd : Bytes) : List (Option Bytes × Bytes) → Bytes → Prop
  | nil : Parts bnd [] []
  | cons {ls : List (Bytes × Bytes)} {n : Option Bytes} {head content more : Bytes} {ps : List (Option Bytes × Bytes)} :
      HeaderLines ls head → PartIs ls n → Lacks ls b!"Content-Transfer-Encoding" → NotEnded bnd content → Parts bnd ps more →
      Parts bnd ((n, content) :: ps) (b!"--" ++ bnd ++ b!"\r\n" ++ head ++ b!"\r\n" ++ content ++ b!"\r\n" ++ more)

/-- The fields among parts. -/
def fieldsOf (ps : List (Option Bytes × Bytes)) : List (Bytes × Bytes) := ps.filterMap fun p => p.1.map (·, p.2)

/-- The bytes of parts that are no fields. -/
def otherBytes (ps : List (Option Bytes × Bytes)) : Nat := (ps.map fun p => if p.1 = none then p.2.length else 0).sum

/-- A body: parts, the last delimiter, and what follows it. -/
def FormText (bnd : Bytes) (ps : List (Option Bytes × Bytes)) (tail text : Bytes) : Prop :=
  ∃ parts, Parts bnd ps parts ∧ text = parts ++ b!"--" ++ bnd ++ b!"--" ++ tail

/-- A part that is no file. -/
inductive PlainPart (ls : List (Bytes × Bytes)) : Option Bytes → Prop
  | field {n : Bytes} : IsField ls n → PlainPart ls (some n)
  | skipped : Skipped ls → PlainPart ls none

/-- Parts that are no files, and in whose headers there is no delimiter either. -/
inductive PlainParts (bnd : Bytes) : List (Option Bytes × Bytes) → Bytes → Prop
  | nil : PlainParts bnd [] []
  | cons {ls : List (Bytes × Bytes)} {n : Option Bytes} {head content more : Bytes} {ps : List (Option Bytes × Bytes)} :
      HeaderLines ls head → PlainPart ls n → Lacks ls b!"Content-Transfer-Encoding" → NotEnded bnd head → NotEnded bnd content → PlainParts bnd ps more →
      PlainParts bnd ((n, content) :: ps) (b!"--" ++ bnd ++ b!"\r\n" ++ head ++ b!"\r\n" ++ content ++ b!"\r\n" ++ more)

/-- The bytes of the fields. -/
def fieldBytes (ps : List (Option Bytes × Bytes)) : Nat := ((fieldsOf ps).map (·.2.length)).sum

/-- What may stand in a part that is not ended: there is no delimiter in it, and none of which the
end is missing. -/
structure NoneBegun (bnd v : Bytes) : Prop where
  inside : NotEnded bnd v
  start : ¬ v <+: b!"--" ++ bnd
  seam : ∀ s, s ≠ [] → s <:+ v → ¬ s <+: b!"\r\n--" ++ bnd

/-- Bytes that end within the content of a part: parts, and one of which the beginning is there. -/
def EndsWithin (bnd : Bytes) (ps : List (Option Bytes × Bytes)) (n : Option Bytes) (content text : Bytes) : Prop :=
  ∃ parts ls head, PlainParts bnd ps parts ∧ HeaderLines ls head ∧ PlainPart ls n ∧ Lacks ls b!"Content-Transfer-Encoding" ∧ NotEnded bnd head ∧
    NoneBegun bnd content ∧ text = parts ++ b!"--" ++ bnd ++ b!"\r\n" ++ head ++ b!"\r\n" ++ content

/-- A boundary: not empty, of one line. -/
def Boundary (bnd : Bytes) : Prop := bnd ≠ [] ∧ ∀ c ∈ bnd, c ≠ 13 ∧ c ≠ 10

end Verif.Spec
