import Verif.Spec.Text
/-! What a Content-Type header says: RFC 2045, section 5.1. -/
namespace Verif.Spec

/-- A letter without its case. -/
def small (c : UInt8) : UInt8 := if 65 ≤ c.toNat ∧ c.toNat ≤ 90 then c + 32 else c

/-- `tspecials` of RFC 2045. -/
def Special (c : UInt8) : Prop := c ∈ b!"()<>@,;:\\\"/[]?="

/-- A character of a token: visible ASCII, not special. -/
def TokenChar (c : UInt8) : Prop := 33 ≤ c.toNat ∧ c.toNat ≤ 126 ∧ ¬ Special c

def MimeToken (s : Bytes) : Prop := s ≠ [] ∧ ∀ c ∈ s, TokenChar c

/-- What stands between quotes, and what is meant: a backslash takes the meaning from a
special character, and stands for itself before others. -/
inductive Quoted : Bytes → Bytes → Prop
  | nil : Quoted [] []
  | char {c : UInt8} {b v : Bytes} : c ≠ 34 → c ≠ 92 → c ≠ 13 → c ≠ 10 → Quoted b v → Quoted (c :: b) (c :: v)
  | escape {c : UInt8} {b v : Bytes} : Special c → Quoted b v → Quoted (92 :: c :: b) (c :: v)
  | backslash {c : UInt8} {b v : Bytes} : ¬ Special c → Quoted (c :: b) v → Quoted (92 :: c :: b) (92 :: v)

/-- The value of a parameter, as it is written before `rest`. -/
inductive ParamVal : Bytes → Bytes → Bytes → Prop
  | token {s rest : Bytes} : MimeToken s → (∀ c ∈ rest.head?, ¬ TokenChar c) → ParamVal s s rest
  | quoted {b v rest : Bytes} : Quoted b v → ParamVal (34 :: b ++ [34]) v rest

/-- `; name = value`, as it is written before `rest`. -/
inductive Param : Bytes → Bytes → Bytes → Bytes → Prop
  | mk {w1 w2 w3 w4 name text value rest : Bytes} : Blank w1 → Blank w2 → Blank w3 → Blank w4 → MimeToken name → ParamVal text value rest →
      Param (name.map small) value (w1 ++ 59 :: (w2 ++ (name ++ (w3 ++ 61 :: (w4 ++ text))))) rest

/-- Parameters with their names (without case) and values at the beginning of a text, and
the rest of it. -/
inductive Params : List (Bytes × Bytes) → Bytes → Bytes → Prop
  | nil {s : Bytes} : Params [] s s
  | cons {n v text s rest : Bytes} {ps : List (Bytes × Bytes)} : Param n v text s → Params ps s rest → Params ((n, v) :: ps) (text ++ s) rest

/-- No name twice. -/
def Distinct (ps : List (Bytes × Bytes)) : Prop := (ps.map (·.1)).Nodup

/-- Parameters, each with its own name, up to one with a name that was there before. -/
def Repeats (s : Bytes) : Prop :=
  ∃ ps n v text rest, Params ps s (text ++ rest) ∧ Distinct ps ∧ Param n v text rest ∧ n ∈ ps.map (·.1)

/-- A semicolon alone between white space. -/
def LoneSemicolon (s : Bytes) : Prop := ∃ l r, Blank l ∧ Blank r ∧ s = l ++ 59 :: r

/-- The media type of a header: a token, or two of them with a slash between. -/
def MediaType (s : Bytes) : Prop := MimeToken s ∨ ∃ a b, MimeToken a ∧ MimeToken b ∧ s = a ++ 47 :: b

/-- ASCII white space. -/
def AsciiBlank (s : Bytes) : Prop := ∀ c ∈ s, (9 ≤ c.toNat ∧ c.toNat ≤ 13) ∨ c = 32

/-- The header names the media type `m` (given in lower case), followed by `params`: nothing,
or something that begins with a semicolon. -/
def NamesType (ct m params : Bytes) : Prop :=
  ∃ l a r, ct = l ++ a ++ r ++ params ∧ AsciiBlank l ∧ AsciiBlank r ∧ a.map small = m ∧ (params = [] ∨ ∃ p, params = 59 :: p)

end Verif.Spec
