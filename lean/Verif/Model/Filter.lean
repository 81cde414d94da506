import Verif.Model.GoMap
/-! modsecurity/variables/filter.go -/
namespace Verif

/-- A compiled regular expression: its source and `MatchString`. -/
structure Rx where
  src : Bytes
  run : Bytes → Bool

/-- modsecurity/variables/filter.go:9-14 (a nil slice is the empty list: slices
are only ever appended to). -/
structure Filter where
  incl : List Bytes := []
  inclRx : List Rx := []
  excl : List Bytes := []
  exclRx : List Rx := []

/-- modsecurity/variables/filter.go:16-21 `isRegex`. -/
def isRegex (s : Bytes) : Bool :=
  if s.length < 2 then false
  else s.head? == some 47 && s.getLast? == some 47

/-- Result of `compileRegex`: not a regex (`nil, nil`), compiled, or an error. -/
inductive CompileRes where
  | notRegex
  | compiled (r : Rx)
  | err

/-- modsecurity/variables/filter.go:22-31 `compileRegex`; `rx` is `regexp.Compile`. -/
def compileRegex (rx : Bytes → Option (Bytes → Bool)) (s : Bytes) : CompileRes :=
  if !isRegex s then .notRegex
  else
    let src := (s.drop 1).take (s.length - 2)
    match rx src with
    | none => .err
    | some f => .compiled ⟨src, f⟩

/-- modsecurity/variables/filter.go:33-44 `Include`; `none` is an error. -/
def Filter.include (rx : Bytes → Option (Bytes → Bool)) (f : Filter) (s : Bytes) : Option Filter :=
  match compileRegex rx s with
  | .err => none
  | .compiled r => some { f with inclRx := f.inclRx ++ [r] }
  | .notRegex => some { f with incl := f.incl ++ [s] }

/-- modsecurity/variables/filter.go:45-56 `Exclude`; `none` is an error. -/
def Filter.exclude (rx : Bytes → Option (Bytes → Bool)) (f : Filter) (s : Bytes) : Option Filter :=
  match compileRegex rx s with
  | .err => none
  | .compiled r => some { f with exclRx := f.exclRx ++ [r] }
  | .notRegex => some { f with excl := f.excl ++ [s] }

/-- utils/strings.go:5-12 `StringInSlice`. -/
def stringInSlice (s : Bytes) : List Bytes → Bool
  | [] => false
  | v :: r => if v = s then true else stringInSlice s r

/-- utils/strings.go:14-21 `StringInRegexSlice`. -/
def stringInRegexSlice (s : Bytes) : List Rx → Bool
  | [] => false
  | v :: r => if v.run s then true else stringInRegexSlice s r

/-- modsecurity/variables/filter.go:79-86: is the entry named `k` kept? -/
def Filter.keep (f : Filter) (k : Bytes) : Bool :=
  if (!f.incl.isEmpty && !stringInSlice k f.incl) || (!f.inclRx.isEmpty && !stringInRegexSlice k f.inclRx) then
    false
  else if (!f.excl.isEmpty && stringInSlice k f.excl) || (!f.exclRx.isEmpty && stringInRegexSlice k f.exclRx) then
    false
  else true

/-- modsecurity/variables/filter.go:76-90 `FetchWithNames`: range over the map,
appending kept entries to a fresh map. -/
def Filter.fetchWithNames (f : Filter) (o : IterOrd) (vs : GoMap) : GoMap :=
  (o.run vs).foldl (fun res e => if f.keep e.1 then res.append e.1 e.2 else res) []

/-- modsecurity/variables/filter.go:58-65 `Fetch`. -/
def Filter.fetch (f : Filter) (o : IterOrd) (vs : GoMap) : List Bytes :=
  (o.run (f.fetchWithNames o vs)).flatMap (fun e => e.2)

/-- modsecurity/variables/filter.go:67-74 `Names`. -/
def Filter.names (f : Filter) (o : IterOrd) (vs : GoMap) : List Bytes :=
  (o.run (f.fetchWithNames o vs)).map (fun e => e.1)

end Verif
