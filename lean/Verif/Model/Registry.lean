import Verif.Model.Seclang
/-!
The tables of directives (seclang/parser/seclang_token.go:204-229, seclang/rule_set.go:10-27),
which a host may extend with directives of its own.  Model/Parser and Model/Seclang describe
the tables as the package leaves them; Props/Registry shows that they agree.
-/
namespace Verif

/-- seclang/parser/seclang_token.go:10-15 (`iota + 128`). -/
def tkDirRule : Int := 128
def tkDirRuleEng : Int := 129
def tkDirReqBody : Int := 130
def tkDirResBody : Int := 131

/-- A `parser.Directive`: those of scanner.go:438-552, and types of the host, of which `Token`
and some content are seen. -/
inductive GDir where
  | rule (r : PRule)
  | tri (tk : Int) (v : Int)
  | bool (tk : Int) (v : Bool)
  | str (tk : Int) (v : Bytes)
  | other (tk : Int) (v : Bytes)

/-- `Token` (scanner.go:443-445, 465-467, 493-495, 550-552). -/
def GDir.token : GDir → Int
  | .rule _ => tkDirRule
  | .tri tk _ => tk
  | .bool tk _ => tk
  | .str tk _ => tk
  | .other tk _ => tk

/-- A `DirectiveFactory`.  What a host writes can do with the scanner what it likes. -/
inductive Factory where
  | rule
  | tri (tk : Int)
  | bool (tk : Int)
  | str (tk : Int)
  | custom (f : Scan → SR GDir)

/-- Calling it (scanner.go:447-458, 469-480, 497-513, 554-572). -/
def Factory.read (s : Scan) : Factory → SR GDir
  | .rule => SR.andThen s.readVariables fun vars s =>
      SR.andThen s.readOperator fun op s =>
        SR.andThen s.readActions fun acts s => .ok (s, .ok (.rule { vars, op, acts }))
  | .tri tk => SR.andThen s.readString fun str s => .ok (s, (parseTri str).map (.tri tk))
  | .bool tk => SR.andThen s.readString fun str s => .ok (s, (parseBool str).map (.bool tk))
  | .str tk => SR.andThen s.readString fun str s => .ok (s, .ok (.str tk str))
  | .custom f => f s

/-- A `Dire`: those of the package, and those of a host, whose `Execute` gives the engine
afterwards and whether there was no error. -/
inductive GDire where
  | std (d : Dire)
  | custom (run : Engine → Engine × Bool)

/-- A `DireFromSecLang`; that of a host has any token. -/
inductive DireType where
  | rule
  | ruleEng
  | reqBody
  | resBody
  | custom (tk : Int) (f : GDir → Option GDire)

/-- `Token` (seclang/sec_rule.go:20-22, rules.go:21-23, 46-48, 71-73). -/
def DireType.token : DireType → Int
  | .rule => tkDirRule
  | .ruleEng => tkDirRuleEng
  | .reqBody => tkDirReqBody
  | .resBody => tkDirResBody
  | .custom tk _ => tk

/-- `FromSecLang` (seclang/sec_rule.go:30-59, rules.go:25-34, 50-59, 75-84): the token has to
be the right one, and the type. -/
def DireType.fromSecLang (lib : Lib) (vo : VarOrd) (d : GDir) : DireType → Except LoadErr GDire
  | .rule => if d.token ≠ tkDirRule then .error .badArgument else match d with
    | .rule r => (loadRule lib vo r).map .std
    | _ => .error .badArgument
  | .ruleEng => if d.token ≠ tkDirRuleEng then .error .badArgument else match d with
    | .tri _ v => .ok (.std (.ruleEng v))
    | _ => .error .badArgument
  | .reqBody => if d.token ≠ tkDirReqBody then .error .badArgument else match d with
    | .bool _ v => .ok (.std (.reqBody v))
    | _ => .error .badArgument
  | .resBody => if d.token ≠ tkDirResBody then .error .badArgument else match d with
    | .bool _ v => .ok (.std (.resBody v))
    | _ => .error .badArgument
  | .custom _ f => match f d with
    | some x => .ok x
    | none => .error .badArgument

/-- `Directives`, `dirIndex` (seclang_token.go:204-206) and `direTypes` (rule_set.go:10): what
was put in last is found first. -/
structure Tables where
  dirs : List (Int × Factory) := []
  index : List (Bytes × Int) := []
  types : List (Int × DireType) := []

/-- seclang/parser/seclang_token.go:216-229 `RegisterDir`. -/
def Tables.registerDir (hi : Rune → Rune) (t : Tables) (tk : Int) (name : Bytes) (f : Factory) : Tables :=
  { t with dirs := (tk, f) :: t.dirs, index := (toLower hi name, tk) :: t.index }

/-- seclang/rule_set.go:12-19 `RegisterDire`. -/
def Tables.registerDire (t : Tables) (d : DireType) : Res Tables :=
  match t.types.lookup d.token with
  | some _ => .panic
  | none => .ok { t with types := (d.token, d) :: t.types }

/-- The tables after the `init` functions: seclang/parser/seclang.go:7-12,
seclang/sec_rule.go:10-12, seclang/rules.go:10-14. -/
def initTables (hi : Rune → Rune) : Res Tables :=
  let t := Tables.registerDir hi {} tkDirRule b!"SecRule" .rule
  let t := t.registerDir hi tkDirRuleEng b!"SecRuleEngine" (.tri tkDirRuleEng)
  let t := t.registerDir hi tkDirReqBody b!"SecRequestBodyAccess" (.bool tkDirReqBody)
  let t := t.registerDir hi tkDirResBody b!"SecResponseBodyAccess" (.bool tkDirResBody)
  (t.registerDire .reqBody).bind fun t => (t.registerDire .resBody).bind fun t =>
    (t.registerDire .ruleEng).bind fun t => t.registerDire .rule

/-- seclang/parser/seclang_token.go:208-214 `DirectiveFromString`, of a word in lower case. -/
def Tables.find (t : Tables) (word : Bytes) : Option Factory :=
  match t.index.lookup word with
  | none => none
  | some tk => t.dirs.lookup tk

/-- seclang/parser/scanner.go:161-168 `readDirective`. -/
def Tables.readDirective' (t : Tables) (hi : Rune → Rune) (s : Scan) : SR GDir :=
  match t.find (toLower hi s.readWord.2) with
  | none => .ok (s.readWord.1, .error .notDirective)
  | some f => f.read s.readWord.1

/-- The end in the middle of a directive (scanner.go:138-141). -/
def cutShort {α : Type} : Scan × Except PErr α → SR α
  | (s, .error .eos) => .ok (s, .error .unexpectedEOS)
  | x => .ok x

/-- seclang/parser/scanner.go:122-144 `ReadDirective`. -/
def Tables.readDirective (t : Tables) (hi : Rune → Rune) (s : Scan) : SR GDir :=
  match (skipLines s.inp s.line).1 with
  | [] => .ok ({ s with bos := false, inp := [], line := (skipLines s.inp s.line).2 }, .error .eos)
  | c :: r => (t.readDirective' hi { s with bos := false, inp := c :: r, line := (skipLines s.inp s.line).2 }).bind cutShort

/-- seclang/parser/scanner.go:146-159 `AllDirective`.  A directive of a host need not take
anything from the text. -/
def Tables.allDirective (t : Tables) (hi : Rune → Rune) : Nat → Scan → SR (List GDir)
  | 0, _ => .fuel
  | n + 1, s =>
    (t.readDirective hi s).bind fun
      | (s, .error .eos) => .ok (s, .ok [])
      | (s, .error e) => .ok (s, .error e)
      | (s, .ok d) => SR.andThen (t.allDirective hi n s) fun ds s => .ok (s, .ok (d :: ds))

/-- seclang/rule_set.go:21-27 `direFactory`. -/
def Tables.direFactory (t : Tables) (lib : Lib) (vo : VarOrd) (d : GDir) : Except LoadErr GDire :=
  match t.types.lookup d.token with
  | none => .error .notImplemented
  | some x => x.fromSecLang lib vo d

/-- `parent.rule.AppendSubRules(r)`. -/
def GDire.addSub (r : Rule) : GDire → GDire
  | .std d => .std (d.addSub r)
  | d => d

/-- seclang/rule_set.go:52-71: the loop of `AddSecLangString`. -/
def Tables.addDirs (t : Tables) (lib : Lib) (vo : VarOrd) : List GDir → List GDire → Option Nat → List GDire × Option LoadErr
  | [], set, _ => (set, none)
  | dir :: dirs, set, parent =>
    match t.direFactory lib vo dir with
    | .error e => (set, some e)
    | .ok (.std (.rule r chain)) =>
      match parent with
      | some i => t.addDirs lib vo dirs (set.modify i (GDire.addSub r)) (if chain then parent else none)
      | none => t.addDirs lib vo dirs (set ++ [.std (.rule r chain)]) (if chain then some set.length else none)
    | .ok d => t.addDirs lib vo dirs (set ++ [d]) parent

/-- seclang/rule_set.go:45-73 `AddSecLangString`. -/
def Tables.addSecLangString (t : Tables) (lib : Lib) (vo : VarOrd) (n : Nat) (set : List GDire) (text : Bytes) :
    Res (List GDire × Option LoadErr) :=
  (t.allDirective lib.lowerHi n (newScanner text)).bind fun
    | (_, .error e) => .ok (set, some (.parse e))
    | (_, .ok dirs) => .ok (t.addDirs lib vo dirs set none)

/-- `Dire.Execute`. -/
def GDire.execute (e : Engine) : GDire → Engine × Bool
  | .std d => (d.execute e, true)
  | .custom run => run e

/-- seclang/rule_set.go:75-82 `Execute`. -/
def executeAll : List GDire → Engine → Engine × Bool
  | [], e => (e, true)
  | d :: ds, e => if (d.execute e).2 then executeAll ds (d.execute e).1 else ((d.execute e).1, false)

end Verif
