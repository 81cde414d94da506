# Formal model of senghoo/ModSecurity-Go in Lean 4

## Layout

* `lean/Verif/Model/*.lean` - the model, function by function; each definition cites file and lines in /repo.
* `lean/Verif/Spec/*.lean` - small specifications that do not mention the model's helpers.
* `lean/Verif/Proofs/*.lean` - helper lemmas.
* `lean/Verif/Props/*.lean` - the property theorems (one file per area, names `Cnn_...`), each with an `example` showing
  that a concrete case meets its hypotheses.
* `lean/Verif/Conform/*.lean` - the repository's own unit tests, transcribed and run on the model. These are tests of the
  model, not proofs of properties; no theorem depends on them.
* `properties.jsonl`, `MANIFEST.json` - properties and their status; `seeded/LOG.jsonl` - wrong-program experiments.

A property that is false of the code keeps its full statement as a definition `Cnn_statement`, with `Cnn_refuted :
¬ Cnn_statement`, theorems named `..._partial` for what does hold, and theorems describing the actual behaviour. Its
status in the manifest is "partial".

## Trusted base

* Lean 4.33.0's kernel.
* The axioms `propext`, `Classical.choice`, `Quot.sound` at most. The appendix lists them per theorem, as printed by
  `#print axioms`. No own axioms, no `sorry`, no `native_decide`, no `bv_decide`. `decide +kernel` (evaluation by the
  kernel) is used for byte-level facts over all 256 bytes and for examples.
* That the model says what /repo does. Nothing in Lean checks this. It was reviewed against the source line by line,
  and the repository's unit tests were run on it (`Conform`).
* That the library functions re-implemented in the model (below) do what Go's library does.

## What is modelled

| /repo | model | properties |
|---|---|---|
| utils/urlencode.go | Model/UrlDecode | C01-C04 |
| utils/strings.go | Model/StringSlice | C63 |
| modsecurity/transforms/*.go | Model/Transforms, Model/Utf8 | C05-C09 |
| modsecurity/operators/*.go | Model/Compare, Model/Strconv | C10-C13, C49 |
| modsecurity/buffer.go | Model/Buffer | C14-C19, C80, C82, C89, C90, C97 |
| modsecurity/transaction.go | Model/Tx, Model/Transaction | C20-C39, C68, C70-C74, C81, C92 |
| modsecurity/buffer.go:11-22, 126-138, transaction.go:58-86 with nil arguments and a disk | Model/Disk | C118, C119 |
| modsecurity/transaction.go: interventions as pointers and slices | Model/Memory | C85, C86 |
| modsecurity/buffer.go: `memBuf` as a slice that `Bytes` hands out | Model/Shared | C135, C136 |
| modsecurity/sec_rule.go | Model/Rule, Model/Transaction, Model/Build (rules made in Go) | C21-C39, C74, C98, C99 |
| modsecurity/actions/*.go | Model/Rule | C25-C34, C70, C71 |
| modsecurity/engine.go | Model/Engine, Model/Host, Model/Site, Model/Plant | C35-C37, C58, C78-C81, C91, C95 |
| `Name`, `Args`, `Value` of transforms, operators, actions, variables | Model/Names | C93 |
| modsecurity/variables/*.go | Model/Filter, Model/Variables, Model/Ranges (orders) | C40-C49, C68, C69, C72, C73, C75-C77 |
| seclang/parser/*.go | Model/Scanner, Model/Parser, Model/Literal | C50-C55, C64-C66, C96, C100, C101 |
| transaction.go:95-263, sec_rule.go:130-170, while rules are added, default actions added or limits assigned | Model/During | C105-C107 |
| `RegisterDir`, `RegisterDire`, `init`, `DireSet.Execute` with directives of the host | Model/Registry | C102-C104 |
| seclang/*.go | Model/Seclang | C56-C62, C67, C83, C84, C87, C88, C91, C92, C94, C95 |
| `Write` (buffer.go), `Next`, `NextPhase`, `skip`, once more with numbers of 64 bits | Model/Machine | C131 |

Library code re-implemented, from its documentation and source as of Go 1.12 (the version in go.mod), hence trusted:

* `utf8.DecodeRune/EncodeRune`, `strings.Map/TrimSpace/Split/SplitN/IndexAny/ToLower` (ASCII), `strconv.ParseInt/Atoi/Itoa`,
  `bytes.Buffer/Reader`, `os.File` (content, offset, closed), `http.Header.Get`.
* `textproto.CanonicalMIMEHeaderKey` (Model/Header) - used by C73, C123-C125, C132-C134 only.
* `url.ParseQuery`, `url.QueryUnescape` (Model/Query) - used by C69, C108, C123 and C134 only.
* `url.URL.String`, `EscapedPath`, `ParseRequestURI` for targets beginning with '/' (Model/Url) - used by C75-C77 only.
* `mime.ParseMediaType` (Model/Media) - used by C108-C110, C123-C125, C132-C134 only; of the parameters only `boundary` is kept.
* `multipart.Reader.ReadForm` (Model/Form), as far as it gets with the bytes it has been given - used by C109, C123-C125, C132-C134 only, through the
  hypothesis `Lib.ReadsForms`. `readFormOn` answers `unknown` where the model stops: bytes that end within the header of a part, or
  within a file that does not fit in memory, what looks like a delimiter of more than 4096 bytes, fields with a Content-Type, quoted-printable parts, files that do not fit in memory, boundaries with a line end, memory limits near 2^63.

The last four are *values* for fields (the last, a condition on one) of the structure `Lib`; all other theorems hold for every `Lib`, that is they assume
nothing about: `regexp`, `url.ParseQuery`, `url.URL.String`, `mime.ParseMediaType`, `multipart.Reader.ReadForm`,
`unicode.ToLower` above ASCII, except where a hypothesis says so (e.g. `Lib.FormReturns`: ReadForm returns). What ReadForm
returns is a function of the bytes `Buffer.Read` reads from, the boundary and the size limit, as is the number of bytes it asks
`Read` for last; it is given nothing else of the transaction (modsecurity/variables/request_body_parser.go:37-48). C97 proves
that this is no restriction: for any program that asks `Read` for bytes until it stops (`ReadProg`), running it on the body
comes to the same.

## What is not modelled

* logrus output, `utils.Pprint`.
* Rule objects reached in another way than through the variable the host made them with: loaded rules changed by the host, entries of `RuleSet.Phases` assigned to, Go slices of variables or actions that two rules share (each `append` is taken to make a new slice).
* Accessors: `Transaction.CurrentPhaseRules`,
  `Token()` lookup tables other than through the functions that use them, `RegisterValue`, direct writes of a
  host to the exported maps `Directives` and `Values` (registrations through `RegisterDir` and `RegisterDire` are modelled).
* The file system: except in Model/Disk it is one private temporary file per body whose creation, copy and
  write can each fail, partially or wholly (`IOFault`), and a directory that can be made or not. Model/Disk (C118, C119) has a tree of
  directories with permissions and names that are refused; no links, no `.` and `..`, no other process, no full disk; the umask leaves
  the owner's bits; `os.Stat`, `os.MkdirAll` and `ioutil.TempFile` do what their documentation says.
* nil `*Transaction` receivers. Data races: except in Model/During API calls are atomic, interleaved at call granularity
  (Model/Host). Model/During (C105-C107) lets the rule set and the limits change between any two looks a call takes at the
  list of rules; a look (one slice header, one map entry) is indivisible, which Go does not promise without a lock, and
  so is each fetch of a variable and each action. Two
  goroutines on one transaction are not modelled.
* Aliasing of values handed to the API (header maps, URLs) is modelled in Model/Alias only, in which the host changes
  its objects between calls; everywhere else what is handed over is a value, which C111_hands_off_partial justifies for hosts
  that leave alone what they have handed over. Aliasing of the interventions handed out is
  modelled in Model/Memory: pointers, slices that start at the beginning of their array, `append` with any growth policy.
  Aliasing of the bytes that a body hands out with `Bytes` is modelled in Model/Shared (C135, C136); everywhere else no host assigns to them, which C136_reading_partial justifies.
  C85_history ties it to Model/Transaction for histories of calls; `Pause` and `Url` are never assigned by the code.
* Integer overflow: `int`, `int64` are unbounded integers, except in `strconv.ParseInt` whose range check is modelled, and
  in Model/Machine, a copy of the definitions that compute numbers (the length of a body, `Next`, `NextPhase`, `skip`) for
  numbers of 64 bits; C131 shows that it makes no difference until 2^63 bytes have been appended to one transaction.
  Computations inside Go's libraries, and on 32-bit machines, are not covered.
* Memory exhaustion, time.

## Modelling decisions

* Go `string`/`[]byte` = `List UInt8`.
* A Go panic is the value `Res.panic`; a computation that has not finished within its fuel is `Res.fuel`. "Terminates" is
  stated as "there is a fuel with which the result is not `fuel`", "diverges" as "every fuel gives `fuel`". More fuel never
  changes a result other than `fuel` (Proofs/Fuel).
* Go maps are association lists with unique keys. A `range` over a map applies an arbitrary permutation function taken from
  the environment (`Env.ord`, a function of the contents of the map); theorems hold for every such function. Go chooses
  anew each time: Model/Ranges has an order for each execution of each `range`, independent of all others, and an order for
  each loaded rule; C38_every_range, C38_loading and C94_any_orders show that nothing more can happen then.
* nil pointers/maps/interfaces that the code distinguishes are explicit (`Option`, `Parsed.form none`, ...).
* Host-written implementations of `Variable`, `Trans`, `Operator`, `Action` are pure functions (`custom` constructors):
  arbitrary, but without state of their own. Theorems that need them to behave state so (`KeepsBodies`, `ForwardAt`,
  `IgnoresNext`, ...); everything loaded from a text has none.
* A transaction is driven by a list of `Op` (every exported call). Theorems about histories quantify over all such lists,
  also orders no sane host would use.
* A host program (C37, C78-C82) is a list of `HostOp`: any number of transactions on one engine, calls on them interleaved
  with changes of the engine. Rule sets live in a heap because the code shares them by pointer.
* `Tx.steps` also returns the trace of evaluated rules. It is a ghost: no definition reads it.

## Specifications

* C01: `Encodes`, an inductive relation between a string and its percent encodings.
* C21-C34: a structural walk over the rule list (`Spec/Rules`), with which the cursor loop is proved to agree.
* C40-C43: `Spec/Selectors`, sets of keys selected by inclusion/exclusion lists.
* C105-C107: changes as a list, the moment as a number of changes made (`Spec/During`); a call is compared with `Tx.step`
  at one moment. C107 gives the program for one goroutine as a list of `HostOp`.
* C102-C104: registrations as data (`Spec/Registry`): a word reaches the factory registered last for the token registered
  last for the word. Factories, `FromSecLang` and `Execute` of a host are arbitrary functions (of the scanner, of the
  directive, of the engine); a host's factory that does not return is outside.
* C100: sources of bytes (`Spec/Source`). Model/Literal transcribes the scanner character by character on any source, errors
  included; Proofs/Literal shows that every method does on it what Model/Scanner and Model/Parser say of a text, so that the
  latter, in which the calls of `advance` are folded into the loops, are not trusted.
* C50-C55, C62: a printer from syntax trees to text (`Spec/Print`) and a grammar (`Spec/Syntax`) independent of the scanner.
* C56-C61: `Spec/Loader`, what a parsed directive means.
* C62: composition of parser, loader, engine and operator theorems, from rule text to verdict; `Spec/Text` is the reading of
  a rule line.
* C64-C66: `Spec/Text` again: what a rule author types versus what arrives.
* C68, C83: `Spec.Facts`, what the host said last, computed from the calls alone.
* C83: `Spec.chainsOf` (a text as a list of chains), `Spec.Tested`/`Spec.Holds` (the condition of a written rule on those
  facts), `Spec.Processed` (when a phase is evaluated, read off the calls). No definition of the model occurs in them except
  the transformations.
* C84: `Spec.Known`/`Spec.learn` (what was said and which body bytes were accepted), `Spec.PostArgs`, `Spec.BodyShown`,
  `Spec.ListsAll` (what each body variable shows), `Spec.FormSettled` (when a form is complete before it is read).
* C87, C88: `Spec.Mach` and `Spec.run`, a reference machine: a pass over the chains of the text per phase, with the effect of
  each action written down once. What a rule sees is a parameter (`Spec.Sight`): the facts of C83 or those of C84. C83 and C84
  are corollaries.
* C92: `Spec.Walks`, the walk over a phase as a relation (it need not end); `Spec.runOr` is the machine of C87 with it. On texts
  as in C87 the two machines are the same (`runOr_run`).
* C91: `Spec.Site`: rule sets as lists of chains, transactions as machines of C92; `Spec.reading` is the grammar of C53 with the
  validity conditions of C59; `Spec.Fate` says whether a step returns.
* C94: `Spec.Held` (what was said and accepted, what the body is stored in and what is there, whether the form was read, and
  whether it was understood), `Spec.accept` (what becomes of a chunk, disk faults included), `Spec.askForm`/`Spec.ask`
  (what each variable shows, and what asking for it changes), `Spec.evalLinks` on the walk of `Props/Walk`. Unlike C88 asking
  for a variable may change what later rules see, so conditions are evaluated in order, on the state left by the one before.
  The machine returns, panics or does not end (`Spec.Ending`), and so does the loaded text: there is no condition on the calls.
* C95: `Spec.Park`: engines, directive sets as what is written in them, rule sets as lists of chains, transactions as machines of
  C94; `Spec.reads` (the valid part of a text), `Spec.configured` (last directive wins), `Spec.Fatal` (the chunk that panics).
  Nothing is assumed of the host's program; `Spec.Lands` says that a computation with fuel comes out as the reference says.
  Rule sets and limits are pointers: engines may share them, and what is written through one is seen through the other. Nil
  pointers stored in engines or transactions are not covered. Calls on the bodies (`Spec.useReq`, `Spec.useResp`), assignments (`Spec.edited`) and returned values (`Spec.replied`) are specified there
  too; the number `Next` returns is not, nor a `Data["status"]` that is not an `int` (nothing in the code stores one).
  Variables and rules made in Go are objects (Model/Build `Shop`, Props/Stock `Spec.Stock`), read at every call; a rule set
  keeps the phase a rule had when it was added (`Spec.Stand`).
* C98: `Spec.Kit`, chains of stock parts and default actions. C99: relations between two runs (`LikeRules`, `Moved`), no spec.
* C93: `Spec.Named`, `Spec.Valued`: the written rule beside the loaded one, with the names of the printer (`Spec/Print`).
* C89: `Spec.SeekTo`. C90: the state of the file (none, open, closed).
* C72, C80: `Spec.requestChunks/responseChunks`, the accepted chunks, computed from calls and returned values.
* C97: `Spec/Stream`: a program that reads (`ReadProg`), a run of it (`Plays`) on bytes in order, on the same beginning again
  and again, and on a body with `Read`. `Lib.Runs`: ReadForm is some such program, `AsksAtMost N` (4096 in Go: the size of
  the buffer of `mime/multipart`; the theorems hold for every `N`). `CloseFor`: bodies of one length with the same first `N` bytes.
* C109: `Spec.BoundaryOf`, `Spec.Pieced`: the boundary that parameters give by RFC 2231 (pieces, character sets), by relations.
* C108-C110: `Spec/Media`: the grammar of a Content-Type (RFC 2045) as inductive relations between text, name and value;
  `NamesType`, `Params`, `Distinct`, `Repeats`.
* C112: `Spec.Adds`, a list of chains with more chains anywhere; `Spec.Strict`, `Spec.Calm`: what their actions may be; `Spec.RefusesAsSoon`: the first refusal comes no later.
* C113: `Spec.Recut`, two histories with the same bodies cut differently; `Spec.replies`, `Spec.ending`: what the other calls answer.
* C114: `Spec.SeesSame`, a table of what each variable reads of what the host has told; `Spec.Kin`, `Spec.Retold`: two histories whose difference no variable of the rules sees.
* C115, C116: `Spec.SameRules`, `Spec.Splits`: two texts related by reordering and repeating chains, or by dividing the variables of rules; `Spec.NoneShared`, `Spec.Divides`: how they may be divided; `Spec.RefuseAlike`.
* C137: `Spec.Excludes`, `Spec.Exempts`: exclusions put into a list of variables, anywhere or of variables that are listed; `Spec.Varies`: two rules that differ in their variables.
* C138: `Spec.negated`: the rule with `!` put in or taken away; `Spec.Compared`, `Spec.Meets`: the values a rule compares, and those of them its operator accepts; `Spec.Divided`: what the two verdicts are; `Spec.BothSay`.
* C139: `Spec.Tighter`, `Spec.AsksMore`, `Spec.Narrower`: rules with harder tests, chains that ask more, lists of chains all of whose refusals are refusals of the other.
* C140: `Spec.Gentle`, `Spec.Excusing`: actions that neither deny nor skip, and those of them that allow everything if they allow; `Spec.AddsOnly`: chains added anywhere with such actions.
* C141: `Spec.SaysDeny`, `Spec.NamesStatus`, `Spec.OwnStatus`, `Spec.RefusesWith`: what a rule of a text says of denying and of statuses, read off its written actions; `Spec.hostCodes`: the statuses with which the host aborts.
* C142: `Spec.Covers` (each name with all its values), `Spec.Padded` (the second call says what the first says, and possibly more), `Spec.apart` (the variables that show each header, cookie or argument by itself), `Spec.SameType`; stated of the two histories of calls, not of the model's state.
* C143: `Spec.MadeOf` (the chains of the whole are those of the parts, in any order and any number), `Spec.Triples`, `Spec.EitherRefuses`: on the verdicts shown for three texts.
* C144: `Spec.OneOf` (same variables, phase and actions; a value passes the one test exactly if it passes one of the two), `Spec.Unfolds` (chains replaced by two), `Spec.Halves` (the comparisons), on `Passes` of C120 and `RefuseAlike` of C115.
* C145: `Spec.ofRequest`, `Spec.tellsRequest` (variables and calls about the request), `Spec.StandsFrom` (both phases processed, nothing told of the request between), `Spec.Rephased` (the chains are the same but for such moves), on the verdict shown at the end (`Spec.EndsAlike`).
* C146: `Spec.Mixed` (maps with the same names and the same values of each, in any order), `Spec.Reordered` (calls that differ in order only), `Spec.Unordered` (no rule looks at the query as a whole or at a first response header); for fields of forms `Spec.SameCalls` and `Spec.UrlSent` of C134, and `Spec.FormSent` of C133. The verdicts shown are equal.
* C147: `Spec.Unsent` (in no call is anything sent that a variable shows of the names selected; `Spec.FieldSent`: the names of the fields of the form, for a multipart form those of its parts), `Spec.Misses` (each chain has a rule that counts nothing and of what it looks at nothing is sent). The verdicts shown are equal to those under a text without rules (`Spec.ShowsAlike`).
* C148: `Spec.CountsAny` (one variable with a test that every value passes, on `Passes` of C120; the other rule counts it and its test refuses the count 0 only), `Spec.CountsDir`. The conclusion is that of C120: equal executions. The counting rule is written with a pattern for `0` (`Spec.counting`): in the model lists are unbounded, and a count of 2^63 or more compares as 0, so `@gt 0` would not do for those.
* C149: `Spec.Superfluous` (does not deny, has a test no value passes, or is covered by a chain that stays, with `Spec.AsksMore` of C139), `Spec.Pruned` (chains left out are superfluous next to those that stay), on `RefuseAlike` of C115.
* C117: `Spec.Closed`: the last rule of a text has no `chain`.
* C120: `Spec.SameSet` (rules built in Go), `Spec.Reworded` (written rules): the same but for the test, which passes the same values.
* C38: `Spec.Jumbled`: two loaded rules that differ in the order of their variables.
* C121: `Spec.Shuffled`: the tests of a chain permuted.
* C122: `Spec.SeesLike`, the table of C114 with values seen through a function; `Spec.Veiled`, the histories; `Spec.Undone`, what each transformation is for, in terms of bytes; `Spec.Dissolved`, along a list of transformations.
* C123: `Spec/Form`: the grammar of a multipart form (RFC 7578, RFC 2046 5.1) as inductive relations between text, header lines, names and contents (header lines may be continued: `Spec.Continued`, `Spec.spaced`); `Spec.NotEnded`, what may stand in a part (a delimiter may begin in it if it goes on as none does); `Spec.BoundaryIs`, what a Content-Type says; `Spec.Shown` as in C69. `Lib.ReadsForms` is satisfied by `Sample.formLib`.
* C124, C125: `Spec.EndsWithin`, text that ends in the middle of the content of a part; `Spec.NoneBegun`: no delimiter in it (lines that only look like one are allowed), not even the beginning of one at the end. `Spec.BringsNothing`: no value is read in a further round. `Spec.LooksAtFields`, a list of variables.
* C126, C127: `Spec/Logs`: `linesOf`, `allLines`, how many lines actions and rules have; `Spec.LibraryMessage`, the four messages of the library; `Spec.LineBy`, the form of a line; `Spec.handedOut`, what `Result` returned. `Spec.logsIn` counts `deny` and `log` in a text. `RuleSet.OfLibrary` is satisfied by every loaded text (`loaded_ofLibrary`) and kept by `AddRules`.
* C128, C129: `Spec/Growth`: `Trans.Library`, `Var.Library`, everything but implementations of the host's; `LowerShort`, what is assumed of Go's lower case; `Spec.atMost`, a table of what each variable may show of what was told; `Spec.Judged`, `Spec.JudgedIn`, the states in which rules, also those of chains, are evaluated during a call (`C129_covers`: every entry of the trace has one); `Spec.sentBytes`. `Lib.Frugal` assumes that queries, media types and URLs are those of the models of Go's packages and that no form is larger than `form`: for multipart forms this is a hypothesis, since the reads of a body restart (C19) and names of fields are not counted by Go's limit.
* C130: `Spec.documentedMemory`, `Spec.documentedRequest`, `Spec.documentedResponse`, from the comments in engine.go:30-32.
* C131: `Spec/Machine`: `Int64Range`, `ArgsFit` (numbers passed to calls), `bytesOf`, `totalBytes`, `LimitsFit`, `Proper` (actions of the host that leave bodies alone and positions in range), `RulesFit`. That the copy for 64 bits is a copy is checked by C131 itself.
* C132: `Spec.PartNamed`, `Spec.NamedParts`, `Spec.NamedForm` (forms in which every part has a name, with the name of its file), `Spec.contentBytes`, `Spec.EndedForm`, in Props/Files, on the grammar of `Spec/Form`.
* C133: `Spec.SentArgs`, `Spec.ListsForm`, `Spec.HoldsForm`: as `PostArgs`, `ListsAll`, `HoldsAll` of C84 with the fields of a form as arguments; `Spec.FormSent`: the calls send such a form; `Spec.formSight`: what the reference machine of C87 sees. `Spec.ReadsSentForm` puts the conditions together, for the versions of C92, C112, C115, C116 and C121 with multipart forms.
* C134: `Spec.SameCalls`: two lists of calls that differ only in request headers and chunks of the request body; `Spec.pastEncoding`, a list of variables; `Spec.UrlSent`: the calls send an urlencoded form.
* C135, C136: `Spec.callsOf`, `Spec.OnlyCalls`, `Spec.answers` (a buffer that shares nothing), `Spec.SameFrom`, `Spec.AlikeFrom`, `Spec.AllAlike`, in Props/Shared.
* C118, C119: `Spec/Disk`: `Tree`, `There`, `Makeable`, `Usable`, `filled`: directories by what is at each path, without looking anything up name by name.
* C111: `Spec.copied`, the program that hands over copies, and `Spec.valueSteps`, calls with values. `Spec.HandsOff`.
* C96: line breaks are counted in the text itself (`List.count 10`, `looseBreaks`).

## Plan per property

(C01-C09) total functions on byte lists; proofs by (functional) induction on the list; byte-level facts by kernel
evaluation over all 256 bytes, lifted to all bytes. C05's second half is false.

(C10-C13) decimal printing/parsing with int64 range; round-trip by strong induction on digits.

(C14-C20) step function over write/read/seek/close with I/O faults; invariants by induction over operation lists.
C15 (when creating the file fails), C17, C18, C19 are false of the code.

(C21-C39) executable interpreter with fuel; the phase loop is proved equivalent to the structural walk; sequences of API
calls by induction, with a common invariant rule (`TxInv`, Proofs/PhaseRun). C23 (second half), C30-C33 are false.

(C40-C49) functions from transaction to (transaction, values). C40, C46, C47 false in part.

(C50-C55) the scanner as functions on (current rune, remaining input); round-trips against the printer. C51 is false:
divergence proved, and it is proved to be the only cause.

(C56-C61) the loader. C59, C60 false in part. (C62) composition.

(C63) permutation, by induction. (C64-C67) consequences of the parser theorems about what authors write; false in part.

(C68) invariant along histories. (C69, C75-C77) net/url modelled, see above. (C70-C72) histories. (C73) header names: `Spec.Canonical` fixes the canonical form, `Spec.FieldChar` the bytes RFC 7230 allows in a name.
(C74) two rule sets, one history: simulation up to the cursor.

(C78-C82) host programs: projection of an interleaved run to one transaction (`host_view`), then the theorems about single
transactions, with limits and rules that may change at every call.

(C83, C84, C87, C88) the loaded rule set carries the chains of the text (`Carried`); the phase loop walks them as the machine
does (`walk_loop`); a step of a transaction is a step of the machine (`step_machine`); induction over the calls. (C85, C86)
separation of the arrays of returned logs. (C89, C90) as C14-C19. (C91) simulation of the host's world by
the site (`Mirrors`), step by step. (C92) a walk that ends evaluates no chain twice, because what a chain does depends only
on what does not change within a phase (`Path.nodup`); the loop follows the walk turn by turn (`turn_loop`), and more fuel
never changes a result (`Res.Sooner`). (C94) the same walk for any evaluation of chains (`Props/Walk`: `steps_by`),
by induction on the walk in one direction and on the fuel in the other; C94 says that enough fuel exists, not how much. (C95) simulation step by step (`Keeps`), each step composed with `Lands.bind`. (C93) from what the loader makes of a text (C57).

(C108-C110) the parser of the library reads exactly the grammar (`consume_iff`), its loop ends as the text does
(`paramLoop_sound`, `paramLoop_params`); that nothing depends on the body by the simulation of Proofs/Flow.

(C111) by induction on the program: as C68 says what a call leaves of what was told, reading through the references gives
the same as the fields (`through_after`) until an object is changed.

(C112) the machines of C87 for the two texts side by side (`Beside` while both are in the phase, `Behind` once one has left by
`allow`), through the added chains one at a time (`Marching`).

(C113) chunks that fit leave exactly the same transaction; a body that overflows memory leaves files with the same first bytes
(`Buf.Grown`, `Recast`), which by the simulation of Proofs/Flow nothing tells apart.

(C114, C122) a second simulation (Proofs/Guise) of transactions that differ in what they were told, with values equal, after the transformations, up to order.

(C105-C107) what a rule does depends on the rules only through where the cursor ends up (`Aim`); the loop that sees the list
grow does what the loop on the list at its last look does, except when the phase was empty at its beginning
(`loop_one_moment`); C107 by merging the calls of all transactions by their moments (`inSequence`).

## Where the code departs from what its users would expect

Refuted statements, with the witness in the theorem named `Cnn_refuted`:

* C05 Full-width %uFFxx escapes become their ASCII twins: Full-width forms %uFF01..%uFF5E become their ASCII twins in every context: proved. The other %uFFxx codes should give their own character but the code adds 0x20 to the low byte for all of them (%uFF61 becomes U+0081, %uFF00 a space): refuted. C05_all_codes: what the code gives for every %uFFxx.
* C15 A body never holds more than the memory limit in memory: Write never panics: proved. The memory bound holds for every history in which creating the temporary file never fails; it is refuted otherwise.
* C17 A spilled body is exactly what was appended: A spilled body is not the concatenation of the writes unless the writes line up with the memory limit; refuted in general, exact content of the file proved. C17_exact: writes read back as their concatenation iff they fit in memory or some of the first ones fill it exactly.
* C18 Writing after reading is refused: Refuted: writing after reading a spilled body overwrites its beginning. The exact behaviour is proved.
* C19 Successive reads advance through the body and end with EOF: Each Read restarts at the beginning of the body, so sequential reads do not cover it; refuted, first read proved.
* C21 Each phase is processed at most once and phases only move forward: Proved under the condition in the statement (RuleSet.Forward); a theorem shows the condition is needed.
* C23 A disruptive verdict stops the phase: Within a phase: proved. Across phases the verdict can be erased; refuted, and proved for rule sets whose actions keep a verdict. Also proved for every rule set loaded from a text.
* C30 Processing a phase terminates: Termination proved for rule sets with forward jumps and no block among default actions, if the library's form reader returns or no rule looks at the fields of a body (when it does not return, see C124; C124_calls_return is the same for the forms that can be read); three families of divergent rule sets proved to diverge for every amount of fuel.
* C31 allow skips to the logging phase, whose rules still run: The rest of the current and every later phase is skipped - including the logging phase, contrary to the claim.
* C32 allow:phase skips only the rest of the current phase: The rest of the phase is skipped, but so is the whole next phase, contrary to the claim.
* C33 SecRuleEngine Off and DetectionOnly prevent disruption: Refuted (both halves): the mode flags are never consulted. Proved instead: every mode gives the same transactions, results and evaluations.
* C40 Selectors choose the documented names: Proved for selector lists whose inclusions are all literal or all regular expressions; refuted when both kinds are included (the code requires both), and the exact selection is proved for every list.
* C41 Names, values and counts of a collection agree: Map level (names once, values of those names, counts): proved. Variable level: proved for every collection variable, for request headers once a URL is known; refuted for REQUEST_HEADERS_NAMES before ProcessRequestURL, which is empty while REQUEST_HEADERS is not.
* C46 Body arguments do not depend on how often they were read: Refuted by a malformed urlencoded body, which is shown to be the only cause; staleness after further chunks is proved as well.
* C47 No request can crash rule evaluation: The exact condition of the panic is proved; refuted by a malformed multipart request. No call sequence panics when the form reader never fails, or when no rule reads body argument names.
* C51 Parsing terminates: Refuted by a CRLF line continuation between tokens. Proved: the texts on which the parser does not return are exactly those of Spec.Hangs (a backslash not followed by a line feed where a token should begin); every text whose backslashes are all followed by a line feed terminates.
* C59 Loading a text is all or nothing: A text with a syntax error leaves the set as it was: proved. Refuted for semantic errors (unknown action, malformed operator argument, ...): the directives before the bad one stay in the set. Exactly which texts load, and what a failing one leaves behind, is proved.
* C60 A SecLang phase number selects the documented processing phase: Refuted: each SecLang phase n is run by the call documented for phase n-1 (phase:1 at the connection). Proved: a loaded rule is evaluated by exactly one kind of call, one step earlier than documented, and none at logging.
* C64 A quoted @rx pattern reaches the regex compiler as written: Refuted by \d. Proved: the typed pattern is the compiled one iff it has no backslash; every pattern gets through if its special bytes are escaped.
* C65 Quoted action arguments are atomic: Refuted: a comma in a quoted message ends it and can inject further actions (C65_injected). Proved for messages without comma; no accepted text has a rule with a comma in an action argument.
* C66 A selector belongs to its variable: Refuted by ARGS:/a|b/. Proved for selectors without ',' and '|'; no accepted text has a selector with one.
* C67 Every loaded rule is in force: Refuted by a rule without phase action. Proved: a loaded rule is in force iff its phase is given.
* C69 Every query argument is inspected: Exact description of which pieces are inspected; complete for well-formed queries; refuted for malformed percent escapes (a=evil%). net/url.ParseQuery is modelled in Model/Query.lean as a value of Lib.parseQuery.
* C70 No log line is lost: Refuted by the pass action; proved for rule sets without pass and for everything loaded from text.
* C71 The deny log line names the returned status: Refuted: the line always says 403; holds exactly when the status is 403.
* C72 The inspected body is a prefix of the body sent: Refuted when a chunk is accepted after a refused one; proved otherwise (prefix), always a subsequence, whole within the limit.
* C73 Header selectors ignore case: Refuted; exact behaviour proved: canonical selectors see the header whatever the client's case, other spellings are dead; reading a request joins lines whose names differ in case only under one name, and names with a byte not allowed in RFC 7230 are kept as they are (C73_lines, C73_odd_names).
* C75 REQUEST_URI is the request target as sent: Refuted for path bytes outside RFC 3986; exact for all other targets, and for every target the path is re-encoded from the same bytes. Uses the model of net/url in Model/Url.lean.
* C76 REQUEST_URI tells URLs apart: Refuted for relative paths with a colon in the first segment; proved for rooted paths. C76_any_path: for any paths the only confusion is the ./ put before a path with a colon in its first segment.
* C77 t:urlDecode undoes the encoding of REQUEST_URI: Refuted for paths with '+'; proved otherwise. C77_exact: for rooted paths it holds iff there is no '+' in the path as written.
* C79 Registering rules does not disturb running transactions: Refuted: a rule registered for a later phase acts on transactions under way (C79_refuted). Proved: rules for phases already begun change nothing, rules for later phases act as if registered from the start.
* C82 Temporary files are released: Refuted: an open temporary file stays open through every call (C82_leak). Proved: no file within the in-memory limit, never one for the response body.
* C86 What a host does to a returned verdict stays with the host: Refuted: after an abort Result returns a record whose log slice is the transaction's own (C86_refuted, C86_overwritten). Proved for arbitrary host changes to records returned before an abort and for field assignments to any returned record, in any interleaving.
* C89 Seeking in a body: Refuted in full: a Read after a Seek returns the beginning of the body (C89_refuted, C89_read_ignores). Proved: the position Seek answers with, its errors, and that it leaves the body as it is; a write to a spilled body goes to the position sought.
* C90 Closing a body: Refuted in full: Close of a body in memory panics (C90_refuted). Proved: exactly when Close panics, succeeds or fails, and that a closed body stays closed and empty through every further call.
* C93 A loaded rule says what was written: Refuted for action arguments: the argument of skip is dropped (C93_refuted). Proved: names of all parts and operator arguments; C93_values says what Value gives for each action.
* C96 The line number tells the line: Refuted: C96_drift, C96_refuted (a newline ending an unquoted argument is not counted). Proved: the number is never ahead of the line; every newline after a blank, CR or newline is counted in texts without backslashes; exact for CR LF files without backslashes.
* C97 A multipart body is read from beginning to end: Refuted: C97_refuted (a program that reads to the end of the file never stops on a body). Proved: what a program makes of a body is what it makes of the beginning of its bytes, given anew at each Read (C97_beginning_again); the full claim for programs that need only their first reply; that the parser runs the program on the body; that nothing depends on the bytes after the first N.
* C100 Text that cannot be read to its end is refused: Refuted: C100_refuted (a reader that fails after a whole directive: the directives before the failure are returned without an error). Proved: what is accepted is exactly what the bytes before the failure mean as a rule text, so a failure inside a directive is reported (C100_accepts_partial); agreement of all sequences of calls with the scanner on the string (C100_calls); the end is final as long as the reader gives no more bytes (C100_end_is_final). C100_reads_on: a reader that recovers is read on.
* C101 StartsWith only looks: Refuted: C101_refuted (SecRuleEngine On is no directive any more after StartsWith("SecRuleEngines") answered false). Proved: exactly what is taken (C101_takes); for arguments of ASCII letters a ReadWord that follows gives the same word and leaves the same state (C101_before_word_partial).
* C102 New directives leave old texts alone: Refuted: C102_refuted (a new name registered with the token of SecRuleEngine replaces the reader of SecRuleEngine). Proved: the claim if the token is new as well (C102_new_token_partial); what reads a word after any registrations (C102_reaches); that without registrations all is as in Model/Seclang (C102_package); RegisterDire (C102_register_dire); string directives from text to FromSecLang (C102_string_directive).
* C103 Execute is all or nothing: Refuted: C103_refuted (SecRuleEngine On before a directive of the host that fails stays in force). Proved: exactly which directives have been executed when there is an error (C103_stops_at_error); directives of the package never fail (C103_package_partial).
* C104 A registered directive can be used: Refuted: C104_refuted (SecRule2). Proved: usable exactly if the name is, up to case, one of letters only (C104_exact, C104_letters_partial).
* C106 A call sees one moment of the whole engine: Refuted: C106_refuted (default actions added between two rules with block: one line is logged, before the addition none, after it two); the same with limits (C106_limits). Proved: the claim if no rule has block or no default action is added, and no rule reads a body or the limits stay (C106_unseen_partial).
* C108 A body declared as a form is inspected: Refuted: C108_refuted ('; a=1; A="2"' after the type). Proved with mime.ParseMediaType modelled: exactly when the body is shown (C108_exactly), what is shown otherwise (C108_evaded), and that then no output of any call depends on the body (C108_verdict_blind, C108_loaded_blind).
* C109 The boundary in the content type is the one used: Refuted: C109_refuted ('; Boundary=foo; x'). Proved: the claim if only white space or a semicolon follows the parameters (C109_boundary_partial), and that otherwise the boundary is empty (C109_malformed), so that nothing of the body is read or shown (C109_malformed_nothing). Boundaries in pieces or with a character set (RFC 2231) are those the pieces give (C109_pieces), except before a final semicolon, where they are not looked at (C109_semicolon).
* C110 RESPONSE_CONTENT_TYPE is the media type: Refuted: C110_refuted (';a=1;a=1'). Proved: the claim without a repeated parameter, the empty value with one (C110_shown_partial), and for headers that name no media type (C110_nameless).
* C111 What is handed over has been handed over: Refuted: C111_refuted (Content-Type deleted between headers and body). Proved: the claim, and the same end state, for hosts that change no object after handing it over, though they may share it between transactions (C111_hands_off_partial); a change of an object is like the corresponding call with the new content, which evaluates nothing (C111_retold_headers, C111_retold_response, C111_retold_url); transactions that do not refer to it are not touched (C111_others).
* C112 More rules never let more through: Refuted: C112_refuted (a log rule inserted after a skipping rule pushes the deny into what is skipped); without skip, C112_forms (a malformed form read first by an added rule) and C112_allow_phase (a host that goes on after a refusal, and a rule that allows a phase). Proved: the claim verdict by verdict for texts whose old rules do not skip and only allow everything, that read no body (C112_more_rules_partial), or bodies of up to 131072 bytes and settled well-formed urlencoded forms (C112_bodies_partial); and, whatever the old rules allow, that the first refusal comes no later, if the host resets no verdict it has not looked at (C112_first_refusal_partial, C112_first_refusal_bodies_partial; C112_reset_unseen shows that this is needed). The same with complete multipart forms of up to 4096 bytes, as in C133 (C112_multipart_partial, C112_first_refusal_multipart_partial). Missing: larger bodies.
* C113 Chunk boundaries make no difference: Refuted: C113_refuted (beyond the limit of the body), C113_small_memory (within the limit, with less memory than ReadForm asks for). Proved: the claim for bodies within memory, for all rule sets whose actions leave the bodies alone (C113_chunks_partial); for bodies moved to temporary files, within the limit, and stock rules (C113_spilled_partial), in particular those loaded from text (C113_loaded_partial). Missing: failing temporary files.
* C115 Order and repetition of rules do not matter: Refuted: C115_refuted (a malformed form, read by two rules). Proved: the claim, and that both texts load and run, for texts that read no body (C115_order_partial), and with bodies of up to 131072 bytes and settled well-formed urlencoded forms (C115_bodies_partial). The same with complete multipart forms of up to 4096 bytes, as in C133 (C115_multipart_partial). Missing: larger bodies.
* C116 A rule over several variables is several rules: Refuted: C116_refuted (an exclusion separated from what it excludes from). Proved: the claim if any variable the two parts share is not counted and picked from by name only, or by pattern only, in both, as in ARGS:a|ARGS:b (C116_names_partial, C116_names_bodies_partial, C116_names_multipart_partial; C116_needed shows that each of these conditions is needed), in particular if they share no variable, for texts that read no body (C116_split_partial), and with bodies of up to 131072 bytes and settled well-formed urlencoded forms (C116_bodies_partial). The same with complete multipart forms of up to 4096 bytes, as in C133 (C116_multipart_partial). Missing: larger bodies.
* C117 Two texts are like one: Refuted: C117_refuted (an open chain), C117_return (a backslash and a carriage return at the end). Proved: the claim for every other first text (C117_one_text_partial); exactly when it holds, if the first does not end in a backslash and a carriage return (C117_exact).
* C118 A transaction that could be made keeps its bodies: Refuted: C118_refuted (a file at TmpPath). Proved: the claim if the directory was not there, or files can be made in it (C118_kept_partial); when a transaction is made (C118_created, C118_nil), which bodies it keeps (C118_exact), that response bodies are always kept (C118_response), that making another changes nothing (C118_again).
* C119 A failed NewTransaction leaves nothing behind: Refuted: C119_refuted (a name that is too long). Proved: the claim if no name is refused (C119_unchanged_partial); exactly when it fails (C119_exact).
* C121 A chain may ask its questions in any order: Refuted: C121_refuted (a malformed form). Proved: the claim, and that both texts load and run, for texts that read no body (C121_tests_partial), and with bodies of up to 131072 bytes and settled well-formed urlencoded forms (C121_bodies_partial). The same with complete multipart forms of up to 4096 bytes, as in C133 (C121_multipart_partial). Missing: larger bodies.
* C123 The fields of a multipart form are shown: Refuted: C123_refuted. Proved: the claim for forms whose last line is ended, with any epilogue (C123_fields_partial), the agreement with the other encoding (C123_as_urlencoded), and what happens otherwise (C123_cut): no rule, loaded from whatever text, can then tell what the fields were (C123_cut_unseen, C123_loaded_blind). Left open: fields with a Content-Type, parts in quoted-printable encoding, files that do not fit in memory, forms whose last delimiter is not within the first 4096 bytes (of these C97 says that they are not read to the end, C124 and C125 what happens instead).
* C124 Looking at the fields of a request returns: Refuted: C124_refuted. Proved: for which forms it does not return (C124_hangs), whatever the fuel, and what this means for ProcessRequestBody (C124_call_hangs); that it returns otherwise, as far as listed (C124_returns_partial), and so do the calls (C124_calls_return). Left open: forms of more than 4096 bytes of which these end within a header, a delimiter, a file, or a part in quoted-printable encoding.
* C125 A form within the limits is not refused: Refuted: C125_refuted. Proved: which forms are refused (C125_refused), and that ProcessRequestBody refuses them (C125_call_refused); that forms which end within 4096 bytes are not (C125_in_time_partial). Left open: as for C124.
* C130 The default limits are those documented: Refuted: C130_refuted (half a megabyte of response is refused), C130_refused (so is more than 128 MB of request). Proved: exactly which chunks are accepted (C130_exact), that nothing beyond the documented limits is (C130_partial), and that the limit for inspection is the documented one (C130_memory).
* C132 What is sent as a file is inspected: Refuted: C132_refuted (a file named x). Proved: of the named parts exactly those without a file name are shown (C132_fields_partial); under rules of the library's parts no later output depends on anything but the fields (C132_files_unseen, C132_loaded_blind). Parts with a Content-Type or a transfer encoding, and forms larger than the reader's buffer, are not described by the model of ReadForm.
* C136 What a host does with returned bytes stays with the host: False of the code: Bytes returns the slice of the buffer itself, and C136_refuted overwrites a body through it. Proved: hosts that do not assign (C136_reading_partial); what an assignment can change at most (C136_beyond); slices the body has outgrown (C136_outgrown).
* C137 Exclusions only let more through: Refuted: C137_refuted (a rule on the method, with an exclusion of a header, refuses for another header); C137_counted shows the same of a variable that is only counted. Proved: the claim, and that both texts load and run, if only variables listed and not counted have exclusions, for texts that read no body (C137_exempt_partial), with bodies of up to 131072 bytes and settled well-formed urlencoded forms (C137_bodies_partial), and with complete multipart forms as in C133 (C137_multipart_partial). Missing: larger bodies, malformed forms.
* C138 Of a rule and its negation one refuses: Refuted: C138_refuted (no header at all: neither refuses). Proved: exactly when at least one and when both refuse, for rules that read no body (C138_exact), bodies of up to 131072 bytes (C138_exact_bodies) and multipart forms as in C133 (C138_exact_multipart); so the claim if there is exactly one value to compare (C138_one_value_partial). Missing: nothing of the exact description but larger bodies and malformed forms.
* C139 A text that asks more refuses no more: Refuted for malformed forms (C139_refuted: ARGS_POST against 1, and the same after a count of ARGS_POST). Proved: for rules that read no body (C139_narrower_partial), bodies of up to 131072 bytes with settled forms (C139_bodies_partial), multipart forms as in C133 (C139_multipart_partial); C139_threshold gives the comparisons that are stricter than others. Missing: larger bodies, malformed forms.
* C140 Exceptions refuse no more: Refuted: C140_refuted (deny in phase 2, allow in phase 3, deny in phase 4; a host that goes on; a rule that logs put before the one that allows), C140_allow_less (allow:phase before allow). Proved: C140_allowing_partial, C140_bodies_partial, C140_multipart_partial (old rules that neither skip nor allow), C140_first_refusal_partial and its _bodies and _multipart forms (old rules that do not skip). Missing: larger bodies, malformed forms, allow:request in response phases (see C92).
* C141 A refusal has the status of a rule that refuses: Refuted: C141_refuted (a rule that logs names 404, another denies), C141_left_behind (the status of a verdict already taken). Proved: C141_own_partial (every rule that denies names a status between 100 and 599), C141_unnamed_partial (no rule names a status: always 403), and C141_written for all texts: 403, 413, the host's own, or a number between 100 and 599 written after status in a text in which some rule denies; and 200 for all that is let through.
* C142 Padding hides nothing: Refuted: C142_refuted, C142_type_hides (a Content-Type put before the one that is there hides the body from REQUEST_BODY). Proved: C142_padded_partial (rules that read no body, any headers and arguments added), C142_bodies_partial (first Content-Type unchanged, bodies up to 131072 bytes, forms settled and well-formed), C142_multipart_partial (multipart forms). C142_counts: rules that count are not covered, and cannot be. Missing: larger bodies, malformed forms.
* C143 A text refuses what one of its parts refuses: Refuted: C143_refuted (a malformed form, one rule that looks and one that counts). Proved: C143_whole_partial (rules that read no body), C143_bodies_partial (bodies up to 131072 bytes, forms settled and well-formed), C143_multipart_partial. Missing: larger bodies, malformed forms; rules that skip or allow are excluded by the claim itself.
* C144 A rule with alternatives is two rules: Refuted: C144_refuted (&ARGS_POST @ge 1 against @gt 1 and @eq 1, on a malformed form, which two rules look at twice). Proved: C144_alternatives_partial (rules that read no body), C144_bodies_partial (bodies up to 131072 bytes, forms settled and well-formed), C144_multipart_partial; C144_comparisons and C144_patterns show which tests have alternatives. Missing: larger bodies, malformed forms; rules that skip or allow are excluded by the claim itself.
* C149 Rules that add nothing can be left out: Refuted: C149_refuted (a rule that never matches looks at a malformed form, the next rule sees more of it). Proved: C149_pruned_partial (rules that read no body), C149_bodies_partial (bodies up to 131072 bytes, forms settled and well-formed), C149_multipart_partial (multipart forms as in C133). Missing: larger bodies, malformed forms.

## Appendix: axioms of each theorem in the manifest

### Classical.choice, Quot.sound, propext (425 theorems)

* C01_in_rules, C01_decode_inverts_encoding
* C02_length_le
* C03_in_rules, C03_error_count, C03_malformed_kept
* C04_in_rules, C04_in_rules_plain, C04_uni_escape, C04_agrees_without_percent_u
* C05_fullwidth_partial, C05_all_codes
* C06_anywhere, C06_case_insensitive_any, C06_in_rules, C06_case_insensitive
* C07_in_rules, C07_removeWhitespace, C07_removeNulls, C07_replaceNulls, C07_idempotent
* C08_in_rules, C08_run_collapses, C08_single_spaces_unchanged, C08_other_bytes_kept, C08_idempotent
* C10_compare, C10_every_int64
* C11_value_as_zero, C11_bad_argument
* C12_count
* C13_status, C13_code_from_call
* C14_length_within_limit, C14_over_limit_refused, C14_within_limit_accepted
* C15_write_never_panics, C15_memory_within_limit_partial, C15_memory_growth
* C16_memory_body_exact
* C17_spilled_content_partial, C17_aligned_partial, C17_exact
* C18_write_never_refused_for_read, C18_spilled_body_overwritten
* C19_read_from_start_partial, C19_read_restarts
* C20_response_body, C20_accepts, C20_equal_limits
* C21_loaded, C21_each_rule_once, C21_phases_forward
* C22_registration_order, C22_no_skip
* C23_loaded, C23_verdict_stops_phase, C23_verdict_kept_partial
* C25_log_accumulates
* C26_stored_status, C26_status_persists
* C27_only_group_order_matters, C27_group_sequence, C27_builtin_order, C27_status_then_deny
* C29_skip_skips_one
* C30_allow_request_diverges, C30_allow_logging_diverges, C30_refuted, C30_loaded_terminates, C30_loaded_history, C30_terminates_partial
* C31_rest_skipped_partial, C31_refuted
* C32_rest_of_phase_skipped_partial, C32_allow_request_skips_response_headers, C32_refuted
* C35_registration, C35_registration_sequence
* C36_client, C36_log_line, C36_every_line
* C37_host
* C38_order_irrelevant, C38_rule, C38_every_range
* C39_block_is_default_actions, C39_block_without_defaults, C39_defaults_add_up, C39_loaded_block
* C40_selected, C40_selectors_partial
* C41_names_values, C41_agree_partial
* C42_cookies, C42_repeated, C42_every_line, C42_one_reading
* C43_basename
* C44_content_type, C44_request_body_history
* C45_phase_stops, C45_history
* C46_again_partial
* C47_panics_iff, C47_well_formed_partial, C47_no_names_partial, C47_refuted, C47_loaded_no_panic
* C50_quoted, C50_quoted_gap, C50_exact, C50_injective
* C51_hangs_iff, C51_loops_forever, C51_literal, C51_terminates_partial, C51_printed, C51_crlf_hangs, C51_refuted
* C52_no_panic, C52_returns
* C53_exact, C53_round_trip, C53_prefix, C53_determined
* C54_case_insensitive, C54_switch
* C55_legal_phase, C55_zero_iff, C55_bad_phase, C55_error_propagates
* C56_loads_iff, C56_loaded_rule, C56_not_ignored, C56_line, C56_line_actions
* C57_chains
* C58_rules, C58_text
* C59_syntax_error_partial, C59_semantic_error, C59_loads_iff, C59_refuted
* C60_one_step_early_partial, C60_refuted
* C61_variables, C61_one_name
* C62_deny_rule, C62_request, C62_history
* C63_same_iff_permutation
* C64_pattern_partial, C64_exact, C64_escaped, C64_refuted
* C65_no_comma, C65_argument_partial, C65_exact, C65_injected, C65_refuted
* C66_selector_partial, C66_exact, C66_split, C66_refuted
* C67_in_force_partial, C67_phases_given, C67_refuted
* C68_loaded, C68_call, C68_history, C68_variable, C68_seen
* C69_total, C69_exact, C69_well_formed_partial, C69_body, C69_refuted
* C70_reported_partial, C70_loaded
* C71_log_partial, C71_refuted
* C72_prefix_partial, C72_within_limit, C72_request_partial
* C73_canonical_partial, C73_dead, C73_lines, C73_odd_names
* C74_locality, C74_added_rules
* C75_exact_partial, C75_equivalent, C75_accepted
* C76_distinguishes_partial, C76_fragment, C76_written, C76_any_path
* C77_decoded_partial, C77_target_partial, C77_exact
* C78_running_keeps_rules, C78_new_gets_new_rules
* C79_begun_phases_partial, C79_host_partial, C79_later_phases_partial
* C80_request_limit, C80_response_limit, C80_response_switch
* C82_leak, C82_no_file_partial
* C83_policy
* C84_policy
* C87_machine
* C88_machine
* C89_seek_partial, C89_read_ignores, C89_write_at_position
* C91_site
* C92_exact_forms, C92_exact, C92_exact_bodies
* C93_names_partial, C93_values, C93_refuted
* C94_any_orders, C94_exact
* C95_host
* C96_never_ahead_partial, C96_counted_partial, C96_exact_partial, C96_drift, C96_refuted
* C97_beginning_again, C97_first_ask_partial, C97_refuted, C97_parser_runs, C97_rest_unseen, C97_rest_of_body_unseen, C97_loaded_rest_unseen
* C98_exact, C98_block_forever, C98_no_operator
* C99_built_later
* C100_accepts_partial, C100_calls, C100_end_is_final, C100_refuted
* C101_takes, C101_before_word_partial
* C102_string_directive, C102_string_alone
* C104_exact, C104_letters_partial, C104_refuted
* C105_one_moment, C105_moments_in_order, C105_loaded
* C106_unseen_partial, C106_refuted, C106_limits
* C107_some_order
* C108_inspected_partial, C108_arguments_partial, C108_evaded, C108_exactly, C108_verdict_blind, C108_loaded_blind, C108_refuted
* C109_pieces, C109_semicolon, C109_one_boundary, C109_malformed_nothing, C109_boundary_partial, C109_malformed
* C110_shown_partial, C110_refuted
* C111_hands_off_partial
* C112_multipart_partial, C112_first_refusal_multipart_partial, C112_more_rules_partial, C112_refuted, C112_bodies_partial, C112_first_refusal_partial, C112_first_refusal_bodies_partial
* C113_chunks_partial, C113_spilled_partial, C113_loaded_partial
* C114_unread, C114_loaded, C114_destination, C114_query, C114_header
* C115_multipart_partial, C115_order_partial, C115_bodies_partial, C115_refuted
* C116_multipart_partial, C116_split_partial, C116_bodies_partial, C116_refuted, C116_names_partial, C116_names_bodies_partial, C116_names_multipart_partial
* C117_one_text_partial, C117_exact, C117_refuted
* C118_created, C118_kept_partial, C118_again
* C119_exact, C119_unchanged_partial, C119_refuted
* C120_text, C120_opposite, C120_next, C120_again
* C121_tests_partial, C121_bodies_partial, C121_refuted, C121_multipart_partial
* C122_disguise, C122_loaded, C122_dissolved, C122_header, C122_arguments
* C123_fields_partial, C123_cut, C123_cut_unseen, C123_loaded_blind, C123_as_urlencoded, C123_refuted
* C124_returns_partial, C124_calls_return, C124_hangs, C124_call_hangs, C124_refuted
* C125_in_time_partial, C125_refused, C125_call_refused, C125_refuted
* C126_log_bounded, C126_all_results, C126_condition_needed, C126_loaded
* C127_log_lines, C127_loaded
* C128_transformed_length, C128_any_library, C128_sharp, C128_loaded
* C129_values_bounded, C129_covers, C129_loaded
* C130_exact, C130_partial, C130_memory
* C131_no_overflow, C131_numbers, C131_loaded
* C132_fields_partial, C132_files_unseen, C132_loaded_blind, C132_refuted
* C133_machine, C133_policy
* C134_encoding
* C137_exempt_partial, C137_bodies_partial, C137_multipart_partial, C137_refuted
* C138_exact, C138_exact_bodies, C138_exact_multipart, C138_one_value_partial, C138_refuted
* C139_narrower_partial, C139_bodies_partial, C139_multipart_partial, C139_threshold, C139_refuted
* C140_allowing_partial, C140_bodies_partial, C140_multipart_partial, C140_first_refusal_partial, C140_first_refusal_bodies_partial, C140_first_refusal_multipart_partial, C140_refuted
* C141_written, C141_own_partial, C141_unnamed_partial, C141_refuted
* C142_padded_partial, C142_bodies_partial, C142_multipart_partial, C142_refuted
* C143_whole_partial, C143_bodies_partial, C143_multipart_partial, C143_refuted
* C144_alternatives_partial, C144_bodies_partial, C144_multipart_partial, C144_comparisons, C144_refuted
* C145_rephased, C145_bodies, C145_multipart
* C146_parts, C146_reordered, C146_bodies, C146_multipart, C146_pieces, C146_fields, C146_query_counts
* C147_missing, C147_bodies, C147_multipart
* C148_present, C148_patterns, C148_smallest
* C149_pruned_partial, C149_bodies_partial, C149_multipart_partial, C149_refuted

### Quot.sound, propext (115 theorems)

* C01_every_string_has_encoding
* C03_plain_unchanged
* C05_refuted
* C06_lowercase_pointwise, C06_idempotent
* C07_absent
* C08_no_double_space
* C09_condition, C09_none_is_neutral
* C21_refuted_without_forward
* C23_refuted
* C24_abort_final, C24_host_abort, C24_fetch_abort
* C25_reset
* C26_deny
* C28_chain, C28_conditions_have_no_effect
* C30_block_default_diverges
* C33_refuted, C33_mode_ignored
* C34_invalid_phase
* C36_phase_digit
* C37_isolation, C37_no_blocking
* C38_fetch, C38_loading
* C41_post, C41_no_url, C41_refuted
* C42_no_cookie
* C43_unique
* C44_gate, C44_request_body, C44_args_post
* C45_rejected, C45_no_action
* C46_malformed, C46_stale, C46_refuted
* C47_crash
* C48_union
* C49_request_uri
* C52_splitMulti
* C57_group_chain, C57_group_single, C57_group_other, C57_all_rules
* C61_bare_exclusion
* C70_pass, C70_refuted
* C72_refuted
* C73_exact, C73_refuted
* C75_refuted
* C76_refuted
* C77_refuted
* C79_refuted
* C81_clean, C81_failure
* C82_refuted
* C85_snapshot, C85_live, C85_calls, C85_history
* C86_refuted, C86_host_partial, C86_overwritten
* C90_closed_for_good
* C99_inert, C99_phase_fixed
* C100_reads_on
* C101_refuted
* C102_package, C102_reaches, C102_new_token_partial, C102_register_dire, C102_refuted
* C103_stops_at_error
* C109_refuted
* C110_nameless
* C111_retold_headers, C111_retold_response, C111_retold_url, C111_refuted
* C112_forms, C112_allow_phase, C112_reset_unseen
* C113_refuted, C113_small_memory
* C114_spelling
* C116_needed
* C117_return
* C118_exact, C118_refuted, C118_response
* C120_built, C120_transformations, C120_none, C120_descriptions
* C122_order, C122_split_character
* C130_refuted, C130_refused
* C135_keeps
* C136_reading_partial, C136_beyond
* C137_counted
* C140_allow_less
* C141_left_behind
* C142_type_hides, C142_counts
* C144_patterns
* C146_type_counts
* C147_counts

### propext (18 theorems)

* C17_refuted
* C18_refuted
* C19_refuted
* C25_result, C25_result_twice
* C40_refuted
* C48_selectors
* C58_switches
* C66_no_separator
* C89_refuted
* C90_refuted, C90_close_partial
* C102_from_seclang
* C103_package_partial
* C111_others
* C118_nil
* C136_refuted, C136_outgrown

### none (5 theorems)

* C15_refuted
* C25_new_is_neutral
* C68_new
* C103_refuted
* C131_edge
