{"id": "C01", "title": "URL decoding inverts every percent-encoding", "statement": "If a string encodes some raw bytes - each raw byte written either as itself (when it is not '%' or '+'), as '+' (when it is a space) or as '%' followed by two hex digits of either case - then UrlDecode returns exactly those raw bytes and an error count of 0, so no choice of encoding hides bytes from a rule using t:urlDecode.", "quantifier": "every raw byte string of any length and every admissible encoding of it", "why_tests_cant": "the set of encodings of a string is exponential in its length and strings are unbounded", "anchors": ["utils/urlencode.go:urldecode", "utils/urlencode.go:UrlDecode", "modsecurity/transforms/urldecode.go:TransUrlDecode.Trans"]}
{"id": "C02", "title": "URL decoding never grows its input", "statement": "The output of UrlDecode and of UrlDecodeUni is never longer than the input, so decoding cannot be used to amplify memory.", "quantifier": "every byte string, both decoders", "why_tests_cant": "unbounded input strings", "anchors": ["utils/urlencode.go:urldecode"]}
{"id": "C03", "title": "URL decoding is faithful outside escapes and counts malformed escapes exactly", "statement": "UrlDecode's error count equals the number of '%' bytes that are not the start of a '%' + two hex digits escape, scanning left to right; a string with no '%' and no '+' is returned unchanged with count 0; a malformed '%' is kept in the output.", "quantifier": "every byte string", "why_tests_cant": "unbounded input strings", "anchors": ["utils/urlencode.go:urldecode"]}
{"id": "C04", "title": "%u escapes decode to the UTF-8 encoding of their code point", "statement": "UrlDecodeUni replaces %uHHHH (either case of u and of the digits) by the UTF-8 encoding of code point HHHH (U+FFFD for surrogates), except for the %uFFxx range, and decodes the rest of the string independently; on a string containing no %u/%U it agrees with UrlDecode.", "quantifier": "every code point 0000-FFFF outside FFxx, every surrounding string", "why_tests_cant": "65536 code points times unbounded contexts", "anchors": ["utils/urlencode.go:UrlDecodeUni", "modsecurity/transforms/urldecode_uni.go"]}
{"id": "C05", "title": "Full-width %uFFxx escapes become their ASCII twins", "statement": "UrlDecodeUni decodes %uFF01..%uFF5E to the ASCII characters 0x21..0x7E, so full-width evasions are normalised; escapes %uFFxx outside that range are not mapped to some unrelated character.", "quantifier": "every xx in 00..FF and every continuation of the string", "why_tests_cant": "combination of table and unbounded context; the second half is false of the code", "anchors": ["utils/urlencode.go:urldecode"]}
{"id": "C06", "title": "t:lowercase is a length-preserving, idempotent ASCII case fold", "statement": "On ASCII input t:lowercase changes exactly the bytes 'A'-'Z', to the byte 32 higher, preserves the length, is idempotent, and two inputs differing only in letter case have the same image. On any other input too, each ASCII character is lowered by itself, whatever bytes surround it, and the case of ASCII letters makes no difference.", "quantifier": "every byte string", "why_tests_cant": "unbounded strings", "anchors": ["modsecurity/transforms/lowercase.go"]}
{"id": "C07", "title": "removeWhitespace / removeNulls / replaceNulls act on exactly their target character", "statement": "On valid UTF-8 input removeWhitespace deletes exactly the spaces, removeNulls exactly the NULs, replaceNulls turns exactly the NULs into spaces, and every other byte is kept in order; on any input the target never survives and the transform is idempotent.", "quantifier": "every byte string (valid UTF-8 for byte-exactness, all byte strings for absence and idempotence)", "why_tests_cant": "unbounded strings over 256 byte values", "anchors": ["modsecurity/transforms/map_rune.go"]}
{"id": "C08", "title": "compressWhitespace leaves single spaces only and nothing else changes", "statement": "For valid UTF-8 the output has no two adjacent spaces, the non-space bytes are unchanged and in order, every run of spaces becomes one space, and applying it twice is the same as once.", "quantifier": "every byte string", "why_tests_cant": "unbounded strings and run lengths", "anchors": ["modsecurity/transforms/compress_whitespace.go"]}
{"id": "C09", "title": "A rule sees each value after its transformations, applied left to right", "statement": "The value given to a rule's operator is the fetched value passed through the rule's transformations in the order they were appended; t:none in the list has no effect.", "quantifier": "every transformation list of any length and every value", "why_tests_cant": "unbounded pipelines", "anchors": ["modsecurity/sec_rule.go:SecRule.TransformString", "modsecurity/sec_rule.go:SecRule.FetchAllTransformedVariables", "modsecurity/transforms/none.go"]}
{"id": "C10", "title": "Numeric operators compare 64-bit integers correctly", "statement": "@eq/@ge/@gt/@le/@lt built with the decimal form of any int64 n match the decimal form (with optional surrounding blanks) of any int64 v iff v = n, v >= n, v > n, v <= n, v < n.", "quantifier": "all pairs of 64-bit integers, all surrounding whitespace", "why_tests_cant": "2^128 pairs", "anchors": ["modsecurity/operators/compare.go"]}
{"id": "C11", "title": "Non-numeric operands behave as zero and bad arguments are rejected", "statement": "A value that is not an optionally signed decimal integer in int64 range is compared as 0; constructing a comparison with such an argument returns an error and never an operator.", "quantifier": "every byte string as value and as argument", "why_tests_cant": "unbounded strings, range boundary", "anchors": ["modsecurity/operators/compare.go:newOperatorCompare", "modsecurity/operators/compare.go:OperatorCompare.Match"]}
{"id": "C12", "title": "&VARIABLE counts values", "statement": "A rule on &V with @eq n fires iff V yields exactly n values in that transaction (likewise for the other comparisons).", "quantifier": "every transaction state, every variable, every n", "why_tests_cant": "unbounded request contents", "anchors": ["modsecurity/variables/count.go", "modsecurity/operators/compare.go"]}
{"id": "C13", "title": "RESPONSE_STATUS compares as the numeric status", "statement": "RESPONSE_STATUS @eq n matches iff the status code given to ProcessResponseHeaders is n, for every int code.", "quantifier": "every 64-bit code and every n", "why_tests_cant": "unbounded integers, sign handling", "anchors": ["modsecurity/variables/response_status.go", "modsecurity/operators/compare.go"]}
{"id": "C14", "title": "A body never exceeds its configured limit", "statement": "For any sequence of body writes and reads, the recorded length of a body never exceeds the configured file limit; a write that would exceed it returns an error and changes nothing.", "quantifier": "every limit configuration, every sequence of chunks of any sizes with reads interleaved", "why_tests_cant": "unbounded histories", "anchors": ["modsecurity/buffer.go:buffer.Write", "modsecurity/transaction.go:Transaction.AppendRequestBody"]}
{"id": "C15", "title": "A body never holds more than the memory limit in memory", "statement": "For any history the bytes buffered in memory never exceed the in-memory limit, and Write never panics for non-negative limits. (The memory bound is false when creating the temporary file fails: each such write may leave the limit in memory once more, but nothing else adds to it.)", "quantifier": "every non-negative limit configuration and write/read history", "why_tests_cant": "unbounded histories", "anchors": ["modsecurity/buffer.go:buffer.Write"]}
{"id": "C16", "title": "Below the memory limit the body is exactly what was appended", "statement": "As long as the total of accepted writes does not exceed the memory limit, String/Bytes return exactly the concatenation of the accepted chunks, with no error, and Len is its length.", "quantifier": "every sequence of writes and reads staying under the limit", "why_tests_cant": "unbounded histories", "anchors": ["modsecurity/buffer.go:buffer"]}
{"id": "C17", "title": "A spilled body is exactly what was appended", "statement": "After the body has moved to the temporary file, reading it returns the concatenation of all accepted chunks. (False of the code when the spilling write starts below the memory limit: bytes are duplicated.)", "quantifier": "every sequence of writes crossing the memory limit", "why_tests_cant": "needs chunk boundaries relative to the limit; the repo's test only uses aligned chunks", "anchors": ["modsecurity/buffer.go:buffer.Write", "modsecurity/buffer.go:buffer.Read"]}
{"id": "C18", "title": "Writing after reading is refused", "statement": "Once a body has been read, Write returns ErrBufferReaded and does not alter the content. (False of the code: the flag is never set and a spilled body is overwritten.)", "quantifier": "every history with a read before a write", "why_tests_cant": "unbounded histories", "anchors": ["modsecurity/buffer.go:buffer.Write", "modsecurity/buffer.go:buffer.initRead"]}
{"id": "C19", "title": "Successive reads advance through the body and end with EOF", "statement": "Reading a body chunk by chunk yields its content once and then EOF. (False of the code: each Read restarts at the beginning.)", "quantifier": "every body and every sequence of read sizes", "why_tests_cant": "unbounded histories", "anchors": ["modsecurity/buffer.go:buffer.Read", "modsecurity/buffer.go:buffer.initRead"]}
{"id": "C20", "title": "The response body is never truncated, duplicated or refused for inspection", "statement": "For any sequence of AppendResponseBody calls on a transaction, RESPONSE_BODY (with access on and something appended) is exactly the concatenation of the accepted chunks and inspecting it never aborts the transaction.", "quantifier": "every chunk sequence and limit", "why_tests_cant": "unbounded histories", "anchors": ["modsecurity/transaction.go:NewTransaction", "modsecurity/variables/response_body.go", "modsecurity/buffer.go:buffer"]}
{"id": "C21", "title": "Each phase is processed at most once and phases only move forward", "statement": "Whatever the order and repetition of Process* calls, the phase number never decreases and no phase's rules are processed twice - provided no rule uses allow:request from the response phases on or allow in the logging phase (with such rules it is false).", "quantifier": "every sequence of API calls, every rule set satisfying the condition", "why_tests_cant": "unbounded call sequences and rule sets", "anchors": ["modsecurity/transaction.go:Transaction.ProcessPhase", "modsecurity/transaction.go:Transaction.JumpToPhase", "modsecurity/actions/allow.go"]}
{"id": "C22", "title": "Rules of a phase are evaluated in registration order, each at most once", "statement": "During one phase the rules evaluated form an increasing subsequence of the registered rules, starting with the first; a rule is left out only because the preceding one executed skip or because processing stopped.", "quantifier": "every rule set and request", "why_tests_cant": "unbounded rule lists and data-dependent control flow", "anchors": ["modsecurity/transaction.go:Transaction.processPhase", "modsecurity/transaction.go:Transaction.Next", "modsecurity/transaction.go:Transaction.JumpTo"]}
{"id": "C23", "title": "A disruptive verdict stops the phase", "statement": "As soon as a rule leaves a disruptive intervention, no later rule of that phase is evaluated; the transaction keeps that verdict until it is read. (The stronger claim that no later phase evaluates anything is false: the first rule of each later phase still runs and can erase the verdict with pass.)", "quantifier": "every rule set, position and request", "why_tests_cant": "unbounded rule lists and later calls", "anchors": ["modsecurity/transaction.go:Transaction.processPhase"]}
{"id": "C24", "title": "Abort is final", "statement": "After AbortWithStatus/AbortWithError (by the host or by an oversized body) no rule action runs any more and every later Result is disruptive with that status, whatever is called afterwards except further aborts or an explicit ResetIntervention.", "quantifier": "every sequence of later API calls and rule set", "why_tests_cant": "unbounded histories", "anchors": ["modsecurity/transaction.go:Transaction.AbortWithStatus", "modsecurity/transaction.go:Transaction.Result", "modsecurity/sec_rule.go:SecRule.Match"]}
{"id": "C25", "title": "Result reports the accumulated intervention once", "statement": "Result returns the intervention accumulated since the last Result and resets it to the neutral one (200, not disruptive, no log, no URL) unless aborted; a second Result with nothing in between is neutral; when aborted it is idempotent. ResetIntervention and the action pass make the intervention neutral, aborted or not.", "quantifier": "every transaction state and history", "why_tests_cant": "unbounded histories", "anchors": ["modsecurity/transaction.go:Transaction.Result", "modsecurity/transaction.go:Intervention.Copy", "modsecurity/transaction.go:Intervention.Reset"]}
{"id": "C26", "title": "deny uses the last status executed, else 403", "statement": "When deny runs on a neutral intervention, the resulting status is the last status:n executed in this transaction if 100 <= n <= 599 and 403 otherwise; an existing non-200 status is kept; it is always disruptive and logs exactly one line.", "quantifier": "every transaction state and every n", "why_tests_cant": "unbounded histories of status actions", "anchors": ["modsecurity/actions/deny.go", "modsecurity/actions/status.go"]}
{"id": "C27", "title": "Actions run grouped: metadata, data, non-disruptive, disruptive, flow", "statement": "The effect of a rule's action list depends only on the order inside each group: any two lists with the same per-group subsequences have the same effect, so `deny,status:404` equals `status:404,deny`.", "quantifier": "every action list and reordering across groups", "why_tests_cant": "factorially many orders of unbounded lists", "anchors": ["modsecurity/sec_rule.go:ActionsExecute"]}
{"id": "C28", "title": "A chain acts iff every link matches", "statement": "A rule with sub-rules executes actions iff its own condition and every sub-rule's condition hold; then its actions run first, followed by each sub-rule's in order; otherwise no action runs and the intervention is unchanged.", "quantifier": "every rule, any chain length, any transaction", "why_tests_cant": "unbounded chain length", "anchors": ["modsecurity/sec_rule.go:SecRule.Do"]}
{"id": "C29", "title": "skip skips exactly the next rule", "statement": "If a rule executes skip (and does not stop or leave the phase), the next rule evaluated in that phase is the one two positions later, or the phase ends.", "quantifier": "every rule set, position and request", "why_tests_cant": "unbounded rule lists", "anchors": ["modsecurity/actions/skip.go", "modsecurity/transaction.go:Transaction.JumpTo"]}
{"id": "C30", "title": "Processing a phase terminates", "statement": "Every Process* call returns. (False of the code: a matching allow:request rule in the response-headers phase, reachable from SecLang as phase:4, or allow in the logging phase, loops forever; block as a default action recurses forever. True when no rule can jump back to its own phase.)", "quantifier": "every rule set and transaction", "why_tests_cant": "non-termination cannot be observed by a finite test; unbounded rule sets", "anchors": ["modsecurity/transaction.go:Transaction.processPhase", "modsecurity/actions/allow.go", "modsecurity/actions/block.go"]}
{"id": "C31", "title": "allow skips to the logging phase, whose rules still run", "statement": "After a matching rule executes allow, no rule of the remaining phases before logging is evaluated, and the logging rules are evaluated by ProcessLogging. (Second half false of the code.)", "quantifier": "every rule set and later call sequence", "why_tests_cant": "unbounded histories", "anchors": ["modsecurity/actions/allow.go", "modsecurity/transaction.go:Transaction.ProcessPhase"]}
{"id": "C32", "title": "allow:phase skips only the rest of the current phase", "statement": "After allow:phase the next phase's rules are evaluated normally. (False of the code: the next phase is skipped too; likewise allow:request skips the response-headers phase.)", "quantifier": "every rule set and later call sequence", "why_tests_cant": "unbounded histories", "anchors": ["modsecurity/actions/allow.go", "modsecurity/transaction.go:Transaction.ProcessPhase"]}
{"id": "C33", "title": "SecRuleEngine Off and DetectionOnly prevent disruption", "statement": "With the engine off no rule is evaluated, and in detection-only mode no intervention is disruptive. (False of the code: the flags are never consulted; transactions behave identically for every engine mode.)", "quantifier": "every rule set, request and engine mode", "why_tests_cant": "unbounded histories; absence of influence is a two-run property", "anchors": ["modsecurity/engine.go:Engine.Enable", "modsecurity/transaction.go:Transaction.processPhase"]}
{"id": "C34", "title": "Rules with an invalid phase are never evaluated", "statement": "A rule whose phase is not one of the six processing phases is not added to the rule set, and registration leaves the others untouched.", "quantifier": "every integer phase and rule list", "why_tests_cant": "unbounded rule lists", "anchors": ["modsecurity/sec_rule.go:SecRuleSet.AddRules"]}
{"id": "C35", "title": "Registration keeps order per phase", "statement": "After any sequence of AddRules/AddSecRule calls, the rules of each phase are exactly those registered for it, in registration order.", "quantifier": "every sequence of registration calls", "why_tests_cant": "unbounded histories", "anchors": ["modsecurity/sec_rule.go:SecRuleSet.AddRules", "modsecurity/engine.go:Engine.AddSecRule"]}
{"id": "C36", "title": "Every log line names the client and the phase", "statement": "Each line logged through a transaction is '[client ip:port] (phase n) ' followed by the message, appended at the end of the intervention's log, changing nothing else.", "quantifier": "every transaction state and message", "why_tests_cant": "unbounded strings", "anchors": ["modsecurity/transaction.go:Transaction.Logf"]}
{"id": "C37", "title": "Transactions of one engine do not influence each other", "statement": "For any interleaving of API calls on any number of transactions sharing an engine and rule set, the state and results of each transaction are those of running only its own calls.", "quantifier": "every number of transactions and every schedule (at call granularity)", "why_tests_cant": "exponentially many interleavings of unbounded histories", "anchors": ["modsecurity/transaction.go:NewTransaction", "modsecurity/engine.go:Engine.NewTransaction"]}
{"id": "C38", "title": "Verdicts do not depend on map iteration order", "statement": "Whether a rule matches, and the resulting transaction, is the same for every iteration order of the request's argument, header and cookie maps, chosen anew each time a map is walked. Loading a text succeeds or fails alike whatever the order, and gives the same rules but for the order of the variables within each.", "quantifier": "every permutation at every execution of a range statement", "why_tests_cant": "Go randomises the order; factorially many orders", "anchors": ["modsecurity/variables/filter.go", "modsecurity/sec_rule.go:SecRule.Match", "seclang/variable.go:applyVariables"]}
{"id": "C39", "title": "block executes the configured default actions", "statement": "block has exactly the effect of running the default actions that were added to the rule set, in the order they were added (grouped); with none configured - always the case for rules loaded from SecLang into a fresh engine - it does nothing.", "quantifier": "every default action list and transaction", "why_tests_cant": "unbounded action lists", "anchors": ["modsecurity/actions/block.go", "modsecurity/sec_rule.go:SecRuleSet.ExecuteDefaultActions"]}
{"id": "C40", "title": "Selectors choose the documented names", "statement": "COLLECTION:a|COLLECTION:b|COLLECTION:/re/|!COLLECTION:c selects the values whose name is one of the included names or matches an included regex, minus the excluded ones. (False when both literal and regex includes are given: the code requires both.)", "quantifier": "every include/exclude list and every collection", "why_tests_cant": "unbounded lists and maps", "anchors": ["modsecurity/variables/filter.go", "utils/strings.go"]}
{"id": "C41", "title": "Names, values and counts of a collection agree", "statement": "The names variable yields each selected name once; the value variable yields the values of exactly those names; counting them gives the corresponding cardinalities.", "quantifier": "every collection and selector", "why_tests_cant": "unbounded maps", "anchors": ["modsecurity/variables/filter.go", "modsecurity/variables/count.go"]}
{"id": "C42", "title": "Cookies are read completely", "statement": "For any list of name=value pairs (names without '=' or ';', values without ';', no surrounding blanks) sent in one or several Cookie headers joined by ';' and blanks, REQUEST_COOKIES yields exactly those values and REQUEST_COOKIES_NAMES exactly those names, repeated names keeping every value.", "quantifier": "every list of cookies and every distribution over header lines", "why_tests_cant": "unbounded lists and strings", "anchors": ["modsecurity/variables/request_cookies.go", "modsecurity/variables/request_cookies_names.go"]}
{"id": "C43", "title": "REQUEST_BASENAME is the last non-empty path segment", "statement": "REQUEST_BASENAME of a path is the text after the last '/' or '\\' once trailing separators are removed, contains no separator, and is '/' iff the path has no other character.", "quantifier": "every path", "why_tests_cant": "unbounded strings", "anchors": ["modsecurity/variables/request_basename.go"]}
{"id": "C44", "title": "Request body variables are gated", "statement": "REQUEST_BODY, ARGS_POST and ARGS_POST_NAMES yield nothing, and do not touch the transaction, unless request body access is on, the method is POST/PUT/PATCH, the body is non-empty and the content type is acceptable.", "quantifier": "every transaction state", "why_tests_cant": "unbounded states", "anchors": ["modsecurity/variables/request_body.go", "modsecurity/variables/request_body_parser.go"]}
{"id": "C45", "title": "An uninspectable request body is rejected, not passed", "statement": "If an urlencoded body has outgrown the memory limit, evaluating a rule over REQUEST_BODY or (unparsed) ARGS_POST aborts with 413, the rule does not match - even a negated one - and the phase stops.", "quantifier": "every transaction and rule with such a variable", "why_tests_cant": "unbounded bodies and rule sets", "anchors": ["modsecurity/variables/request_body.go", "modsecurity/variables/request_body_parser.go", "modsecurity/sec_rule.go:SecRule.Match"]}
{"id": "C46", "title": "Body arguments do not depend on how often they were read", "statement": "Fetching ARGS_POST twice in the same state gives the same values. (False of the code for a malformed urlencoded body: nothing the first time, the well-formed part afterwards; also stale after further body chunks.)", "quantifier": "every body and history of fetches", "why_tests_cant": "unbounded histories, hidden cache state", "anchors": ["modsecurity/variables/request_body_parser.go:requestBodyParse"]}
{"id": "C47", "title": "No request can crash rule evaluation", "statement": "Fetching any variable on any transaction reachable through the API does not panic. (False of the code: a malformed multipart body and ARGS_POST_NAMES/ARGS_NAMES fetched after an earlier fetch dereferences a nil form.)", "quantifier": "every reachable transaction state and variable", "why_tests_cant": "unbounded histories", "anchors": ["modsecurity/variables/args_post_names.go", "modsecurity/variables/request_body_parser.go"]}
{"id": "C48", "title": "ARGS is the union of GET and POST arguments under the same selector", "statement": "ARGS yields the ARGS_GET values followed by the ARGS_POST values, and an include or exclude given to ARGS applies to both; likewise ARGS_NAMES.", "quantifier": "every transaction and selector", "why_tests_cant": "unbounded states", "anchors": ["modsecurity/variables/args.go", "modsecurity/variables/args_names.go", "modsecurity/variables/merge.go"]}
{"id": "C49", "title": "REQUEST_URI ignores scheme, host and user information", "statement": "Two requests whose URLs agree on path, query and fragment have the same REQUEST_URI whatever the scheme, authority or opaque part.", "quantifier": "every pair of URLs", "why_tests_cant": "unbounded strings", "anchors": ["modsecurity/variables/request_uri.go"]}
{"id": "C50", "title": "Every string can be quoted in SecLang", "statement": "For every byte string there is a quoted form (backslash escapes) that the scanner reads back as exactly that string, leaving the input positioned after the closing quote.", "quantifier": "every byte string and every continuation", "why_tests_cant": "unbounded strings", "anchors": ["seclang/parser/scanner.go:Scanner.ReadString", "seclang/parser/scanner.go:Scanner.readString", "seclang/parser/utils.go"]}
{"id": "C51", "title": "Parsing terminates", "statement": "Parsing any rule text returns. (False of the code: a backslash between tokens not followed by '\\n', e.g. a CRLF line continuation, makes the scanner loop forever; that is the only cause.)", "quantifier": "every byte string", "why_tests_cant": "non-termination cannot be observed by a finite test", "anchors": ["seclang/parser/scanner.go:Scanner.SkipBlank", "seclang/parser/scanner.go:Scanner.AllDirective"]}
{"id": "C52", "title": "Parsing never panics", "statement": "For every rule text on which it returns, the parser returns directives or an error and performs no out-of-range access.", "quantifier": "every byte string", "why_tests_cant": "unbounded strings", "anchors": ["seclang/parser/scanner.go", "seclang/parser/utils.go:splitMulti"]}
{"id": "C53", "title": "Printing and parsing directives round-trips", "statement": "For every list of well-formed directives (engine mode, body access, rules with variables, operator and actions), printing it in canonical syntax and parsing it yields the same directives in the same order.", "quantifier": "every directive list of any length", "why_tests_cant": "unbounded syntax trees", "anchors": ["seclang/parser/scanner.go:Scanner.AllDirective"]}
{"id": "C54", "title": "Directive names and On/Off values are case-insensitive", "statement": "Any mix of upper and lower case in a directive name or in On/Off/DetectionOnly is parsed the same.", "quantifier": "every case variant", "why_tests_cant": "exponentially many variants in unbounded contexts", "anchors": ["seclang/parser/seclang_token.go:DirectiveFromString", "seclang/parser/scanner.go:Scanner.ReadValue"]}
{"id": "C55", "title": "Every parsed rule has a legal phase", "statement": "A successfully parsed rule has phase 1-5, or 0 when no phase action was given; anything else is a parse error.", "quantifier": "every rule text", "why_tests_cant": "unbounded strings", "anchors": ["seclang/parser/scanner.go:actionProcessors"]}
{"id": "C56", "title": "Exactly the implemented features load", "statement": "A parsed rule loads iff all its variables, operator and actions are implemented and their arguments valid; unimplemented features (XML, pass, severity, setvar, capture, logdata) give an error rather than being silently ignored. A rule line as it is typed loads iff its three strings are a list of known variables, an operator and a list of known actions that form such a rule; in particular a line with an action whose name is unknown is refused.", "quantifier": "every parsed rule and every typed rule line", "why_tests_cant": "combinations of unbounded lists", "anchors": ["seclang/variable.go", "seclang/actions.go", "seclang/operators.go", "seclang/trans.go"]}
{"id": "C57", "title": "Chained rules are grouped with their starter", "statement": "Loading a text groups each maximal run of rules `chain ... chain last` into one rule whose sub-rules are the following rules in order; other rules and directives stay separate and in order.", "quantifier": "every sequence of directives", "why_tests_cant": "unbounded sequences", "anchors": ["seclang/rule_set.go:DireSet.AddSecLangString"]}
{"id": "C58", "title": "Executing a loaded set configures the engine as written", "statement": "After Execute, each phase of the engine has its previous rules followed by the loaded rules of that phase in text order, and each engine switch has the value of the last directive that sets it (else unchanged).", "quantifier": "every directive set and engine state", "why_tests_cant": "unbounded sequences", "anchors": ["seclang/rule_set.go:DireSet.Execute", "seclang/rules.go", "seclang/sec_rule.go:DireRule.Execute"]}
{"id": "C59", "title": "Loading a text is all or nothing", "statement": "If loading a rule text fails, the set it was added to is unchanged. (True for syntax errors; false for semantic errors: earlier directives of the text stay.)", "quantifier": "every text and existing set", "why_tests_cant": "unbounded sequences", "anchors": ["seclang/rule_set.go:DireSet.AddSecLangString"]}
{"id": "C60", "title": "A SecLang phase number selects the documented processing phase", "statement": "phase:1 rules run at request headers, phase:2 at request body, phase:3 at response headers, phase:4 at response body, phase:5 at logging. (False of the code: every phase is off by one, so phase:2 rules run before the body is available.)", "quantifier": "every loaded rule", "why_tests_cant": "statement about all rules and schedules", "anchors": ["seclang/parser/seclang_token.go", "modsecurity/sec_rule.go", "seclang/actions.go"]}
{"id": "C61", "title": "A loaded rule inspects exactly the listed variables", "statement": "A loaded rule has one variable per distinct (name, counted or not) pair in its variable list, carrying all selectors given for that pair in order; an exclusion without selector still adds the variable.", "quantifier": "every parsed variable list", "why_tests_cant": "unbounded lists", "anchors": ["seclang/variable.go:DireRule.applyVariables"]}
{"id": "C62", "title": "End to end: a textual deny rule blocks exactly the matching requests", "statement": "Loading `SecRule V \"op\" \"id:n,phase:p,t:...,deny\"` from text and running a transaction through that phase gives a disruptive 403 iff some value of V, after the transformations, satisfies the operator.", "quantifier": "every pattern, rule id, phase and request", "why_tests_cant": "unbounded inputs across the whole pipeline", "anchors": ["seclang/rule_set.go", "modsecurity/sec_rule.go", "modsecurity/transaction.go", "modsecurity/actions/deny.go"]}
{"id": "C63", "title": "SameStringSlice decides equality up to order", "statement": "SameStringSlice(a, b) is true exactly when b is a permutation of a: same length and every string occurs equally often.", "quantifier": "every two string slices", "why_tests_cant": "unbounded slices, duplicates", "anchors": ["utils/strings.go:SameStringSlice"]}
{"id": "C64", "title": "A quoted @rx pattern reaches the regex compiler as written", "statement": "The pattern typed between double quotes in SecRule V \"@rx pattern\" \"actions\" is the operator argument of the parsed rule. (False of the code for every pattern with a backslash: the scanner interprets backslash escapes, so \\d becomes d.)", "quantifier": "every pattern without quotes and line breaks, every variable list and action list", "why_tests_cant": "unbounded patterns; a test with a backslash-free pattern passes", "anchors": ["seclang/parser/scanner.go:Scanner.readString", "seclang/parser/scanner.go:Scanner.ReadOperator", "modsecurity/operators/rx.go"]}
{"id": "C65", "title": "Quoted action arguments are atomic", "statement": "A message in single quotes inside the action list is one action argument, whatever it contains. (False of the code: commas end it, and what follows is read as further actions.)", "quantifier": "every message, variable list and operator", "why_tests_cant": "unbounded messages", "anchors": ["seclang/parser/scanner.go:Scanner.ReadActions", "seclang/parser/utils.go:splitMulti"]}
{"id": "C66", "title": "A selector belongs to its variable", "statement": "The text typed after VARIABLE: up to the end of the list is the selector of that variable, also when it is a regex with alternation. (False of the code: '|' and ',' split it.)", "quantifier": "every selector, variable, operator and action list", "why_tests_cant": "unbounded selectors", "anchors": ["seclang/parser/scanner.go:Scanner.ReadVariables", "seclang/parser/utils.go:splitMulti"]}
{"id": "C67", "title": "Every loaded rule is in force", "statement": "Each rule of a text that loads without error is registered in some phase of the engine after Execute. (False of the code: a rule without a phase action is dropped silently, chain included.)", "quantifier": "every rule text", "why_tests_cant": "unbounded texts", "anchors": ["seclang/sec_rule.go:DireRule.Execute", "seclang/rule_set.go:DireSet.Execute", "modsecurity/sec_rule.go:SecRuleSet.AddRules"]}
{"id": "C68", "title": "Rules see what the host said last", "statement": "For every history of API calls, the single-valued variables (REMOTE_ADDR, REQUEST_METHOD, REQUEST_PROTOCOL, REQUEST_URI, REQUEST_FILENAME, QUERY_STRING, RESPONSE_STATUS, RESPONSE_PROTOCOL, RESPONSE_CONTENT_LENGTH, RESPONSE_CONTENT_TYPE) evaluated by any rule yield what the last call providing them said, the call that triggered the evaluation included; evaluating rules never alters it.", "quantifier": "every call history, every rule set whose host-written actions leave these fields alone", "why_tests_cant": "unbounded histories and rule sets", "anchors": ["modsecurity/transaction.go:Transaction.ProcessConnection", "modsecurity/transaction.go:Transaction.ProcessRequestURL", "modsecurity/transaction.go:Transaction.ProcessRequestHeader", "modsecurity/transaction.go:Transaction.ProcessResponseHeaders", "modsecurity/variables/remote_addr.go", "modsecurity/variables/response_status.go", "modsecurity/variables/response_content_length.go", "modsecurity/variables/query_string.go", "modsecurity/variables/request_filename.go", "modsecurity/variables/request_method.go", "modsecurity/variables/request_protocol.go", "modsecurity/variables/response_protocol.go"]}
{"id": "C69", "title": "Every query argument is inspected", "statement": "Each non-empty piece of a query string (separated by & or ;) contributes one value, percent-decoded, to ARGS_GET, and likewise for ARGS_POST of an urlencoded body. (False of the code: a piece with a malformed percent escape is left out, e.g. a=evil%; well-formed queries are complete.)", "quantifier": "every query string", "why_tests_cant": "unbounded strings", "anchors": ["modsecurity/variables/args_gets.go", "modsecurity/variables/args_get_names.go", "modsecurity/variables/args_posts.go", "modsecurity/variables/request_body_parser.go"]}
{"id": "C70", "title": "No log line is lost", "statement": "A line logged before Result is in the log that Result returns; calls other than Result and ResetIntervention only append to the log. (False of the code with the pass action, which replaces the whole intervention; true of every rule set loaded from a text, since pass cannot be loaded.)", "quantifier": "every call history and rule set", "why_tests_cant": "unbounded histories", "anchors": ["modsecurity/transaction.go:Transaction.Logf", "modsecurity/transaction.go:Transaction.Result", "modsecurity/actions/pass.go"]}
{"id": "C71", "title": "The deny log line names the returned status", "statement": "The line logged by deny says which status the client gets. (False of the code: it always says 403.)", "quantifier": "every transaction state", "why_tests_cant": "depends on status data set by other rules", "anchors": ["modsecurity/actions/deny.go"]}
{"id": "C72", "title": "The inspected body is a prefix of the body sent", "statement": "RESPONSE_BODY (and REQUEST_BODY of an urlencoded request) shows a prefix of the concatenation of all chunks passed to the transaction; a body within the limit is shown whole. (False of the code once a chunk is refused: a later, smaller chunk is accepted, leaving a hole.)", "quantifier": "every sequence of calls", "why_tests_cant": "unbounded histories", "anchors": ["modsecurity/transaction.go:Transaction.AppendResponseBody", "modsecurity/transaction.go:Transaction.AppendRequestBody", "modsecurity/buffer.go:buffer.Write"]}
{"id": "C73", "title": "Header selectors ignore case", "statement": "REQUEST_HEADERS:name shows the values of that header whatever the case of the letters in the selector. (False of the code: the selector must be spelled as net/http canonicalises names; any other spelling never shows anything.)", "quantifier": "every selector and header map", "why_tests_cant": "unbounded strings", "anchors": ["modsecurity/variables/request_headers.go", "modsecurity/variables/filter.go", "modsecurity/variables/request_headers_names.go", "modsecurity/variables/response_headers.go", "modsecurity/variables/response_headers_names.go"]}
{"id": "C74", "title": "Later phases cannot affect earlier ones", "statement": "Rule sets that agree on the phases up to q (and default actions) give the same outcome, returned values, evaluated rules and transaction for every sequence of calls evaluating phases up to q; in particular registering rules for later phases changes nothing before.", "quantifier": "every pair of rule sets, every call sequence up to phase q", "why_tests_cant": "quantifies over pairs of rule sets and histories", "anchors": ["modsecurity/transaction.go:Transaction.ProcessPhase", "modsecurity/sec_rule.go:SecRuleSet.Process", "modsecurity/sec_rule.go:SecRuleSet.AddRules"]}
{"id": "C75", "title": "REQUEST_URI is the request target as sent", "statement": "For a request target beginning with '/', parsed by net/url's ParseRequestURI, REQUEST_URI is the target byte for byte. (False of the code for paths with bytes not allowed in a path, such as a double quote: these come back percent-encoded; the query and allowed paths are exact, and the path always encodes the same bytes.)", "quantifier": "every request target", "why_tests_cant": "unbounded strings", "anchors": ["modsecurity/variables/request_uri.go"]}
{"id": "C76", "title": "REQUEST_URI tells URLs apart", "statement": "Two URLs with different paths or queries have different REQUEST_URIs. (True for rooted paths without fragment, and with fragments when the queries have no '#'; false for relative paths with a colon.)", "quantifier": "every pair of URLs", "why_tests_cant": "quantifies over pairs of unbounded strings", "anchors": ["modsecurity/variables/request_uri.go"]}
{"id": "C77", "title": "t:urlDecode undoes the encoding of REQUEST_URI", "statement": "t:urlDecode applied to REQUEST_URI gives the decoded path, '?' and the decoded query. (False of the code for paths with '+', which turns into a space.)", "quantifier": "every URL and request target", "why_tests_cant": "unbounded strings", "anchors": ["modsecurity/variables/request_uri.go", "modsecurity/transforms/urldecode.go", "utils/urlencode.go"]}
{"id": "C78", "title": "Replacing the rule set is safe for running transactions", "statement": "After the engine is pointed at a new rule set, transactions created before go on with exactly the rules they started with, whatever is then done to the engine, and transactions created afterwards have exactly the new rules.", "quantifier": "every program using one engine, any number of transactions, every interleaving of calls", "why_tests_cant": "unbounded programs and interleavings", "anchors": ["modsecurity/engine.go:Engine", "modsecurity/transaction.go:NewTransaction", "modsecurity/sec_rule.go:SecRuleSet"]}
{"id": "C79", "title": "Registering rules does not disturb running transactions", "statement": "Rules registered while a transaction is under way do not affect it. (False of the code: the rule set is shared by reference, so they act from the next phase on. Rules for phases already begun have no effect; rules for phases still to come act as if registered from the start.)", "quantifier": "every transaction state, rule list and remaining calls", "why_tests_cant": "unbounded histories", "anchors": ["modsecurity/engine.go:Engine.AddSecRule", "modsecurity/sec_rule.go:SecRuleSet.AddRules", "modsecurity/transaction.go:Transaction.ProcessPhase"]}
{"id": "C80", "title": "Body limits are those at creation, body switches those at evaluation", "statement": "However the engine's limits are changed meanwhile, body chunks are accepted up to the limit in force when the transaction was created, whereas body access is decided by the switch at the moment a rule reads the body.", "quantifier": "every host program, chunk sequence and limit change", "why_tests_cant": "unbounded programs", "anchors": ["modsecurity/engine.go:Engine.NewTransaction", "modsecurity/transaction.go:NewTransaction", "modsecurity/buffer.go:buffer.Write", "modsecurity/variables/response_body.go"]}
{"id": "C81", "title": "New transactions start clean", "statement": "Whatever has happened on the engine, a new transaction has no phase processed, no request or response data, empty bodies and a neutral verdict, and creating it (or failing to) affects nothing else.", "quantifier": "every engine state", "why_tests_cant": "unbounded histories before creation", "anchors": ["modsecurity/engine.go:Engine.NewTransaction", "modsecurity/transaction.go:NewTransaction"]}
{"id": "C82", "title": "Temporary files are released", "statement": "After ProcessLogging a transaction holds no open temporary file. (False of the code: no transaction call closes the buffers; a spilled request body keeps its file open for ever. Bodies within the in-memory limit never create a file.)", "quantifier": "every call history", "why_tests_cant": "resource leaks over unbounded histories", "anchors": ["modsecurity/buffer.go:buffer.Close", "modsecurity/buffer.go:buffer.Write", "modsecurity/transaction.go:Transaction.ProcessLogging"]}
{"id": "C83", "title": "The verdict of a rule text", "statement": "For a loaded text whose rules (single or chained) deny, log, block or only describe, and whose variables do not read a body: whatever the host tells and calls (short of moving the cursor by hand, aborting, or reading the verdict on the way), the final verdict is disruptive (403) exactly if some chain with a deny in it had its phase processed in order and every condition of the chain held of what had been told by then; otherwise it is 200.", "quantifier": "every rule text of that form, every call history", "why_tests_cant": "unbounded texts, strings and histories", "anchors": ["seclang/rule_set.go", "modsecurity/sec_rule.go:SecRule.Match", "modsecurity/sec_rule.go:SecRule.Do", "modsecurity/sec_rule.go:SecRuleSet.Process", "modsecurity/transaction.go:Transaction.ProcessPhase", "modsecurity/transaction.go:Transaction.Result"]}
{"id": "C84", "title": "The verdict of a rule text that reads bodies", "statement": "As C83, with the body variables: REQUEST_BODY, RESPONSE_BODY, ARGS, ARGS_NAMES, ARGS_POST and ARGS_POST_NAMES show the bodies accepted so far (or the form in them) exactly if the last SecRequestBodyAccess or SecResponseBodyAccess of the text is On, the method takes a body and the content type is a form; the verdict is 403 exactly if some chain with a deny in it had its phase processed and all its conditions held then. Request bodies up to 131072 bytes; response chunks past 524228 bytes are refused; forms read by a rule are well-formed, not multipart, and complete when first read.", "quantifier": "every rule text of that form, every call history of that form, all bodies", "why_tests_cant": "unbounded texts, bodies and histories", "anchors": ["seclang/rule_set.go", "modsecurity/transaction.go:Transaction.AppendRequestBody", "modsecurity/transaction.go:Transaction.ProcessPhase", "modsecurity/buffer.go:buffer.Write"]}
{"id": "C85", "title": "A returned verdict is a snapshot", "statement": "The record Result returns shows the verdict of that moment for ever, whatever the transaction does afterwards, although it shares the log's backing array with the transaction while the transaction is aborted; the pointer Intervention returns always shows the current verdict.", "quantifier": "every sequence of intervention operations, every slice growth policy; every call history with its kept records", "why_tests_cant": "aliasing over unbounded histories", "anchors": ["modsecurity/transaction.go:Transaction.Result", "modsecurity/transaction.go:Intervention.Copy", "modsecurity/transaction.go:Intervention.Reset", "modsecurity/transaction.go:Transaction.Logf", "modsecurity/transaction.go:Transaction.Intervention"]}
{"id": "C86", "title": "What a host does to a returned verdict stays with the host", "statement": "Assigning the fields of a record Result returned, or its log lines, or appending to its log, changes no later verdict of the transaction. (False of the code: after an abort the log is shared, so a line the host assigns shows up in the next Result. It holds for records returned before an abort, and for plain field assignments always.)", "quantifier": "every interleaving of transaction and host operations", "why_tests_cant": "aliasing over unbounded histories", "anchors": ["modsecurity/transaction.go:Transaction.Result", "modsecurity/transaction.go:Intervention.Copy"]}
{"id": "C87", "title": "Every verdict of a rule text, step by step", "statement": "For a loaded text whose variables do not read a body and that has no allow:request in a response phase: whatever calls the host makes in whatever order (including jumps, aborts and reading the verdict on the way), the verdicts it is shown (status, disruptive, log lines) are those of a small reference machine that walks the chains of the text, and no call loops longer than the number of chains plus two.", "quantifier": "every rule text of that form with any loadable actions (deny, allow, skip, status, log, block), every call history", "why_tests_cant": "unbounded texts, strings and histories", "anchors": ["seclang/rule_set.go", "modsecurity/sec_rule.go:SecRule.Match", "modsecurity/sec_rule.go:SecRule.Do", "modsecurity/sec_rule.go:SecRuleSet.Process", "modsecurity/transaction.go:Transaction.ProcessPhase", "modsecurity/transaction.go:Transaction.Result", "modsecurity/transaction.go:Transaction.JumpTo", "modsecurity/transaction.go:Transaction.AbortWithStatus"]}
{"id": "C88", "title": "Every verdict of a rule text that reads bodies", "statement": "As C87 with the body variables of C84: the reference machine sees what has been told and the bodies accepted so far, as far as the access directives show them. Request bodies up to 131072 bytes; forms read by a rule are well-formed, not multipart, and complete when first read.", "quantifier": "every rule text of that form, every call history of that form, all bodies", "why_tests_cant": "unbounded texts, bodies and histories", "anchors": ["seclang/rule_set.go", "modsecurity/sec_rule.go:SecRuleSet.Process", "modsecurity/transaction.go:Transaction.AppendRequestBody", "modsecurity/transaction.go:Transaction.ProcessPhase", "modsecurity/buffer.go:buffer.Write"]}
{"id": "C89", "title": "Seeking in a body", "statement": "Seek answers with the position asked for, refuses a position before the start or an unknown base, leaves the body as it is, and the next Read starts at that position. (False of the code in the last part: every Read goes back to the start. A write to a body in a file does go to the position.)", "quantifier": "every history of buffer operations, every offset and base", "why_tests_cant": "unbounded histories and offsets", "anchors": ["modsecurity/buffer.go:buffer.Seek", "modsecurity/buffer.go:buffer.initRead", "modsecurity/buffer.go:buffer.Read"]}
{"id": "C90", "title": "Closing a body", "statement": "Close releases a body that is not closed without error or panic, and a closed body accepts and returns nothing any more. (False of the code in the first part: a body in memory has no file and Close panics.)", "quantifier": "every history of buffer operations", "why_tests_cant": "unbounded histories after the close", "anchors": ["modsecurity/buffer.go:buffer.Close", "modsecurity/buffer.go:buffer.Write", "modsecurity/buffer.go:buffer.Read"]}
{"id": "C91", "title": "A whole site", "statement": "A host starts with a new engine, reads rule texts into it (a batch with an error is refused as a whole), changes limits and modes, starts and switches rule sets, opens transactions and makes any calls on them, all interleaved in any order: which batches are accepted and every verdict of every transaction (status, disruptive, log) are those of a small reference in which a rule set is a list of chains and a transaction is a reference machine on the chains its set has at the time of the call; a step never returns exactly if it does not on the reference (a text that hangs the reader, a phase whose walk goes round for ever), and nothing panics unless the host calls a transaction it never created. Texts whose rules read no body; limits not negative.", "quantifier": "every such host program", "why_tests_cant": "unbounded numbers of texts, rule sets, transactions and calls", "anchors": ["seclang/rule_set.go", "modsecurity/engine.go", "modsecurity/sec_rule.go:SecRuleSet.Process", "modsecurity/transaction.go:Transaction.ProcessPhase", "modsecurity/transaction.go:Transaction.Result"]}
{"id": "C92", "title": "Exactly when a call returns", "statement": "For a loaded text and any calls in any order: every call returns, within as many turns as there are chains in the text plus two, if the walk of the reference machine over the chains of each phase ends, where allow restarts a phase at its first chain and skip goes past the next; otherwise the call on whose phase the walk does not end never returns. In the first case the verdicts shown are those of the machine. No condition on the actions; rules may read bodies under the conditions of C88, or of C133 if the body is a multipart form.", "quantifier": "every such rule text and call history", "why_tests_cant": "non-termination cannot be observed by a test, and that no terminating walk is cut short or runs longer needs all texts", "anchors": ["modsecurity/transaction.go:Transaction.processPhase", "modsecurity/sec_rule.go:SecRuleSet.Process", "modsecurity/actions/allow.go", "modsecurity/actions/skip.go"]}
{"id": "C93", "title": "A loaded rule says what was written", "statement": "For a text that loads, the rules of the engine say of themselves (Name, Args, Value) what was written: the transformations in their order, the operator and its argument (a comparison without the white space around it), the actions that are not mere descriptions in their order, exactly the variables named, and the argument of each action without quotes; chain by chain, rule by rule. (False of the code in the last part: skip, deny, log and block forget their argument, so skip:2 is not known to have been written with a 2.)", "quantifier": "every rule text that loads", "why_tests_cant": "unbounded texts; every combination of parts", "anchors": ["seclang/sec_rule.go", "modsecurity/variables/count.go", "modsecurity/operators/compare.go", "modsecurity/actions/skip.go", "modsecurity/actions/status.go", "modsecurity/actions/allow.go"]}
{"id": "C94", "title": "Every verdict of a rule text, whatever the request", "statement": "As C92 with the body variables, without any condition on the calls: whatever is sent, in whatever chunks and phases, urlencoded or multipart, malformed or too large for memory, with disk writes failing at any point, every verdict (status, disruptive, log) is that of a reference machine that knows how much of the request body was accepted, where it is stored and what is there, and whether the form in it was read before and understood. Asking for a body that is no longer in memory refuses the request with 413 and fails the rule; a form that was not understood shows nothing when first read, and names of its values then panic. The calls return, panic, or never return exactly as the machine does. The order in which a rule asks for its variables is some order fixed when the text is loaded.", "quantifier": "every rule text that loads, every call history, all bodies, all disk faults", "why_tests_cant": "unbounded texts, bodies and histories; behaviour depends on which rule read the form first and on when the body was spilled", "anchors": ["seclang/rule_set.go", "modsecurity/sec_rule.go:SecRuleSet.Process", "modsecurity/sec_rule.go:SecRule.Match", "modsecurity/sec_rule.go:SecRule.Do", "modsecurity/transaction.go:Transaction.AppendRequestBody", "modsecurity/transaction.go:Transaction.ProcessPhase", "modsecurity/transaction.go:Transaction.AbortWithError", "modsecurity/buffer.go:buffer.Write", "modsecurity/buffer.go:buffer.String", "modsecurity/variables/request_body_parser.go", "modsecurity/variables/request_body.go"]}
{"id": "C95", "title": "Everything a host can do with rule texts and stock rules", "statement": "A host makes any number of engines, directive sets, rule sets and transactions, adds texts to directive sets (valid or not), executes them on engines as often as it likes, makes variables and rules in Go from the stock parts, changes them at any time and adds them to any number of rule sets, adds default actions, empties rule sets, changes modes and limits (also to negative values), points engines at other rule sets and at the limits of other engines, makes transactions on any engine with any rule set (or with nil), makes any calls on them with any bodies and disk faults, reads, seeks, writes and closes their bodies directly, assigns to their exported fields and looks at them, all interleaved: what it sees at every step (whether a text was accepted, the mode and limits of an engine, whether a transaction was made, every value a call returns except the number of Next, the bytes and errors of the bodies, the fields) is what a small reference shows, in which a directive set is what is written in the valid part of its texts, an engine has the value of the last directive or assignment, a rule set is the list of chains executed into it and of the rules added to it (under the phases they had then, otherwise as they are now), and a transaction is the machine of C94. A step panics or never returns exactly as in the reference: among others, a body chunk within the limit panics when the limit of what is held in memory was negative at creation.", "quantifier": "every host program", "why_tests_cant": "unbounded numbers of objects, texts and calls in every order; which object shares which state is invisible to tests of one engine", "anchors": ["seclang/rule_set.go", "modsecurity/engine.go", "modsecurity/sec_rule.go:SecRuleSet.Process", "modsecurity/transaction.go:NewTransaction", "modsecurity/transaction.go:Transaction.ProcessPhase", "modsecurity/transaction.go:Transaction.AppendRequestBody", "modsecurity/buffer.go:buffer.Write"]}
{"id": "C96", "title": "The line number tells the line", "statement": "After a scanner has read a text, to its end or up to an error, LineNumber is one more than the number of line breaks it has read. (False of the code: a bare newline that ends an unquoted argument is not counted, so after n lines such as 'SecRuleEngine On' the number is still 1. It never runs ahead; it is exact for texts without backslashes whose line breaks are CR LF or follow a blank or another line break.)", "quantifier": "every text in which CR occurs only before LF", "why_tests_cant": "unbounded texts", "anchors": ["seclang/parser/scanner.go:Scanner.readString", "seclang/parser/scanner.go:Scanner.incrementLineNumber", "seclang/parser/scanner.go:Scanner.ReadDirective"]}
{"id": "C97", "title": "A multipart body is read from beginning to end", "statement": "What ReadForm makes of a multipart body is what it makes of the bytes of the body in order. (False of the code: every Read starts at the beginning again, so a reader that asks for at most N bytes at a time, 4096 in mime/multipart, is given the first N bytes again and again. It holds if the first reply is enough. Consequently no verdict, return value or choice of rules depends on the bytes of a multipart body after the first N, whatever the rules: only their number counts.)", "quantifier": "every reading program, every body; for the consequence every rule set without host-written parts (every rule text), every call history, all chunks, disk faults other than a failed copy", "why_tests_cant": "compares two executions for all continuations of the body; unbounded bodies and histories", "anchors": ["modsecurity/variables/request_body_parser.go", "modsecurity/buffer.go:buffer.Read", "modsecurity/buffer.go:buffer.initRead"]}
{"id": "C98", "title": "Rules built in Go do what they say", "statement": "For rules a host builds in Go from the stock variables (with selectors and counts), transformations, operators and actions, with sub-rules and default actions: whatever calls it makes on a transaction, with rules and limits changing between calls, every verdict and returned value (except the number of Next) is that of a reference machine. In it a rejected selector counts for nothing, a variable counted twice shows 1, block does the default actions, pass clears the verdict and its log, the sub-rules of sub-rules count for nothing. A rule whose operator was rejected by its constructor panics on the first value; block among the default actions means that the first rule with block that fires never ends.", "quantifier": "every list of such rules and default actions, every call history", "why_tests_cant": "unbounded rules, strings and histories; non-termination", "anchors": ["modsecurity/sec_rule.go:SecRule.Do", "modsecurity/sec_rule.go:SecRuleSet.Process", "modsecurity/sec_rule.go:SecRuleSet.ExecuteDefaultActions", "modsecurity/actions/block.go", "modsecurity/actions/pass.go", "modsecurity/variables/count.go"]}
{"id": "C99", "title": "Rules are shared objects", "statement": "A rule added to a rule set is the same object as the one the host holds. Once it is added, assigning to its phase changes nothing the host can see, whatever it does afterwards, as long as it does not add the rule again. Everything else about a rule may as well be built after it was added: adding rules and then making or changing variables, rules, selectors, operators, actions or sub-rules leaves everything in the state in which doing it the other way round does. The numbers, phases and metadata of rules in a rule set, and everything below their sub-rules, are never read by any call on a transaction.", "quantifier": "every state of the host, every rule, every later program of the host", "why_tests_cant": "a relation between two runs of any length", "anchors": ["modsecurity/sec_rule.go:SecRuleSet.AddRules", "modsecurity/sec_rule.go:SecRule.Do", "modsecurity/sec_rule.go:SecRuleSet.Process", "modsecurity/variables/count.go"]}
{"id": "C100", "title": "Text that cannot be read to its end is refused", "statement": "A scanner made with NewSecLangScanner on a reader that fails (with an error other than io.EOF) before the end of the rule text does not return directives from AllDirective: it reports an error. Every sequence of calls of the scanner's methods gives the same answers on any reader as on the string of the bytes the reader gave before its first failure, and once ReadDirective has reported the end it does so for ever.", "quantifier": "every reader, every rule text, every place of the failure, every sequence of calls", "why_tests_cant": "the failure may come after any byte and the calls in any order", "anchors": ["seclang/parser/scanner.go:Scanner.advance", "seclang/parser/scanner.go:Scanner.next", "seclang/parser/scanner.go:Scanner.AllDirective", "seclang/parser/scanner.go:Scanner.ReadDirective"]}
{"id": "C101", "title": "StartsWith only looks", "statement": "StartsWith, when it answers false, changes nothing: every later call of any method of the scanner answers as if StartsWith had not been called. What it takes from the text is the longest run of characters that agrees with the beginning of its argument up to the case of letters.", "quantifier": "every text, every state of the scanner, every argument, every later sequence of calls", "why_tests_cant": "all texts, arguments and later calls", "anchors": ["seclang/parser/scanner.go:Scanner.StartsWith", "seclang/parser/scanner.go:Scanner.saveAndAdvance", "seclang/parser/scanner.go:Scanner.ReadWord"]}
{"id": "C102", "title": "New directives leave old texts alone", "statement": "A host that registers a directive with RegisterDir under a name that is not in use does not change what any text means that could be loaded before: it loads to the same directives. A word of a text reaches the factory that was registered last for the token that was registered last for the word (up to case). RegisterDire never replaces anything. A string directive registered under a new token arrives in the host's FromSecLang with exactly the quoted argument. FromSecLang of the package's own directives, called by a host with any directive, takes exactly those with its own token and of its own kind, and the two body switches then set their switch and nothing else.", "quantifier": "every text, every sequence of registrations, every factory and every FromSecLang of a host", "why_tests_cant": "all texts, registrations and host functions", "anchors": ["seclang/parser/seclang_token.go:RegisterDir", "seclang/parser/seclang_token.go:init", "seclang/rule_set.go:RegisterDire", "seclang/rule_set.go:direFactory", "seclang/rule_set.go:DireSet.AddSecLangString", "seclang/parser/seclang.go"]}
{"id": "C103", "title": "Execute is all or nothing", "statement": "If DireSet.Execute returns an error the engine is as it was before the call.", "quantifier": "every set of directives, those of the package and those of a host, every engine", "why_tests_cant": "all sets and all host directives", "anchors": ["seclang/rule_set.go:DireSet.Execute"]}
{"id": "C104", "title": "A registered directive can be used", "statement": "Every directive registered with RegisterDir under a non-empty name and a new token can be used in a rule text: there is a text whose first directive is read by its factory.", "quantifier": "every name, every token", "why_tests_cant": "all names and, for the names that fail, all texts", "anchors": ["seclang/parser/seclang_token.go:RegisterDir", "seclang/parser/scanner.go:Scanner.ReadDirective", "seclang/parser/scanner.go:Scanner.ReadWord"]}
{"id": "C105", "title": "A call sees one moment of the rules", "statement": "Rules are added to a rule set (by another goroutine) while transactions of it are being called, at any point between any two looks a call takes at the list of rules. Every call answers, and leaves its transaction, as if it had been made in one piece on the rules the set had at some moment between its beginning and its end; over the calls of a transaction these moments go forward. So no call evaluates half of what was there, or mixes an older list with a newer one.", "quantifier": "every rule set of stock parts (every rule text) and every host-written part that does not look at the cursor or the rule set, every list of rules added, every timing, every sequence of calls", "why_tests_cant": "all interleavings inside a call", "anchors": ["modsecurity/transaction.go:Transaction.processPhase", "modsecurity/sec_rule.go:SecRuleSet.Process", "modsecurity/transaction.go:Transaction.Next", "modsecurity/transaction.go:Transaction.JumpTo", "modsecurity/sec_rule.go:SecRuleSet.AddRules"]}
{"id": "C106", "title": "A call sees one moment of the whole engine", "statement": "As C105, when the host changes default actions and limits as well while calls are in progress. (False of the code: a phase with two block rules can have the first execute the default actions before an addition and the second those after it, and rules that read bodies can see access switched on half-way. It holds for rule sets in which no rule blocks, with rules that do not read bodies.)", "quantifier": "every rule set, every list of changes, every timing, every sequence of calls", "why_tests_cant": "all interleavings inside a call", "anchors": ["modsecurity/sec_rule.go:SecRuleSet.ExecuteDefaultActions", "modsecurity/sec_rule.go:SecRuleSet.AddDefaultActions", "modsecurity/actions/block.go", "modsecurity/variables/request_body.go", "modsecurity/variables/response_body.go"]}
{"id": "C107", "title": "Concurrent transactions are as if served in turn", "statement": "Any number of goroutines, each calling its own transaction of one rule set, while rules are added to the set: there is a program for one goroutine, with the same calls in the same order on each transaction and the same additions, in which every transaction gives the same answers and ends in the same state.", "quantifier": "any number of transactions, every sequence of calls on each, every list of rules added, every timing", "why_tests_cant": "all interleavings of any number of goroutines", "anchors": ["modsecurity/transaction.go:Transaction.ProcessPhase", "modsecurity/sec_rule.go:SecRuleSet.Process", "modsecurity/sec_rule.go:SecRuleSet.AddRules", "modsecurity/engine.go:Engine.AddSecRule"]}
{"id": "C108", "title": "A body declared as a form is inspected", "statement": "A request whose Content-Type names application/x-www-form-urlencoded (in any case, with any parameters after it), and whose body may be read and fits in memory, shows it to REQUEST_BODY. (False of the code: it ignores the error of mime.ParseMediaType, which gives an empty media type when a parameter name occurs twice. Then nothing of the body is shown, and no verdict of any rule text depends on it. The body is shown exactly if no parameter is repeated; a malformed parameter does no harm.)", "quantifier": "every Content-Type, every body, every rule text and every later sequence of calls", "why_tests_cant": "all headers with parameters, quoted strings and white space; all pairs of bodies", "anchors": ["modsecurity/variables/request_body.go:VariableRequestBody.Fetch", "modsecurity/variables/request_body_parser.go:requestBodyParse"]}
{"id": "C109", "title": "The boundary in the content type is the one used", "statement": "A request whose Content-Type names a multipart type and, among parameters with different names, a boundary, has its body taken apart at that boundary. (False of the code: if something that is no parameter follows, such as a name without a value, the boundary is dropped and the body is taken apart at an empty one. It holds if only white space, or a semicolon, follows the parameters.)", "quantifier": "every Content-Type and every body", "why_tests_cant": "all headers", "anchors": ["modsecurity/variables/request_body_parser.go:requestBodyParse"]}
{"id": "C110", "title": "RESPONSE_CONTENT_TYPE is the media type", "statement": "RESPONSE_CONTENT_TYPE shows the media type the response declares, in lower case, without its parameters. (False of the code: with a repeated parameter it is empty. Otherwise it holds.)", "quantifier": "every Content-Type", "why_tests_cant": "all headers", "anchors": ["modsecurity/variables/response_content_type.go:VariableResponseContentType.Fetch", "modsecurity/variables/response_content_type.go"]}
{"id": "C111", "title": "What is handed over has been handed over", "statement": "It makes no difference whether a host hands its header maps and URLs to ProcessRequestHeader, ProcessResponseHeaders and ProcessRequestURL and goes on using and changing them, or hands over copies: every call on every transaction answers the same. (False of the code: it keeps the references, so a proxy that removes Content-Type from the map it will forward, after ProcessRequestHeader and before ProcessRequestBody, has switched off the inspection of the body. It holds for hosts that change nothing they have handed over; a change has the effect of telling the transactions that refer to the object again.)", "quantifier": "every host program with any number of transactions, objects and calls, every rule set whose parts do not rewrite what was told", "why_tests_cant": "unbounded programs; which object is shared with which transaction is invisible to tests that build each request anew", "anchors": ["modsecurity/transaction.go:Transaction.ProcessRequestHeader", "modsecurity/transaction.go:Transaction.ProcessRequestURL", "modsecurity/transaction.go:Transaction.ProcessResponseHeaders"]}
{"id": "C112", "title": "More rules never let more through", "statement": "Adding rules that neither skip nor allow to a rule text never lets through what was refused: whatever the calls, each verdict that is disruptive with the shorter text is disruptive with the longer. (False of the code in two ways: skip counts rules, so a rule inserted after one that skips moves the refusing rule into its reach; and a malformed form is parsed once, so an added rule that reads it first leaves a later rule with arguments where it saw none. It holds for texts whose old rules do not skip, allow everything if they allow, and which read no body, or bodies within memory and forms, urlencoded or multipart, that are well-formed and settled before they are read.)", "quantifier": "every pair of rule texts one of which has more rules, every library, iteration order and sequence of calls", "why_tests_cant": "unbounded texts and histories; the added rule may be anywhere and do no more than log", "anchors": ["modsecurity/actions/skip.go", "modsecurity/actions/allow.go", "modsecurity/transaction.go:Transaction.processPhase", "seclang/rules.go"]}
{"id": "C113", "title": "Chunk boundaries make no difference", "statement": "Whatever chunks a request or response body arrives in through AppendRequestBody and AppendResponseBody, every other call answers the same and the same rules are evaluated. (False of the code beyond the body limits: a chunk that would exceed the limit is refused whole, so the same bytes in smaller chunks are inspected up to the limit; and with less memory than the form reader asks for, since the beginning of the chunk that overflows it is stored twice. It holds for bodies within memory, and for bodies in temporary files as long as they are within the limit and as many bytes are kept in memory as ReadForm asks for at a time: 4096, where the default is 131072.)", "quantifier": "every history of calls, every two ways of cutting the bodies into chunks, every rule set, without I/O errors", "why_tests_cant": "unbounded numbers and sizes of chunks; tests send a body in one chunk", "anchors": ["modsecurity/buffer.go:buffer.Write", "modsecurity/transaction.go:Transaction.AppendRequestBody", "modsecurity/transaction.go:Transaction.AppendResponseBody", "modsecurity/variables/request_body_parser.go"]}
{"id": "C114", "title": "What no rule reads makes no difference", "statement": "Let a host tell a transaction other things: another destination address, URL, method, protocol, request headers, status, response protocol or response headers, such that at every point each variable that occurs in a rule finds the same (for collections: the same kept values, or names, in any order). Then every call answers the same and the same rules are evaluated. In particular no rule depends on the address the client connected to, a header that no selector keeps may be added, changed or left out, and the order and percent-encoding of query arguments do not matter to rules that read neither QUERY_STRING nor REQUEST_URI.", "quantifier": "every rule set without host-written parts, hence every rule text that loads; every two histories of calls of the same kinds; every library and iteration order", "why_tests_cant": "two executions are compared, over unbounded histories and all contents of what is not read", "anchors": ["modsecurity/transaction.go:Transaction.ProcessConnection", "modsecurity/transaction.go:Transaction.ProcessRequestURL", "modsecurity/transaction.go:Transaction.ProcessRequestHeader", "modsecurity/transaction.go:Transaction.ProcessResponseHeaders", "modsecurity/variables/filter.go"]}
{"id": "C115", "title": "Order and repetition of rules do not matter", "statement": "Two rule texts with the same switches and the same chains of rules, in any order and any number of times, none of which skips or allows, refuse the same: whatever the host calls, each verdict shown is disruptive with both or with none. (False of the code: the first rule to read a malformed form sees nothing in it, later ones what could be read, so a rule that counts its arguments depends on whether another comes first. It holds for texts that read no body, and with bodies within memory and forms, urlencoded or multipart, that are well-formed and settled before they are read. The status may still depend on the order.)", "quantifier": "every two texts, every history of calls", "why_tests_cant": "sets of rules of any size in any permutation, compared over unbounded histories", "anchors": ["modsecurity/sec_rule.go:SecRuleSet.Process", "modsecurity/sec_rule.go:SecRuleSet.AddRules", "modsecurity/variables/request_body_parser.go"]}
{"id": "C116", "title": "A rule over several variables is several rules", "statement": "In a rule text without skip and allow, a rule whose variables are divided between two rules, otherwise the same and in the same chain, makes no difference to what is refused. (False of the code, as of the rule language: an exclusion such as !REQUEST_HEADERS:Referer applies to the variables of the same rule only. It holds if a variable that occurs in both parts is not counted, and both pick from it by name only or by pattern only, without exclusions, as in ARGS:a|ARGS:b; under the same conditions on bodies as C115.)", "quantifier": "every text, every division of any number of its rules, every history of calls", "why_tests_cant": "all divisions of all rules, compared over unbounded histories", "anchors": ["seclang/variable.go:DireRule.applyVariables", "modsecurity/sec_rule.go:SecRule.FetchAllTransformedVariables", "modsecurity/variables/filter.go"]}
{"id": "C117", "title": "Two texts are like one", "statement": "Loading two rule texts one after the other with AddSecLangString is like loading one text in which the second follows the first on a new line: the same set results, and if the second cannot be loaded for what it says, the same error and the same set. (False of the code, if the first text ends in an open chain and the second has rules: in one text they are added to the chain, in two they are not, and the chain stays as it is. Also if the first ends in a backslash and a carriage return, which the line feed turns into a continued line. Otherwise it holds.)", "quantifier": "every two texts that parse, every set they are loaded into", "why_tests_cant": "texts of any form and length", "anchors": ["seclang/rule_set.go:DireSet.AddSecLangString", "seclang/parser/scanner.go"]}
{"id": "C118", "title": "A transaction that could be made keeps its bodies", "statement": "If NewTransaction returns a transaction, chunks appended to its request body are all accepted as long as the whole stays within the limit, if the operating system does its part. (False of the code: makeBufferDir only asks whether there is something at TmpPath. With a file there, or a directory the process may not write to, transactions are made, but every body that does not fit in memory is refused. Proved: exactly when a transaction is made, and exactly which bodies it keeps; response bodies are always kept.)", "quantifier": "every disk, every path, every limits, every list of chunks", "why_tests_cant": "all disks and bodies", "anchors": ["modsecurity/buffer.go:makeBufferDir", "modsecurity/buffer.go:newBuffer", "modsecurity/transaction.go:NewTransaction"]}
{"id": "C119", "title": "A failed NewTransaction leaves nothing behind", "statement": "If NewTransaction returns an error, the disk is as it was. (False of the code: the directories above a name that the file system refuses are made and stay. Proved: exactly when.)", "quantifier": "every disk, every engine, nil or not", "why_tests_cant": "all disks and paths of any length", "anchors": ["modsecurity/buffer.go:makeBufferDir", "modsecurity/transaction.go:NewTransaction"]}
{"id": "C120", "title": "A rule in other words is the same rule", "statement": "Replace rules of a text by rules with the same variables, phase and chaining and the same actions (but for those that only describe), whose test every value passes or fails in both: both texts load, leave every engine with the same switches, and every sequence of calls on a transaction has the same results, log lines, panics, endless loops and evaluated rules. So a comparison may be written as the negation of the opposite one, @gt n as @ge n+1, t:none anywhere, a transformation that removes, replaces or compresses characters twice, and number, tags, messages, revision and version at will. The same holds of rule sets built in Go with any variables, transformations, operators and actions.", "quantifier": "every two such texts, every engine they are executed on, every history of calls, all bodies and disk faults", "why_tests_cant": "compares two executions over unbounded texts and histories; the tests agree on infinitely many values", "anchors": ["modsecurity/sec_rule.go:SecRule.Match", "modsecurity/sec_rule.go:SecRule.TransformString", "modsecurity/operators/compare.go", "seclang/sec_rule.go", "seclang/operators.go", "seclang/trans.go"]}
{"id": "C121", "title": "A chain may ask its questions in any order", "statement": "If two texts have the same switches, and the chains of one are those of the other with the tests (variables, operator, transformations) in another order, phases and actions staying where they are, both show the same verdicts, with status and log. (False of the code: a malformed form shows nothing when it is first read, so a chain can hold if the test that finds nothing comes first, and not otherwise. It holds for texts that read no body, and with bodies within memory and forms, urlencoded or multipart, that are well-formed and settled before they are read, if no chain of a response phase has allow:request.)", "quantifier": "every two such texts, every history of calls", "why_tests_cant": "all permutations of chains of any length, compared over unbounded histories", "anchors": ["modsecurity/sec_rule.go:SecRule.Do", "modsecurity/sec_rule.go:SecRule.Match", "modsecurity/variables/request_body_parser.go"]}
{"id": "C122", "title": "A disguise that is taken off makes no difference", "statement": "Let a host tell a transaction other things, such that at every point what each rule reads looks the same through the transformations of that rule (bodies and the way they are read being the same). Then every call answers the same and the same rules are evaluated. In particular the values of a request header, or of the arguments of a query, may differ in the way some transformation of every rule that reads them takes away, in what the ones before it made of them: letter case for t:lowercase (in any bytes, not only in ASCII text), percent-encoding for t:urlDecode and t:urlDecodeUni, spaces and NULs for the others. The order of the transformations matters: t:lowercase,t:urlDecode does not see through %41 for a; and a space within a UTF-8 character is not undone by t:removeWhitespace.", "quantifier": "every rule set without host-written parts, hence every rule text that loads; every two histories of calls of the same kinds; every library and iteration order", "why_tests_cant": "two executions are compared, over unbounded histories and all disguises", "anchors": ["modsecurity/sec_rule.go:SecRule.TransformString", "modsecurity/sec_rule.go:SecRule.FetchAllTransformedVariables", "modsecurity/transforms/lowercase.go", "modsecurity/transforms/urldecode.go", "modsecurity/transforms/map_rune.go", "modsecurity/transforms/compress_whitespace.go"]}
{"id": "C123", "title": "The fields of a multipart form are shown", "statement": "ARGS_POST and ARGS_POST_NAMES, with any selector, show the fields of a multipart/form-data body of at most 4096 bytes: the parts with a name and no file name, in whatever order and spelling of their header lines, each with its content. (False of the code: if nothing follows the last delimiter, not even an end of line, which RFC 2046 allows, none of the fields is shown: the reader looks for the end of the line, is given the beginning of the body again, and fails. The next time the names of the arguments are asked for, the program panics. The claim holds if the line of the last delimiter is ended. Then rules see what they would see of the same fields as application/x-www-form-urlencoded.)", "quantifier": "every form, every boundary, every selector", "why_tests_cant": "all parts, header lines and contents; the body of the tests ends in a line end", "anchors": ["modsecurity/variables/request_body_parser.go", "modsecurity/variables/args_posts.go", "modsecurity/variables/args_post_names.go", "modsecurity/buffer.go:buffer.Read", "modsecurity/buffer.go:buffer.initRead"]}
{"id": "C124", "title": "Looking at the fields of a request returns", "statement": "ARGS, ARGS_POST, their names and their counts return, whatever body was received. (False of the code: the form reader is given the beginning of the body again and again, so it never finds the end of a part in the middle of which the first 4096 bytes, or the whole body if it is shorter, end. If neither that part nor any other but the first is a field with a value, it looks for ever: twelve bytes, '--foo CRLF CRLF x', are enough to keep ProcessRequestBody busy for good. It returns if there is no body to be read, if it is no multipart body, if it was parsed before, or if the form ends within 4096 bytes.)", "quantifier": "every body, every Content-Type, every such variable, every rule set whose first rule reads one", "why_tests_cant": "non-termination; all bodies", "anchors": ["modsecurity/variables/request_body_parser.go", "modsecurity/buffer.go:buffer.Read", "modsecurity/buffer.go:buffer.initRead", "modsecurity/variables/args_posts.go"]}
{"id": "C125", "title": "A form within the limits is not refused", "statement": "A complete multipart form of which the limits allow what is in it, is not refused for its size. (False of the code: if the first 4096 bytes end in the middle of a field, or of another part after a field with a value that is not the first, the reader gets these bytes again until it has counted more than 10 MB over the memory limit, and the request is refused with status 413, whatever the rule looked for. A field of five thousand letters is enough. It holds for forms that end within 4096 bytes.)", "quantifier": "every form, every boundary, every such variable, every rule set whose first rule reads one", "why_tests_cant": "all forms; the reader's rounds are counted up to limits of any size", "anchors": ["modsecurity/variables/request_body_parser.go", "modsecurity/buffer.go:buffer.Read", "modsecurity/buffer.go:buffer.initRead", "modsecurity/transaction.go:Transaction.AbortWithError"]}
{"id": "C126", "title": "A request cannot flood the log", "statement": "With rules that do not jump back (from a text: without allow:request), the actions of the library and no block among the default actions, the log of a verdict never has more lines than the host wrote, plus the number of lines all rules have (one for each deny and log, and for each block those of the default actions), plus, only if the transaction was aborted while a body was read, one for each variable of the rule that read it; whatever the request holds and however often and in whatever order the host calls. If the transaction is not aborted, the bound (without the last summand) holds for all verdicts that Result handed out taken together. (A rule with allow:request in the phase of the response body does jump back; then the log grows with each call.)", "quantifier": "every such rule set, every rule text without allow:request, every call history, every request", "why_tests_cant": "all requests and unbounded histories", "anchors": ["modsecurity/transaction.go:Transaction.Logf", "modsecurity/actions/log.go", "modsecurity/actions/deny.go", "modsecurity/sec_rule.go:SecRule.Do", "modsecurity/transaction.go:Transaction.Result"]}
{"id": "C127", "title": "Nothing of the request gets into the log but the client's address", "statement": "Every line of every verdict's log has the form '[client ADDRESS:PORT] (phase N) MESSAGE', with an address and port that ProcessConnection was told (or none), a decimal number, and a message that the host wrote or one of four of the library, in which only numbers of phases and rules vary. So a client cannot forge lines of the log with anything it sends, be it in the URI, in headers, or in bodies.", "quantifier": "every rule set of the library's actions, every rule text, every call history, every request", "why_tests_cant": "all requests and unbounded histories", "anchors": ["modsecurity/transaction.go:Transaction.Logf", "modsecurity/actions/log.go", "modsecurity/actions/deny.go", "modsecurity/transaction.go:Transaction.AbortWithError"]}
{"id": "C128", "title": "Transformations never make more than three bytes of one", "statement": "However many transformations a rule names, and whatever bytes a value has, the value that its operator is given has at most three times as many bytes as the value had: a byte that is no text becomes a mark of three bytes once, and no further transformation makes more of it. (Four times, if the library's lower case turned a letter of up to three bytes into one of four, which Go's does not.) There are values of every length for which the factor three is reached.", "quantifier": "every list of the library's transformations, every value of any length, every loaded rule text", "why_tests_cant": "all byte strings and unbounded lists of transformations", "anchors": ["modsecurity/transforms/map_rune.go", "modsecurity/transforms/lowercase.go", "modsecurity/transforms/urldecode.go", "modsecurity/transforms/urldecode_uni.go", "modsecurity/sec_rule.go:SecRule.TransformString", "utils/urlencode.go"]}
{"id": "C129", "title": "What a rule compares is bounded by what was sent", "statement": "After any history of calls, for any rule evaluated during the next call, the number of values its operator is given plus all their bytes is at most four times the sum over its variables of what each may show: the bytes and the number of the values told for it (query, header values, names, cookie lines, body bytes sent and so on), whatever the rules before it did and whatever earlier calls cached. So a client cannot make a rule compare much more than it sent. For multipart forms the bound is the size of the form that was read.", "quantifier": "every rule set of the library's actions, every rule text, every call history, every state in which a rule is evaluated", "why_tests_cant": "unbounded histories and requests of any size", "anchors": ["modsecurity/sec_rule.go:SecRule.FetchAllTransformedVariables", "modsecurity/sec_rule.go:SecRule.TransformVariable", "modsecurity/variables/", "modsecurity/buffer.go:buffer.Write"]}
{"id": "C130", "title": "The default limits are those documented", "statement": "A transaction of an engine whose limits nobody changed accepts chunks of bodies exactly as long as the whole is within the limits that the comments of NewDefaultLimits state: 1gb for requests, 512kb for responses; and urlencoded request bodies are inspected up to 128kb. (False of the code: it has 134217728, which is 128 MB, and 524228, which is 60 bytes less than 512 kB. Proved: exactly which chunks are accepted. The limit for inspection is as stated.)", "quantifier": "every host program, every sequence of calls on the transaction and every body, with rules that leave bodies alone", "why_tests_cant": "bodies of all sizes in all chunks; tests use small limits", "anchors": ["modsecurity/engine.go:NewDefaultLimits", "modsecurity/engine.go:NewEngine", "modsecurity/buffer.go:buffer.Write"]}
{"id": "C131", "title": "Whole numbers do not wrap around", "statement": "As long as less than 2^63 bytes are appended to a transaction, no sequence of calls, with any numbers that fit in 64 bits, gives another result on 64-bit integers than on unbounded ones: lengths of bodies, limits, positions among the rules and phases are never wrong by overflow. For rules from a text nothing is asked of them.", "quantifier": "every rule set, every sequence of calls with all their arguments, all limits", "why_tests_cant": "numbers near the ends of their range cannot be reached by tests that append bytes", "anchors": ["modsecurity/buffer.go:buffer.Write", "modsecurity/transaction.go:Next", "modsecurity/transaction.go:NextPhase", "modsecurity/transaction.go:JumpTo", "modsecurity/actions/skip.go:Do"]}
{"id": "C132", "title": "What is sent as a file is inspected", "statement": "The content of every named part of a multipart form that fits in memory is shown by ARGS_POST, whether the part is a field or a file. (False of the code: a part with a file name, which any client may add, is shown by no variable. Proved: exactly the fields are shown, and no rule set of the library's parts can tell two forms with the same fields apart, whatever files they hold.)", "quantifier": "every form, every rule set and every sequence of later calls", "why_tests_cant": "all pairs of forms and all rule sets", "anchors": ["modsecurity/variables/request_body_parser.go:requestBodyParse", "modsecurity/variables/args_posts.go:VariableArgsPost.Fetch"]}
{"id": "C133", "title": "The verdict on a multipart form", "statement": "As C88 and C84 when the request body is a multipart form: load any rule text and make any calls in any order; if from the phase on in which rules first read arguments no chunk is added, the request declares a boundary, and the body is a form whose last delimiter line is ended within its first 4096 bytes, then every verdict is that of the reference machine in which the arguments are the names and values of the fields of the form, in whatever pieces it was sent, whatever the other parts hold. In particular, for rules that deny, log, block or describe, the request is denied exactly if the conditions of a chain with deny held of what was told, the bodies and the fields.", "quantifier": "every rule text of that form, every call history of that form, every such form", "why_tests_cant": "unbounded texts, forms, pieces and histories", "anchors": ["seclang/rule_set.go", "modsecurity/variables/request_body_parser.go:requestBodyParse", "modsecurity/variables/args_posts.go:VariableArgsPost.Fetch", "modsecurity/sec_rule.go:SecRuleSet.Process", "modsecurity/transaction.go:Transaction.AppendRequestBody", "modsecurity/transaction.go:Transaction.ProcessPhase"]}
{"id": "C134", "title": "The encoding of a form makes no difference", "statement": "Take any rule text none of whose rules looks at request headers, cookies or the raw bytes of the request body, and two histories of calls that are the same but for the request headers and the chunks of the request body. If by the phase in which rules first read arguments the body is a form with the same fields in the same order, urlencoded in one history and multipart (its last delimiter line ended within the first 4096 bytes) in the other, then both histories return and show the same verdicts: status, whether disruptive, and log lines.", "quantifier": "every such rule text, every pair of such histories, all fields, all ways to cut the bodies into chunks", "why_tests_cant": "compares two executions for all forms, texts and histories", "anchors": ["modsecurity/variables/request_body_parser.go:requestBodyParse", "modsecurity/variables/args_posts.go:VariableArgsPost.Fetch", "modsecurity/variables/args.go:Fetch", "seclang/rule_set.go", "modsecurity/sec_rule.go:SecRuleSet.Process"]}
{"id": "C135", "title": "What Bytes returned stays what it was", "statement": "A slice that a host got from Bytes of a body (t.Request.Body.Bytes(), t.Response.Body.Bytes()) holds what it held then, whatever is appended, read, sought or closed later, with whatever I/O errors.", "quantifier": "every sequence of calls before and after, every chunk, every limit, every growth policy of bytes.Buffer, every I/O error", "why_tests_cant": "unbounded sequences; whether the backing array is shared depends on its capacity", "anchors": ["modsecurity/buffer.go:buffer.Bytes", "modsecurity/buffer.go:buffer.Write", "modsecurity/buffer.go:buffer.WriteTo", "modsecurity/buffer.go:buffer.Len"]}
{"id": "C136", "title": "What a host does with returned bytes stays with the host", "statement": "A host may assign to the slices it got from Bytes; the body answers every call, and so shows rules, what it would if it shared nothing with them. (False of the code: Bytes returns the buffer's own slice, and an assignment changes the body that rules are shown. It holds for hosts that do not assign; otherwise lengths, errors, positions and all bytes beyond the longest slice returned are as they should be, and a slice whose array the body has outgrown is the host's own.)", "quantifier": "every program of calls and assignments, every limit, every growth policy of bytes.Buffer, every I/O error", "why_tests_cant": "unbounded programs; whether the backing array is still shared depends on its capacity", "anchors": ["modsecurity/buffer.go:buffer.Bytes", "modsecurity/buffer.go:buffer.String", "modsecurity/buffer.go:buffer.Read", "modsecurity/buffer.go:buffer.Write"]}
{"id": "C137", "title": "Exclusions only let more through", "statement": "Putting exclusions such as !REQUEST_HEADERS:Referer into the rules of a text, none of which skips or allows, never makes it refuse more: whatever the calls, each verdict that is disruptive with the exclusions is disruptive without. (False of the code: the exclusion of a variable that the rule does not list, or only counts, adds the other values of that variable to what the rule compares, so that a rule on the method refuses for what is in a header. It holds for exclusions of variables that the rule lists, not counted; under the same conditions on bodies as C115.)", "quantifier": "every text, any number of exclusions at any places in any rules, every history of calls", "why_tests_cant": "all texts and exclusions, compared over all histories", "anchors": ["seclang/variable.go:applyVariables", "modsecurity/variables/filter.go", "modsecurity/sec_rule.go:SecRule.Match"]}
{"id": "C138", "title": "Of a rule and its negation one refuses", "statement": "Of two texts with one rule, which denies, that differ in its ! only, exactly one refuses, whatever the calls that process the phase of the rule. (False of the code, which asks whether some value does not match, not whether no value does: with several values both can refuse, with none neither does. Proved: at least one refuses exactly if there is a value to compare, both do exactly if there are one that meets the operator and one that does not; so the claim holds for rules with one value. With the same conditions on bodies as C84 and C133.)", "quantifier": "every rule with its text, every history of calls", "why_tests_cant": "all operators, variables and requests", "anchors": ["modsecurity/sec_rule.go:SecRule.Match", "seclang/operators.go:applyOperator"]}
{"id": "C139", "title": "A text that asks more refuses no more", "statement": "If for every chain of a text that denies there is a chain of another text, of the same phase, that denies and asks only questions that the first asks as well, or weaker ones (the same variables, a test that passes whatever the other passes: say a lower threshold), then what the second text lets through is let through by the first: rules can be taken out, extended to chains and made stricter without new refusals. (Rules that skip or allow are excluded. False of the code for malformed forms, which show nothing when they are first read and what could be read of them afterwards, so that a question put before another can change its answer. Proved for rules that read no body, for bodies of up to 131072 bytes as in C115, and for multipart forms as in C133.)", "quantifier": "every pair of texts, every library and iteration order, every history of calls", "why_tests_cant": "all texts, operators, variables and requests", "anchors": ["modsecurity/sec_rule.go:SecRule.Match", "modsecurity/sec_rule.go:SecRule.Do", "seclang/operators.go:applyOperator"]}
{"id": "C140", "title": "Exceptions refuse no more", "statement": "Adding rules to a text that neither deny nor skip - exceptions that allow, or rules that log - never makes it refuse more: whatever the calls, each verdict that is disruptive with the longer text is disruptive with the shorter. (False of the code: a phase that begins with a refusal not yet looked at ends after its first rule, so a rule put before one that allows can keep it from being reached; rules that skip count the new ones; and allow:phase before allow allows less. Proved: if the old rules neither skip nor allow, whatever the new ones allow; and if the old ones do not skip and the new ones allow everything or nothing, for all verdicts up to the first refusal. For rules that read no body, bodies as in C115 and forms as in C133.)", "quantifier": "every pair of texts, every library and iteration order, every history of calls", "why_tests_cant": "all texts and places for the new rules", "anchors": ["modsecurity/transaction.go:Transaction.processPhase", "modsecurity/actions/allow.go", "modsecurity/sec_rule.go:SecRule.Do"]}
{"id": "C141", "title": "A refusal has the status of a rule that refuses", "statement": "Whatever the calls, a verdict that lets through has the status 200, and one that refuses has the status of a rule of the text that denies - the last status it names, or 403 if it names none between 100 and 599 - or 413 for a body that could not be looked at, or the status with which the host aborted. (False of the code: the status named by a rule that does not deny, or by one whose verdict was taken long ago, stays and is used by the next that denies. Proved: the claim if every rule that denies names a status, or none does; and in general that the status is 403 or written in the text, between 100 and 599, and that only texts with deny refuse.)", "quantifier": "every text that loads, every library and iteration order, every history of calls", "why_tests_cant": "all histories: the status may come from a rule of an earlier phase", "anchors": ["modsecurity/actions/deny.go", "modsecurity/actions/status.go", "modsecurity/transaction.go:Transaction.Result"]}
{"id": "C142", "title": "Padding hides nothing", "statement": "What a text refuses it still refuses when headers, cookies or arguments in the query are added to the exchange, if its rules do not skip, allow, count, or look at the query or the Content-Type as a whole: whatever the calls, each verdict that is disruptive for the shorter exchange is disruptive for the longer, whether rules are negated or not. (False of the code with bodies: a second Content-Type put before the first hides the body. Proved: for rules that read no body; and with bodies of up to 131072 bytes, if the first Content-Type stays and the form is settled and well-formed when it is read.)", "quantifier": "every text that loads, every library and iteration order, every pair of histories of calls of which the second says at least as much", "why_tests_cant": "all requests and all that may be added to them, in all places", "anchors": ["modsecurity/variables/request_headers.go", "modsecurity/variables/request_cookies.go", "modsecurity/variables/args_gets.go", "modsecurity/variables/filter.go", "modsecurity/variables/request_body.go", "modsecurity/transaction.go:Transaction.ProcessRequestHeader"]}
{"id": "C143", "title": "A text refuses what one of its parts refuses", "statement": "Divide the rules of a text, none of which skips or allows, into two texts with the same switches, in any way that keeps chains together. Whatever the calls, a verdict of the text is disruptive exactly if the verdict of one of the two is. (False of the code for malformed forms, which show nothing when they are first looked at. Proved: for rules that read no body; with bodies of up to 131072 bytes, if the form is settled and well-formed when it is read; and for multipart forms as in C133.)", "quantifier": "every text and every division of its rules, every library and iteration order, every history of calls", "why_tests_cant": "all texts and all ways to divide them, all requests", "anchors": ["modsecurity/transaction.go:Transaction.processPhase", "modsecurity/sec_rule.go:SecRule.Do", "modsecurity/sec_rule.go:SecRuleSet.Process", "modsecurity/variables/request_body_parser.go:requestBodyParse"]}
{"id": "C144", "title": "A rule with alternatives is two rules", "statement": "Let a value pass the test of a rule exactly if it passes one of two other tests, as with @ge n against @gt n and @eq n, @le n against @lt n and @eq n, !@eq n against @lt n and @gt n, or a pattern that matches what one of two patterns matches. In a text none of whose rules skips or allows, the rule, or the chain it is in, can be replaced by two, each with one of the tests, and numbers of their own. Whatever the calls, the verdicts show the same refusals. (False of the code for malformed forms, which show nothing when they are first looked at: two rules look twice. Proved: for rules that read no body; with bodies of up to 131072 bytes, if the form is settled and well-formed when it is read; and for multipart forms as in C133.)", "quantifier": "every text, any number of its chains replaced, every library and iteration order, every history of calls", "why_tests_cant": "all texts, all tests with alternatives, all requests", "anchors": ["modsecurity/transaction.go:Transaction.processPhase", "modsecurity/sec_rule.go:SecRule.Do", "modsecurity/operators/compare.go:OperatorCompare.Match", "modsecurity/operators/rx.go:OperatorRx.Match"]}
{"id": "C145", "title": "A rule about the request may run later", "statement": "Move rules of a text about the connection, the request line or the request headers to another phase, in a text whose rules deny, log, block or describe. Take any calls that neither move the cursor nor abort nor read the verdict, in which both the old and the new phase are processed and nothing is told of the request between these two. The verdict shown at the end is the same, disruptive or not, with the same status. This holds for rules that read no body, with bodies of up to 131072 bytes if the form is settled and well-formed when rules read it, and for multipart forms as in C133.", "quantifier": "every text, any number of rules moved, forward or backward and put in any order, every library and iteration order, every history of such calls", "why_tests_cant": "all texts, all moves, all requests", "anchors": ["modsecurity/transaction.go:Transaction.processPhase", "modsecurity/transaction.go:Transaction.ProcessRequestHeader", "modsecurity/transaction.go:Transaction.ProcessRequestBody", "modsecurity/sec_rule.go:SecRule.Do", "modsecurity/sec_rule.go:SecRuleSet.Process"]}
{"id": "C146", "title": "The order of headers, cookies and arguments makes no difference", "statement": "Take two histories of calls that say the same but for the order: of the request headers (names and the values of a name, so also of Cookie lines, the first Content-Type staying first), of the arguments in the query, of the response headers. Under any text whose rules do not look at the query or URI as a whole or at the first response Content-Type or Content-Length, the host is shown the same verdicts, log lines included; rules may count, skip and allow. This holds for rules that read no body, with bodies of up to 131072 bytes if the form is settled and well-formed when rules read it, and for multipart forms as in C133. Likewise for the fields of an urlencoded form in the body and for the parts of a multipart form, whatever its boundary and its parts that are no fields, under texts that look at no request header, cookie or the bytes of the body. Queries with the same arguments in another order are an instance. The order does count for QUERY_STRING, and for which Content-Type comes first.", "quantifier": "every text, every two histories of calls that differ in order, map iteration order, number of rounds", "why_tests_cant": "Reordering needs all permutations of all headers, lines and arguments under all texts; tests send one order.", "anchors": ["modsecurity/variables/request_headers.go", "modsecurity/variables/request_cookies.go", "modsecurity/variables/args_gets.go", "modsecurity/variables/args_posts.go", "modsecurity/variables/filter.go", "modsecurity/transaction.go:Transaction.ProcessRequestHeader"]}
{"id": "C147", "title": "What is missing is seen by counting only", "statement": "Take a text in which each chain has a rule that counts nothing and looks at headers, cookies, arguments or bodies only, and calls that send nothing of what these rules select. The host is shown the verdicts it is shown under a text without rules, log lines included, whatever the tests are and however they are negated: a negated test does not match what is not there. This holds for rules that read no body, and with bodies of up to 131072 bytes if the form is settled and well-formed when rules read it, whatever other fields the form has, and for multipart forms as in C133. A count (&) does see what is missing.", "quantifier": "every text, every selection by name or regular expression, every history of calls that sends nothing selected, map iteration order, number of rounds", "why_tests_cant": "all tests and negations on all requests that lack something; tests look at one missing header", "anchors": ["modsecurity/sec_rule.go:SecRule.Match", "modsecurity/variables/filter.go", "modsecurity/variables/count.go", "modsecurity/variables/request_headers.go", "modsecurity/variables/args.go", "modsecurity/variables/request_cookies.go"]}
{"id": "C148", "title": "A test that everything passes asks whether there is anything", "statement": "Two texts are directive by directive the same, but that in one of them rules on one variable with a test that every value passes (a pattern that matches everything, the comparison @ge with the smallest number) are replaced by rules that count this variable, with the same selectors, and refuse the count 0 only. Phase, chaining and actions are the same. Then both texts load, leave every engine with the same switches, and every sequence of calls on a transaction has the same results, log lines, panics, endless loops and evaluated rules, also with large bodies, malformed forms and failing temporary files.", "quantifier": "every two such texts, every engine they are executed on, every history of calls, all bodies and disk faults", "why_tests_cant": "compares two executions over unbounded texts and histories; all values of the variable have to pass the test", "anchors": ["modsecurity/sec_rule.go:SecRule.Match", "modsecurity/variables/count.go", "modsecurity/variables/filter.go", "seclang/variable.go", "seclang/sec_rule.go"]}
{"id": "C149", "title": "Rules that add nothing can be left out", "statement": "From a text without skip and allow, chains are left out that do not deny, or have a test that no value passes, or are covered: a chain that stays denies in the same phase and each of its questions is asked by the chain left out, of the same variables and with a test at least as strict. Both texts then refuse the same requests. This holds for rules that read no body, and with bodies of up to 131072 bytes if the form is settled and well-formed when rules read it, and for multipart forms as in C133. It fails for malformed forms: a rule that never matches still looks at the form, and the next look shows more.", "quantifier": "every two such texts, every history of calls, map iteration order, number of rounds", "why_tests_cant": "compares two executions over unbounded texts and histories; what a rule adds depends on all requests", "anchors": ["modsecurity/sec_rule.go:SecRule.Match", "modsecurity/operators/compare.go", "modsecurity/variables/args_posts.go", "modsecurity/variables/count.go", "seclang/sec_rule.go"]}
