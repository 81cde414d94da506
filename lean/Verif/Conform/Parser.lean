import Verif.Model.Parser
/-!
The repository's own parser tests (seclang/parser/scanner_test.go and
rule_test.go), run on the model.  Tests of the model, not proofs of properties.
-/
namespace Verif.Conform

/-- The value a scanner method returns. -/
def value {α : Type} : SR α → Option α
  | .ok (_, .ok a) => some a
  | _ => none

/-- Constructors of Go's struct literals, for brevity. -/
def act (tk : ActTok) (arg : Bytes := []) : PAct := { tk, arg }
def var (tk : VarTok) (index : Bytes := []) (exclusion : Bool := false) : PVar := { tk, index, exclusion }

/-! scanner_test.go:18-40 `TestReadString` -/
example : value (newScanner b!"abc").readString = some b!"abc" := by decide +kernel
example : value (newScanner b!"abc\\\ndef").readString = some b!"abc\ndef" := by decide +kernel
example : value (newScanner b!"\\\ndef").readString = some b!"def" := by decide +kernel
example : value (newScanner b!"\t def").readString = some b!"def" := by decide +kernel
example : value (newScanner b!"\t 'def'").readString = some b!"def" := by decide +kernel
example : value (newScanner b!"\"def\"").readString = some b!"def" := by decide +kernel
example : value (newScanner b!"\"abc\\\ndef\"").readString = some b!"abc\ndef" := by decide +kernel

/-! scanner_test.go:42-76 `TestSecLangSimpleDirectives` -/
example : value ((newScanner b!"SecRuleEngine On").readDirective id) = some (.ruleEng 1) := by decide +kernel
example : value ((newScanner b!"SecRuleEngine on").readDirective id) = some (.ruleEng 1) := by decide +kernel
example : value ((newScanner b!"SecRuleEngine Off").readDirective id) = some (.ruleEng 0) := by decide +kernel
example : value ((newScanner b!"secruleengine OFF").readDirective id) = some (.ruleEng 0) := by decide +kernel
example : value ((newScanner b!"SecRuleEngine DetectionOnly").readDirective id) = some (.ruleEng 2) := by decide +kernel
example : value ((newScanner b!"SECRULEENGINE detectiononly").readDirective id) = some (.ruleEng 2) := by decide +kernel

/-! scanner_test.go:78-122 `TestSecLangVariables` -/
example : value (newScanner b!"ARGS").readVariables = some [⟨.args, b!"", false, false⟩] := by decide +kernel
example : value (newScanner b!"ARGS|ARGS_NAMES").readVariables = some [⟨.args, b!"", false, false⟩, ⟨.argsNames, b!"", false, false⟩] := by decide +kernel
example : value (newScanner b!"!ARGS|&ARGS_NAMES").readVariables = some [⟨.args, b!"", false, true⟩, ⟨.argsNames, b!"", true, false⟩] := by decide +kernel
example : value (newScanner b!"ARGS|ARGS_NAMES|REQUEST_COOKIES|!REQUEST_COOKIES:/__utm/|REQUEST_COOKIES_NAMES|REQUEST_BODY|REQUEST_HEADERS").readVariables = some [⟨.args, b!"", false, false⟩, ⟨.argsNames, b!"", false, false⟩, ⟨.requestCookies, b!"", false, false⟩, ⟨.requestCookies, b!"/__utm/", false, true⟩, ⟨.requestCookiesNames, b!"", false, false⟩, ⟨.requestBody, b!"", false, false⟩, ⟨.requestHeaders, b!"", false, false⟩] := by decide +kernel

/-! scanner_test.go:124-161 `TestSecLangOperators` -/
example : value (newScanner b!"\"some regex\"").readOperator = some ⟨.rx, false, b!"some regex"⟩ := by decide +kernel
example : value (newScanner b!"withoutQuote").readOperator = some ⟨.rx, false, b!"withoutQuote"⟩ := by decide +kernel
example : value (newScanner b!"\"@rx nikto\"").readOperator = some ⟨.rx, false, b!"nikto"⟩ := by decide +kernel
example : value (newScanner b!"\"!some regex\"").readOperator = some ⟨.rx, true, b!"some regex"⟩ := by decide +kernel
example : value (newScanner b!"!withoutQuote").readOperator = some ⟨.rx, true, b!"withoutQuote"⟩ := by decide +kernel
example : value (newScanner b!"\"!@rx nikto\"").readOperator = some ⟨.rx, true, b!"nikto"⟩ := by decide +kernel
example : value (newScanner b!"\"@eq 15\"").readOperator = some ⟨.eq, false, b!"15"⟩ := by decide +kernel
example : value (newScanner b!"\"@ge 16\"").readOperator = some ⟨.ge, false, b!"16"⟩ := by decide +kernel
example : value (newScanner b!"\"@gt 17\"").readOperator = some ⟨.gt, false, b!"17"⟩ := by decide +kernel
example : value (newScanner b!"\"@le 18\"").readOperator = some ⟨.le, false, b!"18"⟩ := by decide +kernel
example : value (newScanner b!"\"@lt 19\"").readOperator = some ⟨.lt, false, b!"19"⟩ := by decide +kernel

/-! scanner_test.go:163-190 `TestSecLangActions` -/
example : value (newScanner b!"\"phase:1,id:5\"").readActions = some { id := 5, phase := 1 } := by decide +kernel
example : value (newScanner b!"\"phase:1,\\n\\tid:5\"").readActions = some { id := 5, phase := 1 } := by decide +kernel

/-! scanner_test.go:192-302 `TestSecLangSecRule` -/
/-- The text of the case. -/
def ruleText1 : Bytes := b!"SecRule ARGS \"abc\" \"id:123,phase:1,deny\""

/-- The expected directive. -/
def ruleExpect1 : PRule := {
    vars := [var .args],
    op := { tk := .rx, arg := b!"abc" },
    acts := { id := 123, phase := 1, trans := [], action := [act .deny] } }

example : value ((newScanner ruleText1).readDirective id) = some (.rule ruleExpect1) := by decide +kernel

/-- The text of the case. -/
def ruleText2 : Bytes := b!" \nSecRule ARGS|ARGS_NAMES|REQUEST_COOKIES|!REQUEST_COOKIES:/__utm/|REQUEST_COOKIES_NAMES|REQUEST_BODY|REQUEST_HEADERS|XML:/*|XML://@* \\\n    \"@rx java\\.lang\\.(?:runtime|processbuilder)\" \\\n    \"id:944100,\\\n    phase:2,\\\n    block,\\\n    log,\\\n    msg:'Remote Command Execution: Suspicious Java class detected',\\\n    logdata:'Matched Data: %{MATCHED_VAR} found within %{MATCHED_VAR_NAME}',\\\n    t:none,t:lowercase,\\\n    tag:'application-multi',\\\n    tag:'language-java',\\\n    tag:'platform-multi',\\\n    tag:'attack-rce',\\\n    tag:'OWASP_CRS/WEB_ATTACK/COMMAND_INJECTION',\\\n    tag:'WASCTC/WASC-31',\\\n    tag:'OWASP_TOP_10/A1',\\\n    tag:'PCI/6.5.2',\\\n    tag:'paranoia-level/1',\\\n    ver:'OWASP_CRS/3.1.0',\\\n    severity:'CRITICAL',\\\n    setvar:'tx.rce_score=+%{tx.critical_anomaly_score}',\\\n    setvar:'tx.anomaly_score_pl1=+%{tx.critical_anomaly_score}'\"\n"

/-- The expected directive. -/
def ruleExpect2 : PRule := {
    vars := [var .args,
      var .argsNames,
      var .requestCookies,
      var .requestCookies b!"/__utm/" true,
      var .requestCookiesNames,
      var .requestBody,
      var .requestHeaders,
      var .xml b!"/*",
      var .xml b!"//@*"],
    op := { tk := .rx, arg := b!"java.lang.(?:runtime|processbuilder)" },
    acts := { id := 944100, phase := 2, trans := [.none, .lowercase], action := [act .block,
      act .log,
      act .msg b!"'Remote Command Execution: Suspicious Java class detected'",
      act .logdata b!"'Matched Data: %{MATCHED_VAR} found within %{MATCHED_VAR_NAME}'",
      act .tag b!"'application-multi'",
      act .tag b!"'language-java'",
      act .tag b!"'platform-multi'",
      act .tag b!"'attack-rce'",
      act .tag b!"'OWASP_CRS/WEB_ATTACK/COMMAND_INJECTION'",
      act .tag b!"'WASCTC/WASC-31'",
      act .tag b!"'OWASP_TOP_10/A1'",
      act .tag b!"'PCI/6.5.2'",
      act .tag b!"'paranoia-level/1'",
      act .ver b!"'OWASP_CRS/3.1.0'",
      act .severity b!"2",
      act .setvar b!"'tx.rce_score=+%{tx.critical_anomaly_score}'",
      act .setvar b!"'tx.anomaly_score_pl1=+%{tx.critical_anomaly_score}'"] } }

example : value ((newScanner ruleText2).readDirective id) = some (.rule ruleExpect2) := by decide +kernel

/-! rule_test.go `testRules1`, scanner_test.go:304-321 `TestSecLangRules` -/

def testRules1 : Bytes := b!"\nSecRuleEngine DetectionOnly\nSecRequestBodyAccess On\nSecResponseBodyAccess Off\nSecRule REQUEST_COOKIES|!REQUEST_COOKIES:/__utm/|REQUEST_COOKIES_NAMES|ARGS_NAMES|ARGS|XML:/* \"@rx (?i:sleep\\(\\s*?\\d*?\\s*?\\)|benchmark\\(.*?\\,.*?\\))\" \\\n    \"id:942160,\\\n    phase:2,\\\n    block,\\\n    capture,\\\n    t:none,t:urlDecodeUni,\\\n    msg:'Detects blind sqli tests using sleep() or benchmark().',\\\n    logdata:'Matched Data: %{TX.0} found within %{MATCHED_VAR_NAME}: %{MATCHED_VAR}',\\\n    tag:'application-multi',\\\n    tag:'language-multi',\\\n    tag:'platform-multi',\\\n    tag:'attack-sqli',\\\n    tag:'OWASP_CRS/WEB_ATTACK/SQL_INJECTION',\\\n    ver:'OWASP_CRS/3.1.0',\\\n    severity:'CRITICAL',\\\n    setvar:'tx.sql_injection_score=+%{tx.critical_anomaly_score}',\\\n    setvar:'tx.anomaly_score_pl1=+%{tx.critical_anomaly_score}'\"\n\nSecRule REQUEST_HEADERS:User-Agent \"@rx ^$\" \\\n    \"id:920330,\\\n    phase:2,\\\n    pass,\\\n    t:none,\\\n    msg:'Empty User Agent Header',\\\n    tag:'application-multi',\\\n    tag:'language-multi',\\\n    tag:'platform-multi',\\\n    tag:'attack-protocol',\\\n    tag:'OWASP_CRS/PROTOCOL_VIOLATION/EMPTY_HEADER_UA',\\\n    ver:'OWASP_CRS/3.1.0',\\\n    severity:'NOTICE',\\\n    setvar:'tx.anomaly_score_pl1=+%{tx.notice_anomaly_score}'\"\n"

def testRules1Expect : List PDir := [
  .ruleEng 2,
  .reqBody true,
  .resBody false,
  .rule {
    vars := [var .requestCookies,
      var .requestCookies b!"/__utm/" true,
      var .requestCookiesNames,
      var .argsNames,
      var .args,
      var .xml b!"/*"],
    op := { tk := .rx, arg := b!"(?i:sleep(s*?d*?s*?)|benchmark(.*?,.*?))" },
    acts := { id := 942160, phase := 2, trans := [.none, .urlDecodeUni], action := [act .block,
      act .capture,
      act .msg b!"'Detects blind sqli tests using sleep() or benchmark().'",
      act .logdata b!"'Matched Data: %{TX.0} found within %{MATCHED_VAR_NAME}: %{MATCHED_VAR}'",
      act .tag b!"'application-multi'",
      act .tag b!"'language-multi'",
      act .tag b!"'platform-multi'",
      act .tag b!"'attack-sqli'",
      act .tag b!"'OWASP_CRS/WEB_ATTACK/SQL_INJECTION'",
      act .ver b!"'OWASP_CRS/3.1.0'",
      act .severity b!"2",
      act .setvar b!"'tx.sql_injection_score=+%{tx.critical_anomaly_score}'",
      act .setvar b!"'tx.anomaly_score_pl1=+%{tx.critical_anomaly_score}'"] } },
  .rule {
    vars := [var .requestHeaders b!"User-Agent"],
    op := { tk := .rx, arg := b!"^$" },
    acts := { id := 920330, phase := 2, trans := [.none], action := [act .pass,
      act .msg b!"'Empty User Agent Header'",
      act .tag b!"'application-multi'",
      act .tag b!"'language-multi'",
      act .tag b!"'platform-multi'",
      act .tag b!"'attack-protocol'",
      act .tag b!"'OWASP_CRS/PROTOCOL_VIOLATION/EMPTY_HEADER_UA'",
      act .ver b!"'OWASP_CRS/3.1.0'",
      act .severity b!"5",
      act .setvar b!"'tx.anomaly_score_pl1=+%{tx.notice_anomaly_score}'"] } }]

example : value ((newScanner testRules1).allDirective id) = some testRules1Expect := by decide +kernel

end Verif.Conform
