import Verif.Model.Rule
/-! How loaded parts describe themselves: the `Name`, `Args` and `Value` methods.
What a `custom` implementation returns is unknown: `none`. -/
namespace Verif

/-- modsecurity/transforms/*.go `Name` (lowercase.go:15, urldecode.go:14, urldecode_uni.go:14,
none.go:13, compress_whitespace.go:16; map_rune.go:15, 22, 29 and 44). -/
def Trans.name : Trans → Option Bytes
  | .lowercase => some b!"lowercase"
  | .urlDecode => some b!"urlDecode"
  | .urlDecodeUni => some b!"urlDecodeUni"
  | .none => some b!"none"
  | .compressWhitespace => some b!"compressWhitespace"
  | .removeWhitespace => some b!"removeWhitespace"
  | .replaceNulls => some b!"replaceNulls"
  | .removeNulls => some b!"removeNulls"
  | .custom _ => Option.none

/-- modsecurity/operators/compare.go:10-34: the name each constructor passes. -/
def CmpKind.name : CmpKind → Bytes
  | .eq => b!"eq"
  | .ge => b!"ge"
  | .gt => b!"gt"
  | .le => b!"le"
  | .lt => b!"lt"

/-- modsecurity/operators/rx.go:25-27, compare.go:57-59 `Name`. -/
def Operator.name : Operator → Option Bytes
  | .rx _ => some b!"rx"
  | .cmp c => some c.kind.name
  | .custom _ => none

/-- modsecurity/operators/rx.go:28-31, compare.go:60-62 `Args`. -/
def Operator.args : Operator → Option Bytes
  | .rx r => some r.src
  | .cmp c => some c.argString
  | .custom _ => none

/-- modsecurity/actions/*.go `Name` (deny.go:16, log.go:16, block.go:17, pass.go:16, skip.go:17,
status.go:21, allow.go:20). -/
def Action.name : Action → Option Bytes
  | .deny => some b!"deny"
  | .log => some b!"log"
  | .block => some b!"block"
  | .pass => some b!"pass"
  | .skip => some b!"skip"
  | .status _ => some b!"status"
  | .allow _ => some b!"allow"
  | .custom _ _ => none

/-- modsecurity/actions/*.go `Value` (deny.go:19, log.go:19, block.go:20, pass.go:19, skip.go:20,
status.go:24, allow.go:23). -/
def Action.value : Action → Option Bytes
  | .deny => some []
  | .log => some []
  | .block => some []
  | .pass => some []
  | .skip => some []
  | .status n => some (itoa n)
  | .allow arg => some arg
  | .custom _ _ => none

/-- modsecurity/variables/*.go `Name` (args.go:22 and so on, one line each); `count` embeds the
variable it counts (count.go:13-15), so it has its name. -/
def Var.name : Var → Option Bytes
  | .args _ _ => some b!"ARGS"
  | .argsNames _ _ => some b!"ARGS_NAMES"
  | .argsGet _ => some b!"ARGS_GET"
  | .argsGetNames _ => some b!"ARGS_GET_NAMES"
  | .argsPost _ => some b!"ARGS_POST"
  | .argsPostNames _ => some b!"ARGS_POST_NAMES"
  | .queryString => some b!"QUERY_STRING"
  | .remoteAddr => some b!"REMOTE_ADDR"
  | .requestBasename => some b!"REQUEST_BASENAME"
  | .requestBody => some b!"REQUEST_BODY"
  | .requestCookies _ => some b!"REQUEST_COOKIES"
  | .requestCookiesNames _ => some b!"REQUEST_COOKIES_NAMES"
  | .requestFilename => some b!"REQUEST_FILENAME"
  | .requestHeaders _ => some b!"REQUEST_HEADERS"
  | .requestHeadersNames _ => some b!"REQUEST_HEADERS_NAMES"
  | .requestMethod => some b!"REQUEST_METHOD"
  | .requestProtocol => some b!"REQUEST_PROTOCOL"
  | .requestUri => some b!"REQUEST_URI"
  | .responseBody => some b!"RESPONSE_BODY"
  | .responseContentLength => some b!"RESPONSE_CONTENT_LENGTH"
  | .responseContentType => some b!"RESPONSE_CONTENT_TYPE"
  | .responseHeaders _ => some b!"RESPONSE_HEADERS"
  | .responseHeadersNames _ => some b!"RESPONSE_HEADERS_NAMES"
  | .responseProtocol => some b!"RESPONSE_PROTOCOL"
  | .responseStatus => some b!"RESPONSE_STATUS"
  | .count v => v.name
  | .custom _ => none

end Verif
