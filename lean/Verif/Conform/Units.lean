import Verif.Model.Transforms
import Verif.Model.Compare
import Verif.Model.Buffer
/-!
The repository's own unit tests for the utilities, transformations, numeric
operators and the body buffer, run on the model.  These are tests of the model
against the code's expected behaviour, not proofs of properties.
-/
namespace Verif.Conform

/-! utils/urlencode_test.go:5-26 -/
example : urlDecode b!"abcde123456" = (b!"abcde123456", 0) := by decide +kernel
example : urlDecode b!"abcde+123456" = (b!"abcde 123456", 0) := by decide +kernel
example : urlDecode b!"abcde%20123456" = (b!"abcde 123456", 0) := by decide +kernel
example : urlDecode b!"%3c123%3e*aab" = (b!"<123>*aab", 0) := by decide +kernel
example : urlDecode b!"!%40%23%24%25%5e%26*()_%2b%7c" = (b!"!@#$%^&*()_+|", 0) := by decide +kernel
example : urlDecode b!"%e4%bd%a0%e5%a5%bd" = (b!"你好", 0) := by decide +kernel
example : urlDecode b!"%%3e*aab" = (b!"%>*aab", 1) := by decide +kernel
example : urlDecode b!"%u4F60%u597D" = (b!"%u4F60%u597D", 2) := by decide +kernel
example : urlDecode b!"%uFF10%uFF11" = (b!"%uFF10%uFF11", 2) := by decide +kernel

/-! utils/urlencode_test.go:28-50 -/
example : urlDecodeUni b!"abcde123456" = (b!"abcde123456", 0) := by decide +kernel
example : urlDecodeUni b!"abcde+123456" = (b!"abcde 123456", 0) := by decide +kernel
example : urlDecodeUni b!"abcde%20123456" = (b!"abcde 123456", 0) := by decide +kernel
example : urlDecodeUni b!"%3c123%3e*aab" = (b!"<123>*aab", 0) := by decide +kernel
example : urlDecodeUni b!"!%40%23%24%25%5e%26*()_%2b%7c" = (b!"!@#$%^&*()_+|", 0) := by decide +kernel
example : urlDecodeUni b!"%e4%bd%a0%e5%a5%bd" = (b!"你好", 0) := by decide +kernel
example : urlDecodeUni b!"%%3e*aab" = (b!"%>*aab", 1) := by decide +kernel
example : urlDecodeUni b!"%u4F60%u597D" = (b!"你好", 0) := by decide +kernel
example : urlDecodeUni b!"%uFF10%uFF11" = (b!"01", 0) := by decide +kernel

/-! modsecurity/transforms/compress_whitespace_test.go -/
example : transCompressWhitespace b!" a  b   c " = b!" a b c " := by decide +kernel
example : transCompressWhitespace b!"   abc   " = b!" abc " := by decide +kernel
example : transCompressWhitespace b!"   a b c   " = b!" a b c " := by decide +kernel

/-! modsecurity/transforms/lowercase_test.go -/
example : transLowercase id b!"abc" = b!"abc" := by decide +kernel
example : transLowercase id b!"Abc" = b!"abc" := by decide +kernel
example : transLowercase id b!"ABC" = b!"abc" := by decide +kernel

/-! modsecurity/transforms/urldecode_test.go -/
example : transUrlDecode b!"abcde+123456%e4%bd%a0%e5%a5%bd%u4F60%u597D" = b!"abcde 123456你好%u4F60%u597D" := by decide +kernel

/-! modsecurity/transforms/urldecode_uni_test.go -/
example : transUrlDecodeUni b!"abcde+123456%e4%bd%a0%e5%a5%bd%u4F60%u597D" = b!"abcde 123456你好你好" := by decide +kernel

/-! modsecurity/transforms/map_rune_test.go -/
example : transRemoveWhitespace b!" a b c de f" = b!"abcdef" := by decide +kernel
example : transRemoveWhitespace b!" a    b c de f   " = b!"abcdef" := by decide +kernel

example : transRemoveNulls [0, 97, 0, 98, 99, 100, 0, 0, 101, 102, 0, 0] = b!"abcdef" := by decide +kernel
example : transReplaceNulls [0, 97, 0, 98, 99, 100, 0, 0, 101, 102, 0, 0] = b!" a bcd  ef  " := by decide +kernel

/-! modsecurity/transforms/none_test.go -/
example : transNone b!"abc" = b!"abc" := by decide +kernel
example : transNone b!"Abc" = b!"Abc" := by decide +kernel
example : transNone b!"ABC" = b!"ABC" := by decide +kernel

/-- Result of matching a value against a numeric operator built from an argument. -/
def cmp (k : CmpKind) (arg value : Bytes) : Option Bool := (newOperatorCompare k arg).map (·.run value)

/-! modsecurity/operators/compare_test.go `TestOperatorEq` -/
example : newOperatorCompare .eq b!"xx" = none := by decide +kernel
example : newOperatorCompare .eq b!"" = none := by decide +kernel
example : ([(b!"-10", false), (b!"-5", false), (b!"-1", false), (b!"0", false), (b!"1", false), (b!"3", false), (b!"5", true), (b!"8", false), (b!"20", false), (b!"", false), (b!"xxx", false)] : List (Bytes × Bool)).all (fun e => cmp .eq b!"5" e.1 == some e.2) = true := by decide +kernel
example : ([(b!"-10", false), (b!"-5", false), (b!"-1", false), (b!"0", true), (b!"1", false), (b!"3", false), (b!"5", false), (b!"8", false), (b!"20", false), (b!"", true), (b!"xxx", true)] : List (Bytes × Bool)).all (fun e => cmp .eq b!"0" e.1 == some e.2) = true := by decide +kernel
example : ([(b!"-10", false), (b!"-5", true), (b!"-1", false), (b!"0", false), (b!"1", false), (b!"3", false), (b!"5", false), (b!"8", false), (b!"20", false), (b!"", false), (b!"xxx", false)] : List (Bytes × Bool)).all (fun e => cmp .eq b!"-5" e.1 == some e.2) = true := by decide +kernel

/-! modsecurity/operators/compare_test.go `TestOperatorGe` -/
example : newOperatorCompare .ge b!"xx" = none := by decide +kernel
example : newOperatorCompare .ge b!"" = none := by decide +kernel
example : ([(b!"-10", false), (b!"-5", false), (b!"-1", false), (b!"0", false), (b!"1", false), (b!"3", false), (b!"5", true), (b!"8", true), (b!"20", true), (b!"", false), (b!"xxx", false)] : List (Bytes × Bool)).all (fun e => cmp .ge b!"5" e.1 == some e.2) = true := by decide +kernel
example : ([(b!"-10", false), (b!"-5", false), (b!"-1", false), (b!"0", true), (b!"1", true), (b!"3", true), (b!"5", true), (b!"8", true), (b!"20", true), (b!"", true), (b!"xxx", true)] : List (Bytes × Bool)).all (fun e => cmp .ge b!"0" e.1 == some e.2) = true := by decide +kernel
example : ([(b!"-10", false), (b!"-5", true), (b!"-1", true), (b!"0", true), (b!"1", true), (b!"3", true), (b!"5", true), (b!"8", true), (b!"20", true), (b!"", true), (b!"xxx", true)] : List (Bytes × Bool)).all (fun e => cmp .ge b!"-5" e.1 == some e.2) = true := by decide +kernel

/-! modsecurity/operators/compare_test.go `TestOperatorGt` -/
example : newOperatorCompare .gt b!"xx" = none := by decide +kernel
example : newOperatorCompare .gt b!"" = none := by decide +kernel
example : ([(b!"-10", false), (b!"-5", false), (b!"-1", false), (b!"0", false), (b!"1", false), (b!"3", false), (b!"5", false), (b!"8", true), (b!"20", true), (b!"", false), (b!"xxx", false)] : List (Bytes × Bool)).all (fun e => cmp .gt b!"5" e.1 == some e.2) = true := by decide +kernel
example : ([(b!"-10", false), (b!"-5", false), (b!"-1", false), (b!"0", false), (b!"1", true), (b!"3", true), (b!"5", true), (b!"8", true), (b!"20", true), (b!"", false), (b!"xxx", false)] : List (Bytes × Bool)).all (fun e => cmp .gt b!"0" e.1 == some e.2) = true := by decide +kernel
example : ([(b!"-10", false), (b!"-5", false), (b!"-1", true), (b!"0", true), (b!"1", true), (b!"3", true), (b!"5", true), (b!"8", true), (b!"20", true), (b!"", true), (b!"xxx", true)] : List (Bytes × Bool)).all (fun e => cmp .gt b!"-5" e.1 == some e.2) = true := by decide +kernel

/-! modsecurity/operators/compare_test.go `TestOperatorLt` -/
example : newOperatorCompare .lt b!"xx" = none := by decide +kernel
example : newOperatorCompare .lt b!"" = none := by decide +kernel
example : ([(b!"-10", true), (b!"-5", true), (b!"-1", true), (b!"0", true), (b!"1", true), (b!"3", true), (b!"5", false), (b!"8", false), (b!"20", false), (b!"", true), (b!"xxx", true)] : List (Bytes × Bool)).all (fun e => cmp .lt b!"5" e.1 == some e.2) = true := by decide +kernel
example : ([(b!"-10", true), (b!"-5", true), (b!"-1", true), (b!"0", false), (b!"1", false), (b!"3", false), (b!"5", false), (b!"8", false), (b!"20", false), (b!"", false), (b!"xxx", false)] : List (Bytes × Bool)).all (fun e => cmp .lt b!"0" e.1 == some e.2) = true := by decide +kernel
example : ([(b!"-10", true), (b!"-5", false), (b!"-1", false), (b!"0", false), (b!"1", false), (b!"3", false), (b!"5", false), (b!"8", false), (b!"20", false), (b!"", false), (b!"xxx", false)] : List (Bytes × Bool)).all (fun e => cmp .lt b!"-5" e.1 == some e.2) = true := by decide +kernel

/-! modsecurity/operators/compare_test.go `TestOperatorLe` -/
example : newOperatorCompare .le b!"xx" = none := by decide +kernel
example : newOperatorCompare .le b!"" = none := by decide +kernel
example : ([(b!"-10", true), (b!"-5", true), (b!"-1", true), (b!"0", true), (b!"1", true), (b!"3", true), (b!"5", true), (b!"8", false), (b!"20", false), (b!"", true), (b!"xxx", true)] : List (Bytes × Bool)).all (fun e => cmp .le b!"5" e.1 == some e.2) = true := by decide +kernel
example : ([(b!"-10", true), (b!"-5", true), (b!"-1", true), (b!"0", true), (b!"1", false), (b!"3", false), (b!"5", false), (b!"8", false), (b!"20", false), (b!"", true), (b!"xxx", true)] : List (Bytes × Bool)).all (fun e => cmp .le b!"0" e.1 == some e.2) = true := by decide +kernel
example : ([(b!"-10", true), (b!"-5", true), (b!"-1", false), (b!"0", false), (b!"1", false), (b!"3", false), (b!"5", false), (b!"8", false), (b!"20", false), (b!"", false), (b!"xxx", false)] : List (Bytes × Bool)).all (fun e => cmp .le b!"-5" e.1 == some e.2) = true := by decide +kernel

/-! modsecurity/buffer_test.go -/

/-- The state after some writes without I/O errors, with the errors returned. -/
def writes : Buf → List Bytes → Res (Buf × List (Option BufErr))
  | b, [] => .ok (b, [])
  | b, p :: ps =>
    (b.write p .none).bind fun (b, _, e) => (writes b ps).bind fun (b, es) => .ok (b, e :: es)

def ones (n : Nat) : Bytes := List.replicate n 49
def twos (n : Nat) : Bytes := List.replicate n 50

/-- The errors of the writes, the length, whether a file is used, and what
`Read` of 128 bytes returns. -/
structure View where
  errs : List (Option BufErr)
  len : Nat
  file : Bool
  got : Bytes
  readErr : Option BufErr
deriving DecidableEq

def view (x : Res (Buf × List (Option BufErr))) : Option View :=
  match x with
  | .ok (b, es) =>
    match b.read 128 with
    | .ok (_, p, e) => some ⟨es, b.len, b.fileBuf.isSome, p, e⟩
    | _ => none
  | _ => none

-- 28-58 "memory"
example : view (writes (newBuffer 32 64) [ones 16]) = some ⟨[none], 16, false, ones 16, none⟩ := by decide +kernel
example : view (writes (newBuffer 32 64) [ones 16, twos 16]) =
    some ⟨[none, none], 32, false, ones 16 ++ twos 16, none⟩ := by decide +kernel
-- 60-114 "file"
example : view (writes (newBuffer 32 64) [ones 32]) = some ⟨[none], 32, false, ones 32, none⟩ := by decide +kernel
example : view (writes (newBuffer 32 64) [ones 32, twos 32]) =
    some ⟨[none, none], 64, true, ones 32 ++ twos 32, none⟩ := by decide +kernel
-- `String` after the read, and `Close`
example : ((writes (newBuffer 32 64) [ones 32, twos 32]).bind fun (b, _) => (b.read 128).bind fun (b, _, _) =>
    .ok b.string.2) = .ok (ones 32, some .outOfMemLimit) := by decide +kernel
example : ((writes (newBuffer 32 64) [ones 32, twos 32]).bind fun (b, _) => (b.read 128).bind fun (b, _, _) =>
    b.string.1.close.bind fun (b, e) => .ok (b.fileBuf.map (·.closed), e)) = .ok (some true, none) := by decide +kernel

end Verif.Conform
