import Verif.Model.Basic

/-!
Decimal integers as read by `strconv.ParseInt(s, 10, 64)` and written by `fmt.Sprintf("%d", n)`.
Used by pkg/util/util.go:80-82 (ParseInt64), pkg/container/int_variant.go:23-45, pkg/protocol/reader.go:89,114,127
and pkg/protocol/resp.go:90,181,218.
-/

namespace Verif

/-- Go `strconv.ParseUint` digit loop (base 10, 64 bit) with its overflow checks, called by
pkg/util/util.go:80-82 through `strconv.ParseInt`. `none` is an error (syntax or range; no caller distinguishes them
except in message text). The accumulator is a `uint64`; `cutoff = maxUint64/10 + 1`. -/
def parseUintLoop : Nat → Bytes → Option Nat
  | n, [] => some n
  | n, c :: cs =>
    if 48 ≤ c.toNat ∧ c.toNat ≤ 57 then
      if n ≥ 1844674407370955162 then none
      else
        let m := n * 10
        let n1 := (m + (c.toNat - 48)) % 18446744073709551616
        if n1 < m then none else parseUintLoop n1 cs
    else none

/-- Go `strconv.ParseUint(s, 10, 64)`. -/
def parseUint (s : Bytes) : Option Nat :=
  match s with
  | [] => none
  | _ => parseUintLoop 0 s

/-- Go `strconv.ParseInt(s, 10, 64)`, i.e. pkg/util/util.go:80-82 `ParseInt64`. `none` is the error result. -/
def parseInt64 (s : Bytes) : Option Int :=
  match s with
  | [] => none
  | c :: cs =>
    let neg := c == 45
    let body := if c == 43 || c == 45 then cs else s
    match parseUint body with
    | none => none
    | some un =>
      if !neg && un ≥ 9223372036854775808 then none
      else if neg && un > 9223372036854775808 then none
      else some (if neg then -(un : Int) else (un : Int))

/-- Digits of `n`, most significant first; `fuel` bounds the number of digits. -/
def fmtNatAux : Nat → Nat → Bytes
  | 0, _ => []
  | f + 1, n => if n < 10 then [UInt8.ofNat (48 + n)] else fmtNatAux f (n / 10) ++ [UInt8.ofNat (48 + n % 10)]

/-- `fmt.Sprintf("%d", n)` for a non-negative `n` (pkg/protocol/resp.go:90 and :218, lengths). -/
def fmtNat (n : Nat) : Bytes := fmtNatAux (n + 1) n

/-- `fmt.Sprintf("%d", n)` (pkg/container/int_variant.go:43-45, pkg/protocol/resp.go:181). -/
def fmtInt (n : Int) : Bytes :=
  match n with
  | .ofNat k => fmtNat k
  | .negSucc k => 45 :: fmtNat (k + 1)

end Verif
