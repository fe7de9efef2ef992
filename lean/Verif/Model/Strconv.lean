import Verif.Model.Num

/-!
What pkg/util/util.go:80-82, 91-99 and pkg/log/log.go:49-51 use of Go's strconv and strings besides the numbers themselves (`Num`): `strconv.Quote`,
`strconv.IsPrint`, `strings.Join`, and the text of a `*strconv.NumError`.
-/

namespace Verif.Quote

/-- `lowerhex` of strconv: the digit for `n < 16`. -/
def lowerhex (n : Nat) : UInt8 := UInt8.ofNat (if n < 10 then 48 + n else 87 + n)

/-- `acceptRanges` of unicode/utf8: the smallest second byte after the first byte `a`. -/
def acceptLo (a : UInt8) : UInt8 := if a = 0xE0 then 0xA0 else if a = 0xF0 then 0x90 else 0x80

/-- `acceptRanges` of unicode/utf8: the greatest second byte after the first byte `a`. -/
def acceptHi (a : UInt8) : UInt8 := if a = 0xED then 0x9F else if a = 0xF4 then 0x8F else 0xBF

/-- `utf8.DecodeRuneInString`: the first code point and the number of its bytes; (0xFFFD, 1) for bytes that are no encoding. Only called with a
non-empty string. -/
def decodeRune : Bytes → Nat × Nat
  | [] => (0xFFFD, 0)
  | a :: s =>
    if a < 0x80 then (a.toNat, 1)
    else if 0xC2 ≤ a ∧ a ≤ 0xDF then
      match s with
      | b :: _ => if acceptLo a ≤ b ∧ b ≤ acceptHi a then (a.toNat % 32 * 64 + b.toNat % 64, 2) else (0xFFFD, 1)
      | [] => (0xFFFD, 1)
    else if 0xE0 ≤ a ∧ a ≤ 0xEF then
      match s with
      | b :: c :: _ =>
        if (acceptLo a ≤ b ∧ b ≤ acceptHi a) ∧ (0x80 ≤ c ∧ c ≤ 0xBF) then
          (a.toNat % 16 * 4096 + b.toNat % 64 * 64 + c.toNat % 64, 3)
        else (0xFFFD, 1)
      | _ => (0xFFFD, 1)
    else if 0xF0 ≤ a ∧ a ≤ 0xF4 then
      match s with
      | b :: c :: d :: _ =>
        if (acceptLo a ≤ b ∧ b ≤ acceptHi a) ∧ (0x80 ≤ c ∧ c ≤ 0xBF) ∧ (0x80 ≤ d ∧ d ≤ 0xBF) then
          (a.toNat % 8 * 262144 + b.toNat % 64 * 4096 + c.toNat % 64 * 64 + d.toNat % 64, 4)
        else (0xFFFD, 1)
      | _ => (0xFFFD, 1)
    else (0xFFFD, 1)

/-- `utf8.AppendRune`, the appended bytes; only called with code points that `decodeRune` found. -/
def appendRune (r : Nat) : Bytes :=
  if r ≤ 0x7F then [UInt8.ofNat r]
  else if r ≤ 0x7FF then [UInt8.ofNat (0xC0 + r / 64), UInt8.ofNat (0x80 + r % 64)]
  else if r ≤ 0xFFFF then [UInt8.ofNat (0xE0 + r / 4096), UInt8.ofNat (0x80 + r / 64 % 64), UInt8.ofNat (0x80 + r % 64)]
  else [UInt8.ofNat (0xF0 + r / 262144), UInt8.ofNat (0x80 + r / 4096 % 64), UInt8.ofNat (0x80 + r / 64 % 64), UInt8.ofNat (0x80 + r % 64)]

/-- `n` digits of `r` in base 16, the high ones first: the loops of `appendEscapedRune`. -/
def hexDigits : Nat → Nat → Bytes
  | 0, _ => []
  | n + 1, r => lowerhex (r / 16 ^ n % 16) :: hexDigits n r

/-- `appendEscapedRune` of strconv with the quote `"` and without the ASCII and graphic options, the appended bytes. -/
def escapeRune (pr : Nat → Bool) (r : Nat) : Bytes :=
  if r = 34 ∨ r = 92 then [92, UInt8.ofNat r]
  else if pr r then appendRune r
  else if r = 7 then b!"\\a"
  else if r = 8 then b!"\\b"
  else if r = 12 then b!"\\f"
  else if r = 10 then b!"\\n"
  else if r = 13 then b!"\\r"
  else if r = 9 then b!"\\t"
  else if r = 11 then b!"\\v"
  else if r < 32 ∨ r = 127 then b!"\\x" ++ hexDigits 2 r
  else if r < 0x10000 then b!"\\u" ++ hexDigits 4 r
  else b!"\\U" ++ hexDigits 8 r

/-- The loop of `appendQuotedWith` of strconv; the first argument counts the bytes that belong to a code point already written. -/
def quoteLoop (pr : Nat → Bool) : Nat → Bytes → Bytes
  | _, [] => []
  | k + 1, _ :: s => quoteLoop pr k s
  | 0, a :: s =>
    (if (decodeRune (a :: s)).2 = 1 ∧ (decodeRune (a :: s)).1 = 0xFFFD then b!"\\x" ++ hexDigits 2 a.toNat
      else escapeRune pr (decodeRune (a :: s)).1) ++ quoteLoop pr ((decodeRune (a :: s)).2 - 1) s

/-- `strconv.Quote`. -/
def quote (pr : Nat → Bool) (s : Bytes) : Bytes := 34 :: (quoteLoop pr 0 s ++ [34])

/-- `strings.Join`. -/
def join (sep : Bytes) : List Bytes → Bytes
  | [] => []
  | [x] => x
  | x :: y :: xs => x ++ sep ++ join sep (y :: xs)

/-- `strconv.IsPrint`: the code points up to 0xFF are decided by comparisons, the others by a table. -/
def isPrint (table : Nat → Bool) (r : Nat) : Bool :=
  if r ≤ 0xFF then
    if 0x20 ≤ r ∧ r < 0x7F then true
    else if 0xA1 ≤ r ∧ r ≤ 0xFF then r != 0xAD
    else false
  else table r

/-- Whether the digit loop of `strconv.ParseUint` (see `parseUintLoop`) ends with `ErrRange`; it stops at the first digit that is too much, before it
has seen what follows. -/
def uintRange : Nat → Bytes → Bool
  | _, [] => false
  | n, c :: cs =>
    if 48 ≤ c.toNat ∧ c.toNat ≤ 57 then
      if n ≥ 1844674407370955162 then true
      else
        let m := n * 10
        let n1 := (m + (c.toNat - 48)) % 18446744073709551616
        if n1 < m then true else uintRange n1 cs
    else false

/-- Whether the error of `strconv.ParseInt(s, 10, 64)` (see `parseInt64`) is `ErrRange`; only called when there is an error. -/
def intRange (s : Bytes) : Bool :=
  match s with
  | [] => false
  | c :: cs =>
    let body := if c == 43 || c == 45 then cs else s
    match parseUint body with
    | none => uintRange 0 body
    | some _ => true

/-- `(*strconv.NumError).Error` for an error of `strconv.ParseInt(s, 10, 64)`, pkg/util/util.go:80-82. -/
def numError (table : Nat → Bool) (s : Bytes) : Bytes :=
  b!"strconv.ParseInt: parsing " ++ quote (isPrint table) s ++ b!": " ++ (if intRange s then b!"value out of range" else b!"invalid syntax")

end Verif.Quote
