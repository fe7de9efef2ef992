import Verif.Model.Basic

/-!
pkg/log/log.proto and the generated pkg/log/log.pb.go: the wire format of `VertexLog`. The generated code only describes the message; the
encoding is that of google.golang.org/protobuf v1.23 (go.mod), modelled here for this one message.
-/

namespace Verif

/-- pkg/log/log.pb.go:29-41 `VertexLog` (pkg/log/log.proto:6-15), without the bookkeeping fields `state`, `sizeCache` and `unknownFields`,
which no code of the repository reads. -/
structure VLog where
  id : Bytes
  time : Int
  host : Bytes
  name : Bytes
  index : Int
  args : List Bytes
  raw : Bytes
deriving DecidableEq, Repr

namespace Proto

/-- `protowire.AppendVarint` (used by `proto.Marshal`, pkg/log/log.go:59): seven bits per byte, low first; at most ten bytes for 64 bits. -/
def putVarintF : Nat → Nat → Bytes
  | 0, _ => []
  | f + 1, n => if n < 128 then [UInt8.ofNat n] else UInt8.ofNat (n % 128 + 128) :: putVarintF f (n / 128)

/-- `protowire.AppendVarint` of a `uint64`. -/
def putVarint (n : Nat) : Bytes := putVarintF 10 n

/-- `protowire.ConsumeVarint`: at most ten bytes, the tenth must be 0 or 1. `none` is a parse error. -/
def getVarintF : Nat → Bytes → Option (Nat × Bytes)
  | 0, _ => none
  | _ + 1, [] => none
  | f + 1, c :: cs =>
    if c.toNat < 128 then
      if f = 0 ∧ 2 ≤ c.toNat then none else some (c.toNat, cs)
    else match getVarintF f cs with
      | some (v, r) => some (c.toNat - 128 + 128 * v, r)
      | none => none

/-- `protowire.ConsumeVarint`. -/
def getVarint (s : Bytes) : Option (Nat × Bytes) := getVarintF 10 s

/-- `protowire.ConsumeBytes`: a length and that many bytes. -/
def getBytes (s : Bytes) : Option (Bytes × Bytes) :=
  match getVarint s with
  | none => none
  | some (n, r) => if n ≤ r.length then some (r.take n, r.drop n) else none

/-- Go's `utf8.Valid`, which the protobuf runtime applies to every proto3 string when packing and when parsing. -/
def utf8Valid : Bytes → Bool
  | [] => true
  | a :: s =>
    if a < 0x80 then utf8Valid s
    else if 0xC2 ≤ a ∧ a ≤ 0xDF then
      match s with
      | b :: s => (0x80 ≤ b ∧ b ≤ 0xBF) && utf8Valid s
      | [] => false
    else if 0xE0 ≤ a ∧ a ≤ 0xEF then
      match s with
      | b :: c :: s =>
        ((if a = 0xE0 then 0xA0 else 0x80) ≤ b ∧ b ≤ (if a = 0xED then 0x9F else 0xBF)) && (0x80 ≤ c ∧ c ≤ 0xBF) && utf8Valid s
      | _ => false
    else if 0xF0 ≤ a ∧ a ≤ 0xF4 then
      match s with
      | b :: c :: d :: s =>
        ((if a = 0xF0 then 0x90 else 0x80) ≤ b ∧ b ≤ (if a = 0xF4 then 0x8F else 0xBF)) && (0x80 ≤ c ∧ c ≤ 0xBF) &&
          (0x80 ≤ d ∧ d ≤ 0xBF) && utf8Valid s
      | _ => false
    else false

/-- A length-delimited field: tag, length, bytes. -/
def putBytes (num : Nat) (s : Bytes) : Bytes := putVarint (num * 8 + 2) ++ putVarint s.length ++ s

/-- A proto3 string field: left out when empty. -/
def putString (num : Nat) (s : Bytes) : Bytes := if s = [] then [] else putBytes num s

/-- A proto3 `int64`/`int32` field: left out when zero, otherwise the varint of the 64-bit two's complement. -/
def putInt (num : Nat) (v : Int) : Bytes := if v = 0 then [] else putVarint (num * 8) ++ putVarint (v % 18446744073709551616).toNat

/-- `proto.Marshal` of a `VertexLog` (pkg/log/log.go:59): the fields in the order of their numbers. `none` is the error for a string that is
not valid UTF-8. -/
def marshal (v : VLog) : Option Bytes :=
  if utf8Valid v.id && utf8Valid v.host && utf8Valid v.name && v.args.all utf8Valid && utf8Valid v.raw then
    some (putString 1 v.id ++ putInt 2 v.time ++ putString 3 v.host ++ putString 4 v.name ++ putInt 5 v.index ++
      v.args.flatMap (putBytes 6) ++ putString 255 v.raw)
  else none

/-- The empty message. -/
def empty : VLog := { id := [], time := 0, host := [], name := [], index := 0, args := [], raw := [] }

/-- Go's conversion of a `uint64` to `int32`. -/
def wrap32 (x : Int) : Int := (x + 2147483648) % 4294967296 - 2147483648

mutual
/-- `protowire.ConsumeFieldValue`: skips the value of an unknown field; the result is the unread rest. -/
def skipValue : Nat → Nat → Nat → Bytes → Option Bytes
  | 0, _, _, _ => none
  | f + 1, num, wtyp, s =>
    match wtyp with
    | 0 => (getVarint s).map Prod.snd
    | 1 => if 8 ≤ s.length then some (s.drop 8) else none
    | 2 => (getBytes s).map Prod.snd
    | 3 => skipGroup f num s
    | 5 => if 4 ≤ s.length then some (s.drop 4) else none
    | _ => none
/-- `protowire.ConsumeGroup`: fields up to the matching end marker. -/
def skipGroup : Nat → Nat → Bytes → Option Bytes
  | 0, _, _ => none
  | f + 1, num, s =>
    match getVarint s with
    | none => none
    | some (tag, r) =>
      let num2 := tag / 8
      if num2 < 1 ∨ 2147483647 < num2 then none
      else if tag % 8 = 4 then (if num2 = num then some r else none)
      else match skipValue f num2 (tag % 8) r with
        | none => none
        | some r' => skipGroup f num r'
end

/-- One field value read into the message: `proto.Unmarshal`'s per-field functions. A known field with another wire type is skipped like an
unknown one. -/
def readField (fuel : Nat) (v : VLog) (num wtyp : Nat) (s : Bytes) : Option (VLog × Bytes) :=
  let str (put : Bytes → VLog) : Option (VLog × Bytes) :=
    match getBytes s with
    | none => none
    | some (b, r) => if utf8Valid b then some (put b, r) else none
  let varint (put : Nat → VLog) : Option (VLog × Bytes) :=
    match getVarint s with
    | none => none
    | some (n, r) => some (put n, r)
  match num, wtyp with
  | 1, 2 => str fun b => { v with id := b }
  | 2, 0 => varint fun n => { v with time := wrap64 n }
  | 3, 2 => str fun b => { v with host := b }
  | 4, 2 => str fun b => { v with name := b }
  | 5, 0 => varint fun n => { v with index := wrap32 n }
  | 6, 2 => str fun b => { v with args := v.args ++ [b] }
  | 255, 2 => str fun b => { v with raw := b }
  | _, _ => (skipValue fuel num wtyp s).map fun r => (v, r)

/-- The loop of `proto.Unmarshal` (pkg/log/log.go:140). `none` is an error. -/
def unmarshalLoop : Nat → VLog → Bytes → Option VLog
  | _, v, [] => some v
  | 0, _, _ :: _ => none
  | f + 1, v, s@(_ :: _) =>
    match getVarint s with
    | none => none
    | some (tag, r) =>
      let num := tag / 8
      if num < 1 ∨ 536870911 < num then none
      else if tag % 8 = 4 then none
      else match readField (2 * r.length + 2) v num (tag % 8) r with
        | none => none
        | some (v', r') => unmarshalLoop f v' r'

/-- `proto.Unmarshal` into a new `VertexLog` (pkg/log/log.go:138-142). Every field takes at least one byte, so the fuel suffices. -/
def unmarshal (s : Bytes) : Option VLog := unmarshalLoop (s.length + 1) empty s

end Proto

end Verif
