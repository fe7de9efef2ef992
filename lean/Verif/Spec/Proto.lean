import Verif.Model.Proto
import Verif.Spec.Utf8

/-! The protocol buffers wire format, and what a message of pkg/log/log.proto in that format says. -/

namespace Verif.Spec.PB

/-- The number written in base 128, low digits first; the top bits are marks. -/
def base128 : Bytes → Nat
  | [] => 0
  | c :: cs => c.toNat % 128 + 128 * base128 cs

/-- `s` is a number of at most 64 bits written in base 128, in at most ten bytes, of which exactly the last has no mark. -/
def Varint (n : Nat) (s : Bytes) : Prop :=
  ∃ init last, s = init ++ [last] ∧ (∀ c ∈ init, 128 ≤ c.toNat) ∧ last.toNat < 128 ∧ s.length ≤ 10 ∧ n = base128 s ∧ n < 2 ^ 64

/-- The value of a field. Groups do not occur in the messages of the log, what is inside does not matter. -/
inductive Value where
  | varint (n : Nat)
  | fixed64 (b : Bytes)
  | bytes (b : Bytes)
  | group
  | fixed32 (b : Bytes)

/-- The type as it stands in the tag. -/
def Value.wireType : Value → Nat
  | .varint _ => 0
  | .fixed64 _ => 1
  | .bytes _ => 2
  | .group => 3
  | .fixed32 _ => 5

mutual
/-- `s` is the form of a field's value. -/
inductive Encoded : Nat → Value → Bytes → Prop where
  | varint {num n : Nat} {s : Bytes} : Varint n s → Encoded num (.varint n) s
  | fixed64 {num : Nat} {s : Bytes} : s.length = 8 → Encoded num (.fixed64 s) s
  | bytes {num : Nat} {p b : Bytes} : Varint b.length p → Encoded num (.bytes b) (p ++ b)
  | fixed32 {num : Nat} {s : Bytes} : s.length = 4 → Encoded num (.fixed32 s) s
  /-- Fields up to an end mark with the same number. -/
  | group {num : Nat} {fs : List (Nat × Value)} {s e : Bytes} : Fields 2147483647 fs s → Varint (num * 8 + 4) e → 1 ≤ num →
      num ≤ 2147483647 → Encoded num .group (s ++ e)
/-- `s` is a sequence of fields: each a tag, made of number and type, and a value. -/
inductive Fields : Nat → List (Nat × Value) → Bytes → Prop where
  | nil {max : Nat} : Fields max [] []
  | cons {max num : Nat} {v : Value} {fs : List (Nat × Value)} {t s r : Bytes} : 1 ≤ num → num ≤ max → Varint (num * 8 + v.wireType) t →
      Encoded num v s → Fields max fs r → Fields max ((num, v) :: fs) (t ++ (s ++ r))
end

/-- A message: field numbers go up to 2²⁹-1. -/
def Message (fs : List (Nat × Value)) (s : Bytes) : Prop := Fields 536870911 fs s

/-- The strings under a number. -/
def strings (num : Nat) (fs : List (Nat × Value)) : List Bytes :=
  fs.filterMap fun f => match f with
    | (n, .bytes b) => if n = num then some b else none
    | _ => none

/-- The integers under a number. -/
def numbers (num : Nat) (fs : List (Nat × Value)) : List Nat :=
  fs.filterMap fun f => match f with
    | (n, .varint x) => if n = num then some x else none
    | _ => none

/-- The record the fields say (pkg/log/log.proto:6-15): of a field given several times the last counts, of the repeated field all do; a field not given
is empty or zero; integers are taken modulo their size; everything else is ignored. All strings have to be UTF-8. -/
def Says (fs : List (Nat × Value)) (v : VLog) : Prop :=
  (∀ num ∈ [1, 3, 4, 6, 255], ∀ b ∈ strings num fs, ValidUTF8 b) ∧
  v.id = (strings 1 fs).getLastD [] ∧ v.host = (strings 3 fs).getLastD [] ∧ v.name = (strings 4 fs).getLastD [] ∧ v.raw = (strings 255 fs).getLastD [] ∧
  v.args = strings 6 fs ∧
  (InInt64 v.time ∧ (2 ^ 64 : Int) ∣ v.time - ((numbers 2 fs).getLastD 0 : Nat)) ∧
  ((-2 ^ 31 ≤ v.index ∧ v.index < 2 ^ 31) ∧ (2 ^ 32 : Int) ∣ v.index - ((numbers 5 fs).getLastD 0 : Nat))

/-- The fields of a record as they are to be written: in the order of their numbers, without empty ones; negative numbers in two's complement. -/
def fieldsOf (v : VLog) : List (Nat × Value) :=
  let str (num : Nat) (s : Bytes) : List (Nat × Value) := if s = [] then [] else [(num, .bytes s)]
  let int (num : Nat) (x : Int) : List (Nat × Value) := if x = 0 then [] else [(num, .varint (if 0 ≤ x then x else 2 ^ 64 + x).toNat)]
  str 1 v.id ++ int 2 v.time ++ str 3 v.host ++ str 4 v.name ++ int 5 v.index ++ v.args.map (fun a => (6, .bytes a)) ++ str 255 v.raw

/-- `b` is the message `m` as it stands in a log file, with its length in front, low byte first. -/
def Frame (m b : Bytes) : Prop :=
  ∃ c0 c1 c2 c3 : UInt8, b = c0 :: c1 :: c2 :: c3 :: m ∧ m.length = c0.toNat + 2 ^ 8 * c1.toNat + 2 ^ 16 * c2.toNat + 2 ^ 24 * c3.toNat

/-- No message stands at the front of `r`: not even the length is there, or less than the length says. -/
def Incomplete (r : Bytes) : Prop :=
  r.length < 4 ∨ ∃ (c0 c1 c2 c3 : UInt8) (m : Bytes), r = c0 :: c1 :: c2 :: c3 :: m ∧
    m.length < c0.toNat + 2 ^ 8 * c1.toNat + 2 ^ 16 * c2.toNat + 2 ^ 24 * c3.toNat

end Verif.Spec.PB
