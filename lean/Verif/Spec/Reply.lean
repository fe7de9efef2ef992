import Verif.Spec.Request
import Verif.Spec.Wire
import Verif.Spec.Literal

/-! What the error replies of the server quote. -/

namespace Verif.Spec

/-- The object is not a string. -/
def NotText (o : Resp) : Prop := ∀ n, ¬ IsText o n

/-- A request to add `v`, which is not a 64-bit integer, to the number at `k`. -/
def BadStep (objs : List Resp) (k v : Bytes) : Prop := (Request objs b!"incrby" [k, v] ∨ Request objs b!"decrby" [k, v]) ∧ ¬ ∃ d, IsInt v d

/-- A request to push `vs` onto the list with the empty name. -/
def NoList (objs : List Resp) (vs : List Bytes) : Prop := vs ≠ [] ∧ (Request objs b!"lpush" ([] :: vs) ∨ Request objs b!"rpush" ([] :: vs))

/-- `t` is a part of the request that the server repeats in its error reply byte by byte. -/
inductive Repeated : List Resp → Bytes → Prop where
  | name {o : Resp} {os : List Resp} : NotText o → Repeated (o :: os) o.encode
  | key {objs : List Resp} {k v : Bytes} : BadStep objs k v → Repeated objs k
  | value {objs : List Resp} {vs : List Bytes} {v : Bytes} : NoList objs vs → v ∈ vs → Repeated objs v

/-- The request names its command `n`. -/
def Named (objs : List Resp) (n : Bytes) : Prop := ∃ o os, objs = o :: os ∧ IsText o n

/-- A printed address. -/
def Pointer (p : Bytes) : Prop := p = b!"<nil>" ∨ ∃ ds : Bytes, p = b!"0x" ++ ds ∧ ds ≠ [] ∧ ds.head? ≠ some 48 ∧
  ∀ c ∈ ds, 48 ≤ c.toNat ∧ c.toNat ≤ 57 ∨ 97 ≤ c.toNat ∧ c.toNat ≤ 102

/-- A printed string: one line, a string literal of Go that stands for the string; of the characters of Latin-1 it contains only those that can be seen,
and those stand for themselves unless there are quotes, backslashes or other characters. -/
def PrintedAs (v w : Bytes) : Prop := (∃ u, w = b!"\"" ++ u ++ b!"\"" ∧ StandsFor u v) ∧ OneLine w ∧
  (∃ cs : List Nat, (∀ c ∈ cs, Scalar c ∧ (c ≤ 0xFF → Visible c)) ∧ w = cs.flatMap utf8Encode) ∧
  ∀ cs : List Nat, (∀ c ∈ cs, Visible c ∧ c ≠ 34 ∧ c ≠ 92) → v = cs.flatMap utf8Encode → w = b!"\"" ++ v ++ b!"\""

/-- What is wrong with a text that is not a 64-bit integer: it is one that does not fit, or it begins, after its sign, with digits whose value does
not even fit into 64 bits without sign; or it is none. -/
def TooBig (v : Bytes) : Prop := (∃ x, Numeral v x) ∨
  ∃ sign ds rest : Bytes, v = sign ++ ds ++ rest ∧ (sign = [] ∨ sign = b!"+" ∨ sign = b!"-") ∧ (∀ c ∈ ds, IsDigit c) ∧ 2 ^ 64 ≤ value ds

/-- Items with a space between two. -/
def listed : List Bytes → Bytes
  | [] => []
  | [x] => x
  | x :: xs => x ++ b!" " ++ listed xs

/-- What the text of an internal error says after its fixed beginning. -/
inductive Explains : List Resp → Bytes → Prop where
  | empty : Explains [] b!"empty request objects"
  | name {o : Resp} {os : List Resp} : NotText o → Explains (o :: os) (b!"invalid command name, raw=" ++ o.encode)
  | step {objs : List Resp} {n k v w why p q r : Bytes} : BadStep objs k v → Named objs n → PrintedAs v w → Pointer p → Pointer q → Pointer r →
      (TooBig v ∧ why = b!"value out of range") ∨ (¬ TooBig v ∧ why = b!"invalid syntax") →
      Explains objs (b!"execute error. name=" ++ n ++ b!", command=&{key:" ++ k ++ b!" index:1 accessObject:" ++ p ++ b!" arguments:" ++ q ++
        b!" result:<nil> err:" ++ r ++ b!"}, err={strconv.ParseInt: parsing " ++ w ++ b!": " ++ why ++ b!"}")
  | push {objs : List Resp} {n p : Bytes} {vs : List Bytes} : NoList objs vs → Named objs n → Pointer p →
      Explains objs (b!"execute error. name=" ++ n ++ b!", command=&{key: index:1 accessObject:<nil> arguments:[" ++ listed vs ++
        b!"] result:<nil> err:" ++ p ++ b!"}, err={nil access object}")
  | mset {objs : List Resp} {n p : Bytes} : Request objs b!"mset" [] → Named objs n → Pointer p →
      Explains objs (b!"execute error. name=" ++ n ++ b!", command=&{index:1 accessObject:<nil> keys:[] values:[] result:<nil> err:" ++ p ++
        b!"}, err={nil access object}")

end Verif.Spec
