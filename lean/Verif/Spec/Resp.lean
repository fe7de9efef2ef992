import Verif.Model.Resp

/-!
Specification side of RESP: which objects can be written on the wire unambiguously.
Only the object type `Resp` is shared with the model.
-/

namespace Verif.Spec

/-- Text that can stand on a line of its own: no CRLF inside and no two consecutive LFs. -/
def LineSafe (d : Bytes) : Prop := ¬ ([13, 10] : Bytes) <:+: d ∧ ¬ ([10, 10] : Bytes) <:+: d

/-- Every simple string and error inside the object, at any depth, is `LineSafe`. Bulk strings are unrestricted. -/
inductive Clean : Resp → Prop where
  | simple {d} : LineSafe d → Clean (.simple d)
  | bulk {d} : Clean (.bulk d)
  | nullBulk : Clean .nullBulk
  | error {d} : LineSafe d → Clean (.error d)
  | int {n} : Clean (.int n)
  | array {items} : (∀ o ∈ items, Clean o) → Clean (.array items)
  | nullArray : Clean .nullArray

/-- Values a 64-bit Go program can hold: integers in the `int64` range and lengths below 2^63 (two spare bytes for a bulk trailer). -/
inductive Sized : Resp → Prop where
  | simple {d} : Sized (.simple d)
  | bulk {d : Bytes} : d.length + 2 < 2 ^ 63 → Sized (.bulk d)
  | nullBulk : Sized .nullBulk
  | error {d} : Sized (.error d)
  | int {n : Int} : -2 ^ 63 ≤ n → n < 2 ^ 63 → Sized (.int n)
  | array {items} : items.length < 2 ^ 63 → (∀ o ∈ items, Sized o) → Sized (.array items)
  | nullArray : Sized .nullArray

end Verif.Spec
