import Verif.Model.Basic

/-!
Specification of decimal numerals, independent of how the code parses them.
-/

namespace Verif.Spec

/-- `c` is an ASCII decimal digit. -/
def IsDigit (c : UInt8) : Prop := 48 ≤ c.toNat ∧ c.toNat ≤ 57

instance (c : UInt8) : Decidable (IsDigit c) := by unfold IsDigit; infer_instance

/-- Mathematical value of a digit string, least significant digit last: `value (ds ++ [d]) = 10 * value ds + d`. -/
def value (ds : Bytes) : Nat := ds.foldl (fun n c => 10 * n + (c.toNat - 48)) 0

/-- `Numeral s v`: `s` is an optional sign followed by at least one digit, and denotes the integer `v`. -/
inductive Numeral : Bytes → Int → Prop where
  | plain {ds : Bytes} : ds ≠ [] → (∀ c ∈ ds, IsDigit c) → Numeral ds (value ds)
  | plus {ds : Bytes} : ds ≠ [] → (∀ c ∈ ds, IsDigit c) → Numeral (43 :: ds) (value ds)
  | minus {ds : Bytes} : ds ≠ [] → (∀ c ∈ ds, IsDigit c) → Numeral (45 :: ds) (-(value ds : Int))

end Verif.Spec
