import Verif.Spec.Util

/-! Pure operations on sequences, the specification of a list key. -/

namespace Verif.Spec

variable {α : Type} [DecidableEq α]

/-- Remove the first `n` occurrences of `x` (each step erases the first remaining one). -/
def removeFirst : Nat → α → List α → List α
  | 0, _, xs => xs
  | n + 1, x, xs => removeFirst n x (xs.erase x)

/-- Remove the last `n` occurrences of `x`. -/
def removeLast (n : Nat) (x : α) (xs : List α) : List α := (removeFirst n x xs.reverse).reverse

/-- Remove every occurrence of `x`. -/
def removeAll (x : α) (xs : List α) : List α := xs.filter (· ≠ x)

/-- `pre` ends right before the first occurrence of `x` in `pre ++ x :: post`. -/
def FirstAt (x : α) (pre post xs : List α) : Prop := xs = pre ++ x :: post ∧ x ∉ pre

/-- The window a pair of positions denotes for a list key: a right bound below `-n` is first moved up by `n`, which the documented
meaning (`Window`) does not do. -/
def ListWindow (l r n a b : Int) : Prop := Window l (if r < -n then r + n else r) n a b

/-- The outcome of removing `n` occurrences as requested by a 64-bit count: from the front, from the back, or all. The count `-2^63`
has no 64-bit absolute value and removes nothing. -/
def lrem (n : Int) (x : α) (xs : List α) : List α :=
  if n > 0 then removeFirst n.toNat x xs
  else if n = 0 then removeAll x xs
  else if n = minInt64 then xs
  else removeLast (-n).toNat x xs

end Verif.Spec
