import Verif.Model.Basic

/-! Specifications for string order, positions and windows. -/

namespace Verif.Spec

/-- Byte-lexicographic strict order. -/
inductive LexLt : Bytes → Bytes → Prop where
  | nil {b bs} : LexLt [] (b :: bs)
  | head {a b as bs} : a < b → LexLt (a :: as) (b :: bs)
  | tail {a as bs} : LexLt as bs → LexLt (a :: as) (a :: bs)

/-- The (possibly negative, counted from the end) index `i` denotes the existing position `p` of a sequence of length `n`. -/
def Denotes (i n p : Int) : Prop := 0 ≤ p ∧ p < n ∧ (i = p ∨ i = p - n)

/-- The index pair `l, r` denotes the non-empty window `[a, b]` of a sequence of length `n`: `l` denotes `a`; `r` denotes `b`, or lies
past the end and `b` is the last position. -/
def Window (l r n a b : Int) : Prop := Denotes l n a ∧ a ≤ b ∧ (Denotes r n b ∨ (n ≤ r ∧ b = n - 1))

/-- Elements of a window of a list. -/
def slice {α : Type} (xs : List α) (a b : Int) : List α := (xs.drop a.toNat).take (b + 1 - a).toNat

end Verif.Spec
