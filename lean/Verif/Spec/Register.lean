import Verif.Spec.Recipe

/-!
A key that is only read with GET and written with SET: the values it has one after the other, and which of them the users see.
-/

namespace Verif.Spec

/-- The key `k` has the values `vals` one after the other; line `i` of user `c` found, or made, number `ver c i`. -/
structure Register (U : Nat → Bool) (tr : List Desk.Ev) (k : Bytes) (vals : List (Option Bytes)) (ver : Nat → Nat → Nat) : Prop where
  reads : ∀ c i r, U c = true → Got tr c i (.get k) r → ∃ v, vals[ver c i]? = some v ∧ r = bulk? v
  writes : ∀ c i v r, U c = true → Got tr c i (.set k v) r → r = okReply ∧ 0 < ver c i ∧ vals[ver c i]? = some (some v)
  once : ∀ c c' i j v w r r', U c = true → U c' = true → Got tr c i (.set k v) r → Got tr c' j (.set k w) r' → ver c i = ver c' j → c = c' ∧ i = j
  ordered : ∀ c c' i j, U c = true → U c' = true → j < (shownTo c' tr).length → Earlier tr c i c' j → ver c i ≤ ver c' j
  anew : ∀ c c' i j v r, U c = true → U c' = true → Got tr c' j (.set k v) r → Earlier tr c i c' j → ver c i < ver c' j

end Verif.Spec
