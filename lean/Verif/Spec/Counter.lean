import Verif.Spec.Recipe

/-!
A key that is only added to and subtracted from, with INCR, INCRBY, DECR and DECRBY: the amounts one after the other, and which of them the users find counted.
-/

namespace Verif.Spec

/-- The command adds `d` to the key `k`. -/
def AddsTo (k : Bytes) (x : Command) (d : Int) : Prop := ∃ arg n, IsInt arg n ∧ (x = .incr k arg ∧ d = n ∨ x = .decr k arg ∧ d = -n)

/-- The key `k` held `v`, and then the amounts `ds` are added one after the other; line `i` of user `c` finds the first `seen c i` of them counted, its own last. Numbers are
kept in 64 bits. -/
structure Counter (U : Nat → Bool) (tr : List Desk.Ev) (k : Bytes) (v : Int) (ds : List Int) (seen : Nat → Nat → Nat) : Prop where
  within : ∀ c i, U c = true → i < (shownTo c tr).length → seen c i ≤ ds.length
  adds : ∀ c i x d r, U c = true → Got tr c i x r → AddsTo k x d →
    0 < seen c i ∧ ds[seen c i - 1]? = some d ∧ ∃ n, Wraps (v + (ds.take (seen c i)).sum) n ∧ r = .int n
  reads : ∀ c i r, U c = true → Got tr c i (.get k) r → ∃ t n, Wraps (v + (ds.take (seen c i)).sum) n ∧ IsInt t n ∧ r = .bulk t
  once : ∀ c c' i j x x' d d' r r', U c = true → U c' = true → Got tr c i x r → AddsTo k x d → Got tr c' j x' r' → AddsTo k x' d' → seen c i = seen c' j → c = c' ∧ i = j
  ordered : ∀ c c' i j, U c = true → U c' = true → j < (shownTo c' tr).length → Earlier tr c i c' j → seen c i ≤ seen c' j
  anew : ∀ c c' i j x d r, U c = true → U c' = true → Got tr c' j x r → AddsTo k x d → Earlier tr c i c' j → seen c i < seen c' j

end Verif.Spec
