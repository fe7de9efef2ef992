import Verif.Spec.Recipe

/-!
Keys that are only written together, all with one MSET: the values they have one after the other, and which of them the users see.
-/

namespace Verif.Spec

/-- The keys `ks` have the values `rows` one after the other; line `i` of user `c` found, or made, number `ver c i`. -/
structure Rows (U : Nat → Bool) (tr : List Desk.Ev) (ks : List Bytes) (rows : List (Bytes → Option Bytes)) (ver : Nat → Nat → Nat) : Prop where
  reads : ∀ c i ks' r, U c = true → (∀ k ∈ ks', k ∈ ks) → Got tr c i (.mget ks') r → ∃ w, rows[ver c i]? = some w ∧ r = .array (ks'.map fun k => bulk? (w k))
  looks : ∀ c i k r, U c = true → k ∈ ks → Got tr c i (.get k) r → ∃ w, rows[ver c i]? = some w ∧ r = bulk? (w k)
  writes : ∀ c i vs r, U c = true → Got tr c i (.mset ks vs) r → r = okReply ∧ 0 < ver c i ∧ ∃ w, rows[ver c i]? = some w ∧ ks.map w = vs.map some
  once : ∀ c c' i j vs vs' r r', U c = true → U c' = true → Got tr c i (.mset ks vs) r → Got tr c' j (.mset ks vs') r' → ver c i = ver c' j → c = c' ∧ i = j
  ordered : ∀ c c' i j, U c = true → U c' = true → j < (shownTo c' tr).length → Earlier tr c i c' j → ver c i ≤ ver c' j
  anew : ∀ c c' i j vs r, U c = true → U c' = true → Got tr c' j (.mset ks vs) r → Earlier tr c i c' j → ver c i < ver c' j

end Verif.Spec
