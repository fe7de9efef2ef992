import Verif.Spec.Row
import Verif.Spec.RecipeLives

/-!
Keys that are only written together, over any number of processes that run one after the other on the same file.
-/

namespace Verif.Spec

/-- `Rows`, over processes: line `i` of user `c` of the process number `n` found, or made, row number `ver n c i` of the keys `ks`. -/
structure RowsIn (U : Nat → Bool) (trs : List (List Site.Ev)) (ks : List Bytes) (rows : List (Bytes → Option Bytes)) (ver : Nat → Nat → Nat → Nat) : Prop where
  reads : ∀ n c i ks' r, U c = true → (∀ k ∈ ks', k ∈ ks) → GotIn trs n c i (.mget ks') r → ∃ w, rows[ver n c i]? = some w ∧ r = .array (ks'.map fun k => bulk? (w k))
  looks : ∀ n c i k r, U c = true → k ∈ ks → GotIn trs n c i (.get k) r → ∃ w, rows[ver n c i]? = some w ∧ r = bulk? (w k)
  writes : ∀ n c i vs r, U c = true → GotIn trs n c i (.mset ks vs) r → r = okReply ∧ 0 < ver n c i ∧ ∃ w, rows[ver n c i]? = some w ∧ ks.map w = vs.map some
  once : ∀ n n' c c' i j vs vs' r r', U c = true → U c' = true → GotIn trs n c i (.mset ks vs) r → GotIn trs n' c' j (.mset ks vs') r' → ver n c i = ver n' c' j →
    n = n' ∧ c = c' ∧ i = j
  ordered : ∀ n n' c c' i j x x' r r', U c = true → U c' = true → GotIn trs n c i x r → GotIn trs n' c' j x' r' → EarlierIn trs n c i n' c' j → ver n c i ≤ ver n' c' j
  anew : ∀ n n' c c' i j x vs r r', U c = true → U c' = true → GotIn trs n c i x r → GotIn trs n' c' j (.mset ks vs) r' → EarlierIn trs n c i n' c' j →
    ver n c i < ver n' c' j

end Verif.Spec
