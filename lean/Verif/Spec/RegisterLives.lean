import Verif.Spec.Register
import Verif.Spec.RecipeLives

/-!
A key that is only read with GET and written with SET, over any number of processes that run one after the other on the same file.
-/

namespace Verif.Spec

/-- `Register`, over processes: line `i` of user `c` of the process number `n` found, or made, value number `ver n c i` of the key `k`. -/
structure RegisterIn (U : Nat → Bool) (trs : List (List Site.Ev)) (k : Bytes) (vals : List (Option Bytes)) (ver : Nat → Nat → Nat → Nat) : Prop where
  reads : ∀ n c i r, U c = true → GotIn trs n c i (.get k) r → ∃ v, vals[ver n c i]? = some v ∧ r = bulk? v
  writes : ∀ n c i v r, U c = true → GotIn trs n c i (.set k v) r → r = okReply ∧ 0 < ver n c i ∧ vals[ver n c i]? = some (some v)
  once : ∀ n n' c c' i j v w r r', U c = true → U c' = true → GotIn trs n c i (.set k v) r → GotIn trs n' c' j (.set k w) r' → ver n c i = ver n' c' j →
    n = n' ∧ c = c' ∧ i = j
  ordered : ∀ n n' c c' i j x x' r r', U c = true → U c' = true → GotIn trs n c i x r → GotIn trs n' c' j x' r' → EarlierIn trs n c i n' c' j → ver n c i ≤ ver n' c' j
  anew : ∀ n n' c c' i j x v r r', U c = true → U c' = true → GotIn trs n c i x r → GotIn trs n' c' j (.set k v) r' → EarlierIn trs n c i n' c' j →
    ver n c i < ver n' c' j

end Verif.Spec
