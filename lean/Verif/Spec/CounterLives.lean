import Verif.Spec.Counter
import Verif.Spec.RecipeLives

/-!
A key that is only added to and subtracted from, over any number of processes that run one after the other on the same file.
-/

namespace Verif.Spec

/-- `Counter`, over processes: line `i` of user `c` of the process number `n` finds the first `seen n c i` of the amounts counted. -/
structure CounterIn (U : Nat → Bool) (trs : List (List Site.Ev)) (k : Bytes) (v : Int) (ds : List Int) (seen : Nat → Nat → Nat → Nat) : Prop where
  within : ∀ n c i x r, U c = true → GotIn trs n c i x r → seen n c i ≤ ds.length
  adds : ∀ n c i x e r, U c = true → GotIn trs n c i x r → AddsTo k x e →
    0 < seen n c i ∧ ds[seen n c i - 1]? = some e ∧ ∃ w, Wraps (v + (ds.take (seen n c i)).sum) w ∧ r = .int w
  reads : ∀ n c i r, U c = true → GotIn trs n c i (.get k) r → ∃ t w, Wraps (v + (ds.take (seen n c i)).sum) w ∧ IsInt t w ∧ r = .bulk t
  once : ∀ n n' c c' i j x x' e e' r r', U c = true → U c' = true → GotIn trs n c i x r → AddsTo k x e → GotIn trs n' c' j x' r' → AddsTo k x' e' →
    seen n c i = seen n' c' j → n = n' ∧ c = c' ∧ i = j
  ordered : ∀ n n' c c' i j x x' r r', U c = true → U c' = true → GotIn trs n c i x r → GotIn trs n' c' j x' r' → EarlierIn trs n c i n' c' j → seen n c i ≤ seen n' c' j
  anew : ∀ n n' c c' i j x x' e r r', U c = true → U c' = true → GotIn trs n c i x r → GotIn trs n' c' j x' r' → AddsTo k x' e → EarlierIn trs n c i n' c' j →
    seen n c i < seen n' c' j

end Verif.Spec
