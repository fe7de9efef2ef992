import Verif.Spec.Roll
import Verif.Spec.RecipeLives

/-!
A set that is only added to, over any number of processes that run one after the other on the same file.
-/

namespace Verif.Spec

/-- `Roll`, over processes: line `i` of user `c` of the process number `n` found the first `seen n c i` of the names. -/
structure RollIn (U : Nat → Bool) (trs : List (List Site.Ev)) (k : Bytes) (names : List Bytes) (seen : Nat → Nat → Nat → Nat) : Prop where
  distinct : names.Nodup
  within : ∀ n c i x r, U c = true → GotIn trs n c i x r → seen n c i ≤ names.length
  asks : ∀ n c i m r, m ≠ [] → U c = true → GotIn trs n c i (.sismember k m) r → r = .int (if m ∈ names.take (seen n c i) then 1 else 0)
  counts : ∀ n c i r, U c = true → GotIn trs n c i (.scard k) r → r = .int (seen n c i)
  lists : ∀ n c i r, U c = true → GotIn trs n c i (.smembers k) r →
    seen n c i = 0 ∧ r = .nullArray ∨ ∃ ms : List Bytes, ms.Perm (names.take (seen n c i)) ∧ r = .array (ms.map .bulk)
  adds : ∀ n c i ms r, U c = true → GotIn trs n c i (.sadd k ms) r → ∃ t : Nat, r = .int t ∧ t ≤ seen n c i ∧ (∀ m ∈ ms, m ∈ names.take (seen n c i)) ∧
    ∀ m ∈ (names.take (seen n c i)).drop (seen n c i - t), m ∈ ms
  ordered : ∀ n n' c c' i j x x' r r', U c = true → U c' = true → GotIn trs n c i x r → GotIn trs n' c' j x' r' → EarlierIn trs n c i n' c' j → seen n c i ≤ seen n' c' j
  anew : ∀ n n' c c' i j x ms r (t : Nat), U c = true → U c' = true → GotIn trs n c i x r → GotIn trs n' c' j (.sadd k ms) (.int t) → EarlierIn trs n c i n' c' j →
    seen n c i + t ≤ seen n' c' j
  apart : ∀ n n' c c' i j ms ms' (t t' : Nat), U c = true → U c' = true → GotIn trs n c i (.sadd k ms) (.int t) → GotIn trs n' c' j (.sadd k ms') (.int t') →
    seen n c i + t' ≤ seen n' c' j ∨ seen n' c' j + t ≤ seen n c i ∨ n = n' ∧ c = c' ∧ i = j

end Verif.Spec
