import Verif.Spec.Recipe

/-!
A set that is only added to, with SADD, and read with SISMEMBER, SCARD and SMEMBERS: a roll on which everybody signs at most once.
-/

namespace Verif.Spec

/-- The set `k` is the roll `names`, in the order in which they came, and line `i` of user `c` found the first `seen c i` of them, those it added among them. A
line that is told that it added `t` names added the last `t` of those it found. -/
structure Roll (U : Nat → Bool) (tr : List Desk.Ev) (k : Bytes) (names : List Bytes) (seen : Nat → Nat → Nat) : Prop where
  distinct : names.Nodup
  within : ∀ c i, U c = true → i < (shownTo c tr).length → seen c i ≤ names.length
  asks : ∀ c i m r, m ≠ [] → U c = true → Got tr c i (.sismember k m) r → r = .int (if m ∈ names.take (seen c i) then 1 else 0)
  counts : ∀ c i r, U c = true → Got tr c i (.scard k) r → r = .int (seen c i)
  lists : ∀ c i r, U c = true → Got tr c i (.smembers k) r →
    seen c i = 0 ∧ r = .nullArray ∨ ∃ ms : List Bytes, ms.Perm (names.take (seen c i)) ∧ r = .array (ms.map .bulk)
  adds : ∀ c i ms r, U c = true → Got tr c i (.sadd k ms) r → ∃ t : Nat, r = .int t ∧ t ≤ seen c i ∧ (∀ m ∈ ms, m ∈ names.take (seen c i)) ∧
    ∀ m ∈ (names.take (seen c i)).drop (seen c i - t), m ∈ ms
  ordered : ∀ c c' i j, U c = true → U c' = true → j < (shownTo c' tr).length → Earlier tr c i c' j → seen c i ≤ seen c' j
  anew : ∀ c c' i j ms (t : Nat), U c = true → U c' = true → Got tr c' j (.sadd k ms) (.int t) → Earlier tr c i c' j → seen c i + t ≤ seen c' j
  apart : ∀ c c' i j ms ms' (t t' : Nat), U c = true → U c' = true → Got tr c i (.sadd k ms) (.int t) → Got tr c' j (.sadd k ms') (.int t') →
    seen c i + t' ≤ seen c' j ∨ seen c' j + t ≤ seen c i ∨ c = c' ∧ i = j

end Verif.Spec
