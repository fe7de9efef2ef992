import Verif.Spec.Recipe

/-!
A list that is only appended to, with RPUSH, and read with LLEN, LINDEX and LRANGE: a log of entries that all users read alike.
-/

namespace Verif.Spec

/-- The list `k` is the log `entries`, and line `i` of user `c` found the first `seen c i` of them, its own among them if it appended some. -/
structure Journal (U : Nat → Bool) (tr : List Desk.Ev) (k : Bytes) (entries : List Bytes) (seen : Nat → Nat → Nat) : Prop where
  within : ∀ c i, U c = true → i < (shownTo c tr).length → seen c i ≤ entries.length
  counts : ∀ c i r, U c = true → Got tr c i (.llen k) r → r = .int (seen c i)
  looks : ∀ c i (n : Nat) r, U c = true → Got tr c i (.lindex k n) r → r = bulk? (entries.take (seen c i))[n]?
  lists : ∀ c i r, U c = true → Got tr c i (.lrange k 0 (-1)) r → r = if seen c i = 0 then .nullArray else .array ((entries.take (seen c i)).map .bulk)
  appends : ∀ c i vs n, U c = true → Got tr c i (.rpush k vs) (.int n) →
    n = seen c i ∧ vs.length ≤ seen c i ∧ (entries.drop (seen c i - vs.length)).take vs.length = vs
  ordered : ∀ c c' i j, U c = true → U c' = true → j < (shownTo c' tr).length → Earlier tr c i c' j → seen c i ≤ seen c' j
  anew : ∀ c c' i j vs n, U c = true → U c' = true → Got tr c' j (.rpush k vs) (.int n) → Earlier tr c i c' j → seen c i + vs.length ≤ seen c' j
  apart : ∀ c c' i j vs ws n m, U c = true → U c' = true → Got tr c i (.rpush k vs) (.int n) → Got tr c' j (.rpush k ws) (.int m) →
    seen c i + ws.length ≤ seen c' j ∨ seen c' j + vs.length ≤ seen c i ∨ c = c' ∧ i = j

end Verif.Spec
