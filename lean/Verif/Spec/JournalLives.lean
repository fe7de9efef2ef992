import Verif.Spec.Journal
import Verif.Spec.RecipeLives

/-!
A list that is only appended to, over any number of processes that run one after the other on the same file.
-/

namespace Verif.Spec

/-- `Journal`, over processes: line `i` of user `c` of the process number `n` found the first `seen n c i` of the entries. -/
structure JournalIn (U : Nat → Bool) (trs : List (List Site.Ev)) (k : Bytes) (entries : List Bytes) (seen : Nat → Nat → Nat → Nat) : Prop where
  within : ∀ n c i x r, U c = true → GotIn trs n c i x r → seen n c i ≤ entries.length
  counts : ∀ n c i r, U c = true → GotIn trs n c i (.llen k) r → r = .int (seen n c i)
  looks : ∀ n c i (p : Nat) r, U c = true → GotIn trs n c i (.lindex k p) r → r = bulk? (entries.take (seen n c i))[p]?
  lists : ∀ n c i r, U c = true → GotIn trs n c i (.lrange k 0 (-1)) r → r = if seen n c i = 0 then .nullArray else .array ((entries.take (seen n c i)).map .bulk)
  appends : ∀ n c i vs l, U c = true → GotIn trs n c i (.rpush k vs) (.int l) →
    l = seen n c i ∧ vs.length ≤ seen n c i ∧ (entries.drop (seen n c i - vs.length)).take vs.length = vs
  ordered : ∀ n n' c c' i j x x' r r', U c = true → U c' = true → GotIn trs n c i x r → GotIn trs n' c' j x' r' → EarlierIn trs n c i n' c' j → seen n c i ≤ seen n' c' j
  anew : ∀ n n' c c' i j x vs r l, U c = true → U c' = true → GotIn trs n c i x r → GotIn trs n' c' j (.rpush k vs) (.int l) → EarlierIn trs n c i n' c' j →
    seen n c i + vs.length ≤ seen n' c' j
  apart : ∀ n n' c c' i j vs ws l l', U c = true → U c' = true → GotIn trs n c i (.rpush k vs) (.int l) → GotIn trs n' c' j (.rpush k ws) (.int l') →
    seen n c i + ws.length ≤ seen n' c' j ∨ seen n' c' j + vs.length ≤ seen n c i ∨ n = n' ∧ c = c' ∧ i = j

end Verif.Spec
