import Verif.Spec.Recipe
import Verif.Spec.Site

/-!
What users build on single commands, over any number of processes that run one after the other on the same file.
-/

namespace Verif.Spec

/-- In the process number `n`, line `i` of user `c` was the command `x`, and the user saw `r` for it. -/
def GotIn (trs : List (List Site.Ev)) (n c i : Nat) (x : Command) (r : Resp) : Prop := ∃ tr, trs[n]? = some tr ∧ Got (deskOf tr) c i x r

/-- The reply to line `i` of user `c` of the process number `n` was seen before line `j` of user `c'` of the process number `n'` was typed. -/
def EarlierIn (trs : List (List Site.Ev)) (n c i n' c' j : Nat) : Prop :=
  n < n' ∨ n = n' ∧ ∃ tr, trs[n]? = some tr ∧ Earlier (deskOf tr) c i c' j

/-- `Handed`, over processes: `stock` is all there ever was in the list `k`, the first `out` of it have been taken out. -/
structure HandedIn (U : Nat → Bool) (trs : List (List Site.Ev)) (k : Bytes) (stock : List Bytes) (out : Nat) (item slot : Nat → Nat → Nat → Nat) : Prop where
  taken : ∀ n c i x, U c = true → GotIn trs n c i (.lpop k) (.bulk x) → stock[item n c i]? = some x ∧ item n c i < out
  once : ∀ n n' c c' i j x y, U c = true → U c' = true → GotIn trs n c i (.lpop k) (.bulk x) → GotIn trs n' c' j (.lpop k) (.bulk y) →
    item n c i = item n' c' j → n = n' ∧ c = c' ∧ i = j
  inTurn : ∀ n n' c c' i j x y, U c = true → U c' = true → GotIn trs n c i (.lpop k) (.bulk x) → GotIn trs n' c' j (.lpop k) (.bulk y) →
    EarlierIn trs n c i n' c' j → item n c i < item n' c' j
  put : ∀ n c i vs l, U c = true → GotIn trs n c i (.rpush k vs) (.int l) → (stock.drop (slot n c i)).take vs.length = vs
  apart : ∀ n n' c c' i j vs ws l l', U c = true → U c' = true → GotIn trs n c i (.rpush k vs) (.int l) → GotIn trs n' c' j (.rpush k ws) (.int l') →
    slot n c i + vs.length ≤ slot n' c' j ∨ slot n' c' j + ws.length ≤ slot n c i ∨ n = n' ∧ c = c' ∧ i = j
  after : ∀ n n' c c' i j vs ws l l', U c = true → U c' = true → GotIn trs n c i (.rpush k vs) (.int l) → GotIn trs n' c' j (.rpush k ws) (.int l') →
    EarlierIn trs n c i n' c' j → slot n c i + vs.length ≤ slot n' c' j
  empty : ∀ n n' c c' i j vs l, U c = true → U c' = true → GotIn trs n c i (.rpush k vs) (.int l) → GotIn trs n' c' j (.lpop k) .nullBulk →
    EarlierIn trs n c i n' c' j → slot n c i + vs.length ≤ out

end Verif.Spec
