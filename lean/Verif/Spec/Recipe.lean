import Verif.Spec.Desk
import Verif.Spec.Frame

/-!
What users build on single commands: tickets (INCR), a queue of work (RPUSH and LPOP) and a lock (SADD and SREM).
-/

namespace Verif.Spec

/-- Event `e` of the execution of requests is that of the request `objs`. -/
def RequestOf (tr : List Desk.Ev) (e : Nat × Env × Resp) (objs : List Resp) : Prop :=
  ∃ c o, (e.1, o) ∈ askedBy c (seenIn (serverOf tr)) ∧ ArrayOf o objs

/-- The request `objs` was executed, whoever sent it. -/
def Ran (tr : List Desk.Ev) (objs : List Resp) : Prop := ∃ e ∈ doneIn (seenIn (serverOf tr)), RequestOf tr e objs

open Classical in
/-- How many of the requests executed, with their replies, are `P`. -/
noncomputable def timesRan (tr : List Desk.Ev) (P : List Resp → Resp → Prop) : Nat :=
  (doneIn (seenIn (serverOf tr))).countP fun e => decide (∃ objs, RequestOf tr e objs ∧ P objs e.2.2)

/-- The line `l` is the command `x`. -/
def Says (l : Bytes) (x : Command) : Prop := ∃ ws, Words l ws ∧ Means (ws.map .bulk) x

/-- Line `i` of user `c` was the command `x`, and the user saw `r` for it. -/
def Got (tr : List Desk.Ev) (c i : Nat) (x : Command) (r : Resp) : Prop :=
  ∃ l, (typedBy c tr)[i]? = some l ∧ Says l x ∧ (shownTo c tr)[i]? = some r

/-- The reply to line `i` of user `c` was seen before line `j` of user `c'` was typed. -/
def Earlier (tr : List Desk.Ev) (c i c' j : Nat) : Prop :=
  ∃ before after, tr = before ++ after ∧ i < (shownTo c before).length ∧ (typedBy c' before).length ≤ j

/-- What went through the list `k`, used as a queue: `stock` is all there ever was in it, first what was in it at the beginning; the first `out` of it
have been taken out. What user `c` took with line `i` is number `item c i` of the stock, what they put in with line `i` begins at number `slot c i`. -/
structure Handed (U : Nat → Bool) (tr : List Desk.Ev) (k : Bytes) (init stock : List Bytes) (out : Nat) (item slot : Nat → Nat → Nat) : Prop where
  begins : init <+: stock
  taken : ∀ c i x, U c = true → Got tr c i (.lpop k) (.bulk x) → stock[item c i]? = some x ∧ item c i < out
  once : ∀ c c' i j x y, U c = true → U c' = true → Got tr c i (.lpop k) (.bulk x) → Got tr c' j (.lpop k) (.bulk y) → item c i = item c' j →
    c = c' ∧ i = j
  inTurn : ∀ c c' i j x y, U c = true → U c' = true → Got tr c i (.lpop k) (.bulk x) → Got tr c' j (.lpop k) (.bulk y) → Earlier tr c i c' j →
    item c i < item c' j
  put : ∀ c i vs n, U c = true → Got tr c i (.rpush k vs) (.int n) → init.length ≤ slot c i ∧ (stock.drop (slot c i)).take vs.length = vs
  apart : ∀ c c' i j vs ws n m, U c = true → U c' = true → Got tr c i (.rpush k vs) (.int n) → Got tr c' j (.rpush k ws) (.int m) →
    slot c i + vs.length ≤ slot c' j ∨ slot c' j + ws.length ≤ slot c i ∨ c = c' ∧ i = j
  after : ∀ c c' i j vs ws n m, U c = true → U c' = true → Got tr c i (.rpush k vs) (.int n) → Got tr c' j (.rpush k ws) (.int m) → Earlier tr c i c' j →
    slot c i + vs.length ≤ slot c' j
  empty : ∀ c c' i j vs n, U c = true → U c' = true → Got tr c i (.rpush k vs) (.int n) → Got tr c' j (.lpop k) .nullBulk → Earlier tr c i c' j →
    slot c i + vs.length ≤ out

/-- User `c` has the lock: they have put `m` into the set `k` where it was not, and have typed no line to remove it since. -/
def HasLock (tr : List Desk.Ev) (k m : Bytes) (c : Nat) : Prop :=
  ∃ i, Got tr c i (.sadd k [m]) (.int 1) ∧ ∀ (j : Nat) l, i < j → (typedBy c tr)[j]? = some l → ¬ Says l (.srem k [m])

end Verif.Spec
