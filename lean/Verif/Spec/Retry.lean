import Verif.Spec.Isolation

/-! Sending a request again. -/

namespace Verif.Spec

/-- Commands that say what is to be the case afterwards, not how it is to change. -/
def assertive : List Bytes := [b!"set", b!"mset", b!"lset", b!"hset", b!"hdel", b!"sadd", b!"srem"]

/-- A request that may be repeated: one of the commands above, or LREM of all occurrences. -/
def Repeatable (objs : List Resp) : Prop :=
  (∃ n ∈ assertive, ∃ os, Calls objs n os) ∨ ∃ k l v, Request objs b!"lrem" [k, l, v] ∧ IsInt l 0

/-- The answer to the repetition: zero where the first answer was a number, namely the number of changes made, and the same otherwise. -/
def AnsweredAgain (r r' : Resp) : Prop := (∃ n, r = .int n ∧ r' = .int 0) ∨ ((∀ n, r ≠ .int n) ∧ SameReply r r')

end Verif.Spec
