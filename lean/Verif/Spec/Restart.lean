import Verif.Spec.History

/-! What of a history is in the log, and what a server that starts on it executes. -/

namespace Verif

open Spec

namespace Spec

/-- The commands that are logged. -/
def loggedNames : List Bytes :=
  [ b!"set", b!"mset", b!"append", b!"incr", b!"incrby", b!"decr", b!"decrby", b!"lpop", b!"rpop", b!"lpush", b!"rpush", b!"lset", b!"lrem", b!"linsert"
  , b!"hset", b!"hdel", b!"sadd", b!"srem", b!"spop" ]

end Spec

/-- The request leaves a record: it is a well-formed request for one of these commands, and all its strings are UTF-8. -/
def Req.Recorded (q : Req) : Prop := (∃ c, Means q.objs c) ∧ (∃ n ∈ loggedNames, q.Is n) ∧ ∀ o ∈ q.objs, TextObj o

namespace Spec

open Classical in
/-- The requests of a history that leave a record. -/
noncomputable def recorded (h : List Req) : List Req := h.filter fun q => decide q.Recorded

/-- The same requests once more, in the surroundings `envs`. -/
def again (envs : Nat → Env) (h : List Req) : List (Env × List Resp) := h.mapIdx fun i q => (envs i, q.objs)

/-- A server whose database 1 was filled by executing requests, or that died doing so. -/
def filledBy : Outcome (State × List Resp) → Outcome DBs
  | .ok (st, _) => .ok fun i => if i = 1 then st else State.empty
  | .panic => .panic
  | .diverge => .diverge

end Spec

end Verif
