import Verif.Spec.Request

/-! What a request may change, when it kills the server, and what its reply looks like. -/

namespace Verif.Spec

/-- The four namespaces. -/
inductive Space where
  | str
  | list
  | hash
  | set
deriving DecidableEq

/-- Commands that may change the key given as their first argument. -/
def writers : Space → List Bytes
  | .str => [b!"set", b!"append", b!"incr", b!"incrby", b!"decr", b!"decrby"]
  | .list => [b!"lpush", b!"rpush", b!"lpop", b!"rpop", b!"linsert", b!"lset", b!"lrem", b!"ltrim"]
  | .hash => [b!"hset", b!"hdel"]
  | .set => [b!"sadd", b!"srem", b!"spop"]

/-- The request names `k` as a key to write in the given namespace: as first argument of a writing command, or at an even position of
MSET. -/
def Writes (sp : Space) (objs : List Resp) (k : Bytes) : Prop :=
  (∃ name ∈ writers sp, ∃ o os, Calls objs name (o :: os) ∧ IsText o k) ∨
  (sp = .str ∧ ∃ os i o, Calls objs b!"mset" os ∧ os[2 * i]? = some o ∧ IsText o k)

/-- `HSET key` without any field. -/
def BareHset (objs : List Resp) : Prop := ∃ k, k ≠ [] ∧ Request objs b!"hset" [k]

/-- The requests that kill the server, depending on what is stored. -/
def Fatal (a : DB) (objs : List Resp) : Prop :=
  (∃ fs vs, fs.length = vs.length ∧ Request objs b!"hset" ([] :: weave fs vs)) ∨
  (∃ ms, ms ≠ [] ∧ (Request objs b!"sadd" ([] :: ms) ∨ Request objs b!"srem" ([] :: ms))) ∨
  (∃ k, (Request objs b!"spop" [k] ∨ Request objs b!"srandmember" [k]) ∧ a.sets k = some ∅) ∨
  (∃ k l n xs, Request objs b!"lrem" [k, l, b!"dummy string"] ∧ IsInt l n ∧ a.lists k = some xs ∧ ¬ (n = 0 ∧ xs = []) ∧ n ≠ -2 ^ 63) ∨
  (∃ k w v xs, Request objs b!"linsert" [k, w, b!"dummy string", v] ∧ Folds w b!"before" ∧ a.lists k = some xs)

/-- The documented type of a successful reply, by command name and number of arguments. -/
def Shape (name : Bytes) (argc : Nat) (r : Resp) : Prop :=
  (name ∈ [b!"set", b!"mset", b!"lset", b!"ltrim"] ∧ r = .simple b!"OK") ∨
  (name ∈ [b!"exists", b!"strlen", b!"append", b!"incr", b!"incrby", b!"decr", b!"decrby", b!"llen", b!"lpush", b!"rpush", b!"linsert",
      b!"lrem", b!"hset", b!"hdel", b!"hexists", b!"hlen", b!"hstrlen", b!"sadd", b!"srem", b!"sismember", b!"scard"] ∧ ∃ n, r = .int n) ∨
  (name ∈ [b!"get", b!"lpop", b!"rpop", b!"lindex", b!"hget"] ∧ ((∃ d, r = .bulk d) ∨ r = .nullBulk)) ∨
  (name = b!"getrange" ∧ ∃ d, r = .bulk d) ∨
  (name = b!"mget" ∧ ∃ xs : List (Option Bytes), xs.length = argc ∧ r = .array (xs.map bulk?)) ∨
  (name = b!"hmget" ∧ ∃ xs : List (Option Bytes), xs.length + 1 = argc ∧ r = .array (xs.map bulk?)) ∨
  (name ∈ [b!"lrange", b!"hkeys", b!"hvals", b!"hgetall", b!"smembers", b!"sdiff", b!"sinter", b!"sunion"] ∧
    ((∃ xs : List Bytes, r = .array (xs.map .bulk)) ∨ r = .nullArray)) ∨
  (name ∈ [b!"spop", b!"srandmember"] ∧ argc = 1 ∧ ((∃ d, r = .bulk d) ∨ r = .nullBulk)) ∨
  (name ∈ [b!"spop", b!"srandmember"] ∧ argc = 2 ∧ ((∃ xs : List Bytes, r = .array (xs.map .bulk)) ∨ r = .nullArray))

end Verif.Spec
