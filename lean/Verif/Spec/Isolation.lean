import Verif.Spec.History
import Verif.Spec.Frame

/-! Which keys a request is about, and clients that keep to their own keys. -/

namespace Verif.Spec

/-- Commands whose only key is their first argument. -/
def oneKey : Space → List Bytes
  | .str => [b!"set", b!"get", b!"strlen", b!"append", b!"incr", b!"incrby", b!"decr", b!"decrby", b!"getrange"]
  | .list => [b!"lpop", b!"rpop", b!"lindex", b!"linsert", b!"llen", b!"lpush", b!"rpush", b!"lrange", b!"ltrim", b!"lrem", b!"lset"]
  | .hash => [b!"hset", b!"hget", b!"hexists", b!"hdel", b!"hmget", b!"hkeys", b!"hvals", b!"hgetall", b!"hstrlen", b!"hlen"]
  | .set => [b!"sadd", b!"srem", b!"sismember", b!"smembers", b!"srandmember", b!"spop", b!"scard"]

/-- Commands all of whose arguments are keys. -/
def manyKeys : Space → List Bytes
  | .str => [b!"mget", b!"exists"]
  | .list => []
  | .hash => []
  | .set => [b!"sdiff", b!"sinter", b!"sunion"]

/-- The request mentions `k` as a key of the given namespace, according to the documented syntax. -/
def Names (sp : Space) (objs : List Resp) (k : Bytes) : Prop :=
  (∃ name ∈ oneKey sp, ∃ o os, Calls objs name (o :: os) ∧ IsText o k) ∨
  (∃ name ∈ manyKeys sp, ∃ o os, Calls objs name os ∧ o ∈ os ∧ IsText o k) ∨
  (sp = .str ∧ ∃ os i o, Calls objs b!"mset" os ∧ os[2 * i]? = some o ∧ IsText o k)

/-- The two databases hold the same under all keys with property `P`. -/
structure AgreeOn (P : Space → Bytes → Prop) (a b : DB) : Prop where
  strs : ∀ k, P .str k → a.strs k = b.strs k
  lists : ∀ k, P .list k → a.lists k = b.lists k
  hashes : ∀ k, P .hash k → a.hashes k = b.hashes k
  sets : ∀ k, P .set k → a.sets k = b.sets k

/-- A request and the client that sent it. -/
abbrev Sent := Nat × Env × List Resp

/-- What client `i` sent, in order. -/
def sentBy (i : Nat) (qs : List Sent) : List (Env × List Resp) := (qs.filter fun q => q.1 = i).map Prod.snd

/-- What client `i` was told, in order, when the requests `qs` were answered with `rs`. -/
def toldTo (i : Nat) (qs : List Sent) (rs : List Resp) : List Resp := ((qs.zip rs).filter fun p => p.1.1 = i).map Prod.snd

/-- Some request of client `i` mentions the key. -/
def KeyOf (i : Nat) (qs : List Sent) (sp : Space) (k : Bytes) : Prop := ∃ q ∈ qs, q.1 = i ∧ Names sp q.2.2 k

/-- No client writes to a key another client mentions. -/
def Separate (qs : List Sent) : Prop :=
  ∀ p ∈ qs, ∀ q ∈ qs, p.1 ≠ q.1 → ∀ sp k, Writes sp p.2.2 k → ¬ Names sp q.2.2 k

end Verif.Spec
