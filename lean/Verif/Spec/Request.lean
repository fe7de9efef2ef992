import Verif.Spec.Abs

/-! What a client sends and what it observes. -/

namespace Verif.Spec

/-- Upper-case ASCII letters become lower-case, everything else stays. -/
def lower (c : UInt8) : UInt8 := if 65 ≤ c.toNat ∧ c.toNat ≤ 90 then c + 32 else c

/-- An argument that carries text: a simple or bulk string; a null bulk string counts as empty. -/
inductive IsText : Resp → Bytes → Prop where
  | simple (d : Bytes) : IsText (.simple d) d
  | bulk (d : Bytes) : IsText (.bulk d) d
  | null : IsText .nullBulk []

/-- `n` is a spelling of the word `w` (in lower case): each letter may be upper or lower case. Two more characters have an ASCII letter
as their lower case: U+0130 stands for "i", U+212A (the Kelvin sign) for "k". -/
inductive Folds : Bytes → Bytes → Prop where
  | nil : Folds [] []
  | char {n w : Bytes} (c : UInt8) : c.toNat < 128 → Folds n w → Folds (c :: n) (lower c :: w)
  | dotted {n w : Bytes} : Folds n w → Folds (0xC4 :: 0xB0 :: n) (105 :: w)
  | kelvin {n w : Bytes} : Folds n w → Folds (0xE2 :: 0x84 :: 0xAA :: n) (107 :: w)

/-- `objs` names the command `name` and passes the objects `os` as arguments. -/
def Calls (objs : List Resp) (name : Bytes) (os : List Resp) : Prop := ∃ o n, objs = o :: os ∧ IsText o n ∧ Folds n name

/-- `objs` is a request for the command `name` with the given text arguments. -/
def Request (objs : List Resp) (name : Bytes) (args : List Bytes) : Prop := ∃ os, Calls objs name os ∧ List.Forall₂ IsText os args

/-- Keys and values alternate. -/
def weave (ks vs : List Bytes) : List Bytes := (ks.zip vs).flatMap fun p => [p.1, p.2]

/-- The command a request stands for, according to the documented syntax. INCR and DECR ignore everything after their key. -/
def Means (objs : List Resp) : Command → Prop
  | .set k v => Request objs b!"set" [k, v]
  | .get k => Request objs b!"get" [k]
  | .mset ks vs => ks.length = vs.length ∧ Request objs b!"mset" (weave ks vs)
  | .mget ks => ks ≠ [] ∧ Request objs b!"mget" ks
  | .exist ks => ks ≠ [] ∧ Request objs b!"exists" ks
  | .strlen k => Request objs b!"strlen" [k]
  | .append k v => Request objs b!"append" [k, v]
  | .incr k d => Request objs b!"incrby" [k, d] ∨
      (d = b!"1" ∧ (Request objs b!"incrby" [k] ∨ ∃ o os, Calls objs b!"incr" (o :: os) ∧ IsText o k))
  | .decr k d => Request objs b!"decrby" [k, d] ∨
      (d = b!"1" ∧ (Request objs b!"decrby" [k] ∨ ∃ o os, Calls objs b!"decr" (o :: os) ∧ IsText o k))
  | .getrange k i j => ∃ l r, Request objs b!"getrange" [k, l, r] ∧ IsInt l i ∧ IsInt r j
  | .lpop k => Request objs b!"lpop" [k]
  | .rpop k => Request objs b!"rpop" [k]
  | .lindex k i => ∃ l, Request objs b!"lindex" [k, l] ∧ IsInt l i
  | .linsert k after p v => ∃ w, Request objs b!"linsert" [k, w, p, v] ∧ Folds w (if after then b!"after" else b!"before")
  | .llen k => Request objs b!"llen" [k]
  | .lpush k vs => vs ≠ [] ∧ Request objs b!"lpush" (k :: vs)
  | .rpush k vs => vs ≠ [] ∧ Request objs b!"rpush" (k :: vs)
  | .lrange k i j => ∃ l r, Request objs b!"lrange" [k, l, r] ∧ IsInt l i ∧ IsInt r j
  | .ltrim k i j => ∃ l r, Request objs b!"ltrim" [k, l, r] ∧ IsInt l i ∧ IsInt r j
  | .lrem k n v => ∃ l, Request objs b!"lrem" [k, l, v] ∧ IsInt l n
  | .lset k i v => ∃ l, Request objs b!"lset" [k, l, v] ∧ IsInt l i
  | .hset k fs vs => fs.length = vs.length ∧ Request objs b!"hset" (k :: weave fs vs)
  | .hget k f => Request objs b!"hget" [k, f]
  | .hexists k f => Request objs b!"hexists" [k, f]
  | .hdel k fs => fs ≠ [] ∧ Request objs b!"hdel" (k :: fs)
  | .hmget k fs => fs ≠ [] ∧ Request objs b!"hmget" (k :: fs)
  | .hkeys k => Request objs b!"hkeys" [k]
  | .hvals k => Request objs b!"hvals" [k]
  | .hgetall k => Request objs b!"hgetall" [k]
  | .hstrlen k f => Request objs b!"hstrlen" [k, f]
  | .hlen k => Request objs b!"hlen" [k]
  | .sadd k ms => ms ≠ [] ∧ Request objs b!"sadd" (k :: ms)
  | .srem k ms => ms ≠ [] ∧ Request objs b!"srem" (k :: ms)
  | .sismember k m => Request objs b!"sismember" [k, m]
  | .smembers k => Request objs b!"smembers" [k]
  | .srandmember k none => Request objs b!"srandmember" [k]
  | .srandmember k (some n) => ∃ l, Request objs b!"srandmember" [k, l] ∧ IsInt l n
  | .spop k none => Request objs b!"spop" [k]
  | .spop k (some n) => ∃ l, Request objs b!"spop" [k, l] ∧ IsInt l n
  | .sdiff ks => ks ≠ [] ∧ Request objs b!"sdiff" ks
  | .sinter ks => ks ≠ [] ∧ Request objs b!"sinter" ks
  | .sunion ks => ks ≠ [] ∧ Request objs b!"sunion" ks
  | .scard k => Request objs b!"scard" [k]

/-- The names of all commands. -/
def commandNames : List Bytes :=
  [ b!"set", b!"get", b!"mset", b!"mget", b!"exists", b!"strlen", b!"append", b!"incr", b!"incrby", b!"decr", b!"decrby", b!"getrange"
  , b!"lpop", b!"rpop", b!"lindex", b!"linsert", b!"llen", b!"lpush", b!"rpush", b!"lrange", b!"ltrim", b!"lrem", b!"lset"
  , b!"hset", b!"hget", b!"hexists", b!"hdel", b!"hmget", b!"hkeys", b!"hvals", b!"hgetall", b!"hstrlen", b!"hlen"
  , b!"sadd", b!"srem", b!"sismember", b!"smembers", b!"srandmember", b!"spop", b!"sdiff", b!"sinter", b!"sunion", b!"scard" ]

/-- The server, in state `st`, answers `r` and then stores the abstract database `a'`. -/
def Answers (env : Env) (st : State) (objs : List Resp) (a' : DB) (r : Resp) : Prop :=
  ∃ st', handle env st objs = .ok (st', r) ∧ Abs st' a'

/-- The server process dies. -/
def Crashes (env : Env) (st : State) (objs : List Resp) : Prop := handle env st objs = .panic

/-- The reply to an internal error: a fixed prefix and some further text. -/
def InternalError (r : Resp) : Prop := ∃ msg, r = .error (b!"ERR vertex server internal error, err=" ++ msg)

/-- The error reply for each kind of error. -/
def ErrorReply : CmdErr → Resp → Prop
  | .commandNotExist, r => r = .error b!"ERR no such command"
  | .argumentInvalid, r => r = .error b!"ERR invalid argument"
  | .notAInt, r => r = .error b!"ERR value is not an integer or out of range"
  | .noSuchKey, r => r = .error b!"ERR no such key"
  | .outOfRange, r => r = .error b!"ERR index out of range"
  | .internal _, r => InternalError r

/-- The server does, on a request, what the abstract machine does. -/
def Observes (env : Env) (st : State) (objs : List Resp) : Out → Prop
  | none => Crashes env st objs
  | some (a', .ok r) => Answers env st objs a' r
  | some (a', .error e) => ∃ r, ErrorReply e r ∧ Answers env st objs a' r

/-- The abstract machine, started on `a`, can answer the requests with these replies and then store `a'`. Requests without a meaning are
answered with an error. -/
inductive Trace : DB → List (List Resp) → List Resp → DB → Prop where
  | nil (a : DB) : Trace a [] [] a
  | ok {a a1 a2 : DB} {objs : List Resp} {c : Command} {r : Resp} {qs : List (List Resp)} {rs : List Resp} :
      Means objs c → Step a c (done a1 r) → Trace a1 qs rs a2 → Trace a (objs :: qs) (r :: rs) a2
  | err {a a1 a2 : DB} {objs : List Resp} {c : Command} {e : CmdErr} {r : Resp} {qs : List (List Resp)} {rs : List Resp} :
      Means objs c → Step a c (fails a1 e) → ErrorReply e r → Trace a1 qs rs a2 → Trace a (objs :: qs) (r :: rs) a2
  | bad {a a2 : DB} {objs : List Resp} {t : Bytes} {qs : List (List Resp)} {rs : List Resp} :
      (¬ ∃ c, Means objs c) → Trace a qs rs a2 → Trace a (objs :: qs) (.error t :: rs) a2

/-- Some history of requests, starting from the empty database, leads to `st`. -/
def Reachable (st : State) : Prop := ∃ reqs rs, (∀ q ∈ reqs, q.1.ord.Fair) ∧ serve State.empty reqs = .ok (st, rs)

end Verif.Spec
