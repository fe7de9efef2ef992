import Verif.Model.Command
import Verif.Model.LinkedList
import Verif.Model.Hash
import Verif.Model.SetC
import Verif.Model.Strconv

/-!
pkg/container/container.go, pkg/db/db.go, the `Execute` methods of pkg/command, and `handleRequest`/`handleError` of pkg/db/engine.go.
-/

namespace Verif

/-- pkg/container/container.go:38-44 `containers` of one database (pkg/db/db.go:14-17). The sorted sets are never reachable from a
command and left out. -/
structure State where
  global : StrMap
  lists : GoMap LList
  hashes : GoMap HashC
  sets : GoMap SetC

namespace State

/-- pkg/container/container.go:48-56 `NewContainers`. -/
def empty : State := { global := [], lists := [], hashes := [], sets := [] }

/-- pkg/container/container.go:72-85 `GetOrCreateList`: nil for the empty key, otherwise the list exists afterwards. -/
def getOrCreateList (st : State) (key : Bytes) : State × Option LList :=
  if key = [] then (st, none)
  else match st.lists.get key with
    | some l => (st, some l)
    | none => ({ st with lists := st.lists.set key LList.new }, some LList.new)

/-- pkg/container/container.go:97-110 `GetOrCreateHash`. -/
def getOrCreateHash (st : State) (key : Bytes) : State × Option HashC :=
  if key = [] then (st, none)
  else match st.hashes.get key with
    | some h => (st, some h)
    | none => ({ st with hashes := st.hashes.set key HashC.new }, some HashC.new)

/-- pkg/container/container.go:122-135 `GetOrCreateSet`. -/
def getOrCreateSet (st : State) (key : Bytes) : State × Option SetC :=
  if key = [] then (st, none)
  else match st.sets.get key with
    | some s => (st, some s)
    | none => ({ st with sets := st.sets.set key SetC.new }, some SetC.new)

/-- Write back a list that was modified through its pointer. -/
def putList (st : State) (k : Bytes) (l : LList) : State := { st with lists := st.lists.set k l }
/-- Write back a hash that was modified through its pointer. -/
def putHash (st : State) (k : Bytes) (h : HashC) : State := { st with hashes := st.hashes.set k h }
/-- Write back a set that was modified through its pointer. -/
def putSet (st : State) (k : Bytes) (s : SetC) : State := { st with sets := st.sets.set k s }

end State

/-- The result of executing a command: the new state and `Result()` (pkg/command/command.go:41). -/
abbrev ExecRes := Outcome (State × Except CmdErr Resp)

/-- What one request gets from its surroundings: the iteration orders the Go runtime chooses, the addresses of the objects `%+v` prints for a command
struct (pkg/db/engine.go:133), and the table of `strconv.IsPrint` for code points above 0xFF, which is not modelled further. -/
structure Env where
  ord : IterOrder
  addr : Nat → Nat
  table : Nat → Bool

/-- `NewBulkRedisString(s.String())` over a slice of strings, e.g. pkg/command/list.go:513-515. -/
def bulks (xs : List Str) : List Resp := xs.map fun s => .bulk s.data

/-- A `*StringContainer` that may be nil as bulk or null bulk, e.g. pkg/command/global.go:231-237, 432-438. -/
def bulkOrNull : Option Str → Resp
  | some s => .bulk s.data
  | none => .nullBulk

/-- `errors.New("nil access object")`, pkg/command/global.go:137 and others. -/
def nilAccess : CmdErr := .internal b!"nil access object"

namespace Exec

/-! Global commands. `Global()` is never nil, so the first object is nil only when the command named no key at all. -/

/-- pkg/command/global.go:135-156 (set). -/
def set (st : State) (k v : Bytes) : ExecRes :=
  match StrMap.setAll st.global [Str.new k] [Str.new v] with
  | (g, none) => .ok ({ st with global := g }, .ok (.simple b!"OK"))
  | (g, some _) => .ok ({ st with global := g }, .error (.internal b!"global: the size of keys and values are not equal"))

/-- pkg/command/global.go:220-238 (get). -/
def get (st : State) (k : Bytes) : ExecRes :=
  match StrMap.getAll st.global [Str.new k] with
  | [some s] => .ok (st, .ok (.bulk s.data))
  | _ => .ok (st, .ok .nullBulk)

/-- pkg/command/global.go:314-343 (mset); without keys there is no access object. -/
def mset (st : State) (ks vs : List Bytes) : ExecRes :=
  if ks = [] then .ok (st, .error nilAccess)
  else .ok ({ st with global := (StrMap.setAll st.global (ks.map Str.new) (vs.map Str.new)).1 }, .ok (.simple b!"OK"))

/-- pkg/command/global.go:411-442 (mget). -/
def mget (st : State) (ks : List Bytes) : ExecRes :=
  .ok (st, .ok (.array ((StrMap.getAll st.global (ks.map Str.new)).map bulkOrNull)))

/-- pkg/command/global.go:510-530 (exists). -/
def exist (st : State) (ks : List Bytes) : ExecRes :=
  .ok (st, .ok (.int (StrMap.existsCount st.global (ks.map Str.new))))

/-- pkg/command/global.go:594-608 (strlen). -/
def strlen (st : State) (k : Bytes) : ExecRes :=
  .ok (st, .ok (.int (StrMap.stringLen st.global (Str.new k)).1))

/-- pkg/command/global.go:678-698 (append). -/
def append (st : State) (k v : Bytes) : ExecRes :=
  let (g, n) := StrMap.append st.global (Str.new k) (Str.new v)
  .ok ({ st with global := g }, .ok (.int n))

/-- The error translation of pkg/command/global.go:798-804 and 905-911. -/
def incrErr : StrMap.Err → CmdErr
  | .keyNotFound => .noSuchKey
  | .notAInt => .notAInt
  | .lengthNotMatch => .internal b!"global: the size of keys and values are not equal"
  | .rangeInvalid => .internal b!"string_container: the given range is invalid"

/-- pkg/command/global.go:773-805 (incr, incrby). -/
def incr (env : Env) (st : State) (k arg : Bytes) : ExecRes :=
  match parseInt64 arg with
  | none => .ok (st, .error (.internal (Quote.numError env.table arg)))
  | some d =>
    match StrMap.increase st.global (Str.new k) d with
    | (g, .ok r) => .ok ({ st with global := g }, .ok (.int r))
    | (g, .error e) => .ok ({ st with global := g }, .error (incrErr e))

/-- pkg/command/global.go:880-912 (decr, decrby). -/
def decr (env : Env) (st : State) (k arg : Bytes) : ExecRes :=
  match parseInt64 arg with
  | none => .ok (st, .error (.internal (Quote.numError env.table arg)))
  | some d =>
    match StrMap.decrease st.global (Str.new k) d with
    | (g, .ok r) => .ok ({ st with global := g }, .ok (.int r))
    | (g, .error e) => .ok ({ st with global := g }, .error (incrErr e))

/-- pkg/command/global.go:1002-1020 (getrange). -/
def getrange (st : State) (k : Bytes) (a b : Int) : ExecRes :=
  match StrMap.getRange st.global (Str.new k) a b with
  | .ok (.ok s) => .ok (st, .ok (.bulk s.data))
  | .ok (.error _) => .ok (st, .ok (.bulk []))
  | .panic => .panic
  | .diverge => .diverge

/-! List commands. -/

/-- pkg/command/list.go:113-131 (lpop). -/
def lpop (st : State) (k : Bytes) : ExecRes :=
  match st.lists.get k with
  | none => .ok (st, .ok .nullBulk)
  | some l => do
    match ← l.popHead with
    | (l', .ok s) => .ok (st.putList k l', .ok (.bulk s.data))
    | (l', .error _) => .ok (st.putList k l', .ok .nullBulk)

/-- pkg/command/list.go:195-213 (rpop). -/
def rpop (st : State) (k : Bytes) : ExecRes :=
  match st.lists.get k with
  | none => .ok (st, .ok .nullBulk)
  | some l => do
    match ← l.popTail with
    | (l', .ok s) => .ok (st.putList k l', .ok (.bulk s.data))
    | (l', .error _) => .ok (st.putList k l', .ok .nullBulk)

/-- pkg/command/list.go:288-309 (lpush); creates the list first (pkg/db/db.go:54-66). -/
def lpush (st : State) (k : Bytes) (vs : List Bytes) : ExecRes :=
  match st.getOrCreateList k with
  | (st1, none) => .ok (st1, .error nilAccess)
  | (st1, some l) => do
    let (l', n) ← l.pushHead (vs.map Str.new)
    .ok (st1.putList k l', .ok (.int n))

/-- pkg/command/list.go:384-405 (rpush). -/
def rpush (st : State) (k : Bytes) (vs : List Bytes) : ExecRes :=
  match st.getOrCreateList k with
  | (st1, none) => .ok (st1, .error nilAccess)
  | (st1, some l) => do
    let (l', n) ← l.pushTail (vs.map Str.new)
    .ok (st1.putList k l', .ok (.int n))

/-- pkg/command/list.go:495-519 (lrange). -/
def lrange (st : State) (k : Bytes) (a b : Int) : ExecRes :=
  match st.lists.get k with
  | none => .ok (st, .ok .nullArray)
  | some l => do
    match ← l.range a b with
    | .ok xs => .ok (st, .ok (.array (bulks xs)))
    | .error _ => .ok (st, .ok .nullArray)

/-- pkg/command/list.go:596-614 (lindex). -/
def lindex (st : State) (k : Bytes) (i : Int) : ExecRes :=
  match st.lists.get k with
  | none => .ok (st, .ok .nullBulk)
  | some l => do
    match ← l.index i with
    | .ok s => .ok (st, .ok (.bulk s.data))
    | .error _ => .ok (st, .ok .nullBulk)

/-- pkg/command/list.go:678-692 (llen). -/
def llen (st : State) (k : Bytes) : ExecRes :=
  match st.lists.get k with
  | none => .ok (st, .ok (.int 0))
  | some l => .ok (st, .ok (.int l.len))

/-- How `handleError` sees an error of pkg/container/list.go. -/
def listErr : LList.Err → CmdErr
  | .outOfRange => .outOfRange
  | .emptyList => .internal b!"empty list"
  | .noSuchPivot => .internal b!"no such pivot"

/-- pkg/command/list.go:775-793 (lset). -/
def lset (st : State) (k : Bytes) (i : Int) (v : Bytes) : ExecRes :=
  match st.lists.get k with
  | none => .ok (st, .error .noSuchKey)
  | some l => do
    match ← l.set i (Str.new v) with
    | (l', none) => .ok (st.putList k l', .ok (.simple b!"OK"))
    | (l', some e) => .ok (st.putList k l', .error (listErr e))

/-- pkg/command/list.go:876-889 (lrem). -/
def lrem (st : State) (k : Bytes) (n : Int) (v : Bytes) : ExecRes :=
  match st.lists.get k with
  | none => .ok (st, .ok (.int 0))
  | some l => do
    let (l', c) ← l.remove n (Str.new v)
    .ok (st.putList k l', .ok (.int c))

/-- pkg/command/list.go:979-998 (ltrim): an out-of-range window is replaced by `0 -1`. -/
def ltrim (st : State) (k : Bytes) (a b : Int) : ExecRes :=
  match st.lists.get k with
  | none => .ok (st, .ok (.simple b!"OK"))
  | some l => do
    match ← l.trim a b with
    | (l', none) => .ok (st.putList k l', .ok (.simple b!"OK"))
    | (l', some .outOfRange) => do
      let (l'', _) ← l'.trim 0 (-1)
      .ok (st.putList k l'', .ok (.simple b!"OK"))
    | (l', some e) => .ok (st.putList k l', .error (listErr e))

/-- pkg/command/list.go:1089-1107 (linsert). -/
def linsert (st : State) (k : Bytes) (after : Bool) (pivot v : Bytes) : ExecRes :=
  match st.lists.get k with
  | none => .ok (st, .ok (.int 0))
  | some l => do
    match ← l.insert (Str.new pivot) (Str.new v) after with
    | (l', .ok n) => .ok (st.putList k l', .ok (.int n))
    | (l', .error _) => .ok (st.putList k l', .ok (.int (-1)))

/-! Hash commands. -/

/-- pkg/command/hash.go:123-145 (hset): calls a method on the access object without a nil check. -/
def hset (st : State) (k : Bytes) (fs vs : List Bytes) : ExecRes :=
  match st.getOrCreateHash k with
  | (_, none) => .panic
  | (st1, some h) =>
    if fs = [] ∨ vs = [] then .ok (st1, .error .argumentInvalid)
    else match HashC.setAll h (fs.map Str.new) (vs.map Str.new) with
      | (h', some n) => .ok (st1.putHash k h', .ok (.int n))
      | (h', none) => .ok (st1.putHash k h', .ok (.int 0))

/-- pkg/command/hash.go:217-240 (hget). -/
def hget (st : State) (k f : Bytes) : ExecRes :=
  match st.hashes.get k with
  | none => .ok (st, .ok .nullBulk)
  | some h =>
    if f = [] then .ok (st, .error .argumentInvalid)
    else match HashC.getAll h [Str.new f] with
      | [some s] => .ok (st, .ok (.bulk s.data))
      | _ => .ok (st, .ok .nullBulk)

/-- pkg/command/hash.go:316-355 (hmget). -/
def hmget (st : State) (k : Bytes) (fs : List Bytes) : ExecRes :=
  match st.hashes.get k with
  | none => .ok (st, .ok (.array (fs.map fun _ => .nullBulk)))
  | some h => .ok (st, .ok (.array ((HashC.getAll h (fs.map Str.new)).map bulkOrNull)))

/-- pkg/command/hash.go:427-448 (hexists). -/
def hexists (st : State) (k f : Bytes) : ExecRes :=
  match st.hashes.get k with
  | none => .ok (st, .ok (.int 0))
  | some h =>
    if f = [] then .ok (st, .error .argumentInvalid)
    else .ok (st, .ok (.int (if HashC.existsKey h (Str.new f) then 1 else 0)))

/-- pkg/command/hash.go:512-526 (hlen). -/
def hlen (st : State) (k : Bytes) : ExecRes :=
  match st.hashes.get k with
  | none => .ok (st, .ok (.int 0))
  | some h => .ok (st, .ok (.int (HashC.len h)))

/-- The loop of pkg/command/hash.go:606-609. -/
def interleave : List Str → List Str → List Resp
  | f :: fs, v :: vs => .bulk f.data :: .bulk v.data :: interleave fs vs
  | _, _ => []

/-- pkg/command/hash.go:590-612 (hgetall). -/
def hgetall (env : Env) (st : State) (k : Bytes) : ExecRes :=
  match st.hashes.get k with
  | none => .ok (st, .ok .nullArray)
  | some h =>
    let (fields, values) := HashC.entriesIn h (env.ord 0 (GoMap.keys h))
    .ok (st, .ok (.array (interleave fields values)))

/-- pkg/command/hash.go:676-697 (hkeys). -/
def hkeys (env : Env) (st : State) (k : Bytes) : ExecRes :=
  match st.hashes.get k with
  | none => .ok (st, .ok .nullArray)
  | some h => .ok (st, .ok (.array (bulks (HashC.keysIn h (env.ord 0 (GoMap.keys h))))))

/-- pkg/command/hash.go:761-782 (hvals). -/
def hvals (env : Env) (st : State) (k : Bytes) : ExecRes :=
  match st.hashes.get k with
  | none => .ok (st, .ok .nullArray)
  | some h => .ok (st, .ok (.array (bulks (HashC.valuesIn h (env.ord 0 (GoMap.keys h))))))

/-- pkg/command/hash.go:854-877 (hstrlen). -/
def hstrlen (st : State) (k f : Bytes) : ExecRes :=
  match st.hashes.get k with
  | none => .ok (st, .ok (.int 0))
  | some h =>
    if f = [] then .ok (st, .error .argumentInvalid)
    else match HashC.getAll h [Str.new f] with
      | [some s] => .ok (st, .ok (.int s.len))
      | _ => .ok (st, .ok (.int 0))

/-- pkg/command/hash.go:953-979 (hdel). -/
def hdel (st : State) (k : Bytes) (fs : List Bytes) : ExecRes :=
  match st.hashes.get k with
  | none => .ok (st, .ok (.int 0))
  | some h =>
    if fs.length = 0 then .ok (st, .error .argumentInvalid)
    else
      let (h', n) := HashC.del h (fs.map Str.new)
      .ok (st.putHash k h', .ok (.int n))

/-! Set commands. -/

/-- pkg/command/set.go:104-118 (scard). -/
def scard (st : State) (k : Bytes) : ExecRes :=
  match st.sets.get k with
  | none => .ok (st, .ok (.int 0))
  | some s => .ok (st, .ok (.int (SetC.len s)))

/-- pkg/command/set.go:194-215 (sadd): no nil check. -/
def sadd (st : State) (k : Bytes) (ms : List Bytes) : ExecRes :=
  match st.getOrCreateSet k with
  | (_, none) => .panic
  | (st1, some s) =>
    if ms.length = 0 then .ok (st1, .error .argumentInvalid)
    else
      let (s', n) := SetC.add s (ms.map Str.new)
      .ok (st1.putSet k s', .ok (.int n))

/-- pkg/command/set.go:279-300 (smembers). -/
def smembers (env : Env) (st : State) (k : Bytes) : ExecRes :=
  match st.sets.get k with
  | none => .ok (st, .ok .nullArray)
  | some s => .ok (st, .ok (.array (bulks (SetC.members env.ord 0 s))))

/-- pkg/command/set.go:372-393 (sismember). -/
def sismember (st : State) (k m : Bytes) : ExecRes :=
  match st.sets.get k with
  | none => .ok (st, .ok (.int 0))
  | some s =>
    if m = [] then .ok (st, .error .argumentInvalid)
    else .ok (st, .ok (.int (if SetC.isMember s (Str.new m) then 1 else 0)))

/-- pkg/command/set.go:469-490 (srem): no nil check; the command asks for creation (lines 512-514). -/
def srem (st : State) (k : Bytes) (ms : List Bytes) : ExecRes :=
  match st.getOrCreateSet k with
  | (_, none) => .panic
  | (st1, some s) =>
    if ms.length = 0 then .ok (st1, .error .argumentInvalid)
    else
      let (s', n) := SetC.delete s (ms.map Str.new)
      .ok (st1.putSet k s', .ok (.int n))

/-- The reply of pkg/command/set.go:594-611 and 716-733: `ret[0]` panics on an empty slice. -/
def countReply (counted : Bool) (ret : List Str) : Outcome Resp :=
  if counted then
    if ret.length = 0 then .ok .nullArray else .ok (.array (bulks ret))
  else match ret with
    | [] => .panic
    | s :: _ => .ok (.bulk s.data)

/-- pkg/command/set.go:576-612 (spop). -/
def spop (env : Env) (st : State) (k : Bytes) (count : Option Int) : ExecRes :=
  match st.sets.get k with
  | none => .ok (st, .ok (if count.isSome then .nullArray else .nullBulk))
  | some s => do
    let (s', ret) := SetC.pop env.ord 0 s (count.getD 1)
    let r ← countReply count.isSome ret
    .ok (st.putSet k s', .ok r)

/-- pkg/command/set.go:698-734 (srandmember). -/
def srandmember (env : Env) (st : State) (k : Bytes) (count : Option Int) : ExecRes :=
  match st.sets.get k with
  | none => .ok (st, .ok (if count.isSome then .nullArray else .nullBulk))
  | some s => do
    let r ← countReply count.isSome (SetC.randomMember env.ord 0 s (count.getD 1))
    .ok (st, .ok r)

/-- pkg/command/set.go:867-878, 980-991, 1093-1104 `SetAccessObjects`: a missing set is replaced by an anonymous empty one. -/
def operands (st : State) (ks : List Bytes) : List SetC := ks.map fun k => (st.sets.get k).getD SetC.new

/-- The common part of pkg/command/set.go:804-841 (sdiff), 917-954 (sinter), 1030-1067 (sunion). Without keys the slice made by
`SetAccessObjects` is empty and `s.accessObjects[0]` panics; `ParseArguments` excludes this. -/
def algebra (op : IterOrder → SetC → List SetC → SetC) (env : Env) (st : State) (ks : List Bytes) : ExecRes :=
  match operands st ks with
  | [] => .panic
  | base :: others =>
    let ret := op env.ord base others
    if SetC.len ret = 0 then .ok (st, .ok .nullArray)
    else .ok (st, .ok (.array (bulks (SetC.members env.ord 0 ret))))

end Exec

/-- pkg/db/db.go:54-66 `ExecuteCommand` followed by `Execute` and `Result`. Resolving the keys (db.go:26-52) creates a missing container
only for lpush, rpush, hset, sadd and srem, each of which names one key; this is part of the functions above. The objects resolved always
have the type the command asks for, so the `Type()` comparisons of the `Execute` methods never fail and are left out. -/
def execute (env : Env) (st : State) : Command → ExecRes
  | .set k v => Exec.set st k v
  | .get k => Exec.get st k
  | .mset ks vs => Exec.mset st ks vs
  | .mget ks => Exec.mget st ks
  | .exist ks => Exec.exist st ks
  | .strlen k => Exec.strlen st k
  | .append k v => Exec.append st k v
  | .incr k a => Exec.incr env st k a
  | .decr k a => Exec.decr env st k a
  | .getrange k a b => Exec.getrange st k a b
  | .lpop k => Exec.lpop st k
  | .rpop k => Exec.rpop st k
  | .lindex k i => Exec.lindex st k i
  | .linsert k w p v => Exec.linsert st k w p v
  | .llen k => Exec.llen st k
  | .lpush k vs => Exec.lpush st k vs
  | .rpush k vs => Exec.rpush st k vs
  | .lrange k a b => Exec.lrange st k a b
  | .ltrim k a b => Exec.ltrim st k a b
  | .lrem k n v => Exec.lrem st k n v
  | .lset k i v => Exec.lset st k i v
  | .hset k fs vs => Exec.hset st k fs vs
  | .hget k f => Exec.hget st k f
  | .hexists k f => Exec.hexists st k f
  | .hdel k fs => Exec.hdel st k fs
  | .hmget k fs => Exec.hmget st k fs
  | .hkeys k => Exec.hkeys env st k
  | .hvals k => Exec.hvals env st k
  | .hgetall k => Exec.hgetall env st k
  | .hstrlen k f => Exec.hstrlen st k f
  | .hlen k => Exec.hlen st k
  | .sadd k ms => Exec.sadd st k ms
  | .srem k ms => Exec.srem st k ms
  | .sismember k m => Exec.sismember st k m
  | .smembers k => Exec.smembers env st k
  | .srandmember k c => Exec.srandmember env st k c
  | .spop k c => Exec.spop env st k c
  | .sdiff ks => Exec.algebra SetC.diff env st ks
  | .sinter ks => Exec.algebra SetC.intersect env st ks
  | .sunion ks => Exec.algebra SetC.union env st ks
  | .scard k => Exec.scard st k

/-- pkg/db/engine.go:106-137 `handleRequest` up to the log write: the command a request denotes. The wrapping texts of lines 117 and 133
are only visible for internal errors. -/
def requestCommand (objs : List Resp) : Except CmdErr Command :=
  match objs with
  | [] => .error (.internal b!"empty request objects")
  | o :: args =>
    match text o with
    | none => .error (.internal (b!"invalid command name, raw=" ++ o.encode))
    | some name => newCommand name args

/-- pkg/db/engine.go:118-120: whether the request is handed to `writeLog` (before it is executed). -/
def isLogged (objs : List Resp) : Bool :=
  match requestCommand objs with
  | .ok c => c.isModify
  | .error _ => false

/-- pkg/db/engine.go:270-286 `handleError`, the text of the error reply. -/
def errorText : CmdErr → Bytes
  | .commandNotExist => b!"ERR no such command"
  | .argumentInvalid => b!"ERR invalid argument"
  | .notAInt => b!"ERR value is not an integer or out of range"
  | .noSuchKey => b!"ERR no such key"
  | .outOfRange => b!"ERR index out of range"
  | .internal msg => b!"ERR vertex server internal error, err=" ++ msg

/-- The hexadecimal digits of `n`, the high ones first; `fuel` bounds their number. -/
def fmtHexAux : Nat → Nat → Bytes
  | 0, _ => []
  | f + 1, n => if n < 16 then [Quote.lowerhex n] else fmtHexAux f (n / 16) ++ [Quote.lowerhex (n % 16)]

/-- How `%+v` prints a pointer inside a struct (`fmtPointer` of fmt). -/
def fmtPointer (a : Nat) : Bytes := if a = 0 then b!"<nil>" else b!"0x" ++ fmtHexAux (a + 1) a

/-- How `%+v` prints a slice of strings. -/
def fmtStrings (xs : List Bytes) : Bytes := b!"[" ++ Quote.join b!" " xs ++ b!"]"

/-- `%+v` of a command struct whose `Execute` has failed (pkg/db/engine.go:133), for the commands for which the text is seen: pkg/command/global.go:275-282
(mset), 735-742 (incr), 842-849 (decr), list.go:250-257 (lpush), 346-353 (rpush). All fields are unexported, so fmt calls no methods of theirs; strings
are printed as they are, and what an interface holds is a pointer here. -/
def dump (env : Env) : Command → Bytes
  | .mset ks vs =>
    b!"&{index:1 accessObject:<nil> keys:" ++ fmtStrings ks ++ b!" values:" ++ fmtStrings vs ++ b!" result:<nil> err:" ++ fmtPointer (env.addr 0) ++ b!"}"
  | .lpush k vs | .rpush k vs =>
    b!"&{key:" ++ k ++ b!" index:1 accessObject:<nil> arguments:" ++ fmtStrings vs ++ b!" result:<nil> err:" ++ fmtPointer (env.addr 0) ++ b!"}"
  | .incr k _ | .decr k _ =>
    b!"&{key:" ++ k ++ b!" index:1 accessObject:" ++ fmtPointer (env.addr 1) ++ b!" arguments:" ++ fmtPointer (env.addr 2) ++
      b!" result:<nil> err:" ++ fmtPointer (env.addr 0) ++ b!"}"
  | _ => []

/-- pkg/db/engine.go:133: an error of `Execute` is wrapped in a text naming the request and dumping the command struct. -/
def wrapExec (env : Env) (objs : List Resp) (c : Command) : CmdErr → CmdErr
  | .internal msg =>
    .internal (b!"execute error. name=" ++ ((objs.head?.bind text).getD []) ++ b!", command=" ++ dump env c ++ b!", err={" ++ msg ++ b!"}")
  | e => e

/-- One request array: pkg/db/engine.go:106-137 `handleRequest` and lines 184-190 of `Start`. The result is the new database and the reply. -/
def handle (env : Env) (st : State) (objs : List Resp) : Outcome (State × Resp) :=
  match requestCommand objs with
  | .error e => .ok (st, .error (errorText e))
  | .ok c =>
    match execute env st c with
    | .ok (st', .ok r) => .ok (st', r)
    | .ok (st', .error e) => .ok (st', .error (errorText (wrapExec env objs c e)))
    | .panic => .panic
    | .diverge => .diverge

/-- The engine's loop over request events (pkg/db/engine.go:159-195), one request after the other on one database, with the
surroundings of each request. The replies in order; a panic ends the process. Requests that are not arrays are dropped before
(`parseRequest`, lines 81-104). -/
def serve (st : State) : List (Env × List Resp) → Outcome (State × List Resp)
  | [] => .ok (st, [])
  | (env, objs) :: reqs =>
    match handle env st objs with
    | .ok (st', r) =>
      match serve st' reqs with
      | .ok (st'', rs) => .ok (st'', r :: rs)
      | .panic => .panic
      | .diverge => .diverge
    | .panic => .panic
    | .diverge => .diverge

end Verif
