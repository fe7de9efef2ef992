import Verif.Model.Resp
import Verif.Model.GoMap

/-!
pkg/command: the parsed commands, `ParseArguments` of every command and `NewCommand`.
-/

namespace Verif

/-- A command after a successful `ParseArguments`: one constructor per command struct of pkg/command/{global,list,hash,set}.go, holding
the fields that `ParseArguments` fills. -/
inductive Command where
  | set (k v : Bytes)
  | get (k : Bytes)
  | mset (ks vs : List Bytes)
  | mget (ks : List Bytes)
  | exist (ks : List Bytes)
  | strlen (k : Bytes)
  | append (k v : Bytes)
  | incr (k arg : Bytes)
  | decr (k arg : Bytes)
  | getrange (k : Bytes) (a b : Int)
  | lpop (k : Bytes)
  | rpop (k : Bytes)
  | lindex (k : Bytes) (i : Int)
  | linsert (k : Bytes) (after : Bool) (pivot v : Bytes)
  | llen (k : Bytes)
  | lpush (k : Bytes) (vs : List Bytes)
  | rpush (k : Bytes) (vs : List Bytes)
  | lrange (k : Bytes) (a b : Int)
  | ltrim (k : Bytes) (a b : Int)
  | lrem (k : Bytes) (n : Int) (v : Bytes)
  | lset (k : Bytes) (i : Int) (v : Bytes)
  | hset (k : Bytes) (fs vs : List Bytes)
  | hget (k f : Bytes)
  | hexists (k f : Bytes)
  | hdel (k : Bytes) (fs : List Bytes)
  | hmget (k : Bytes) (fs : List Bytes)
  | hkeys (k : Bytes)
  | hvals (k : Bytes)
  | hgetall (k : Bytes)
  | hstrlen (k f : Bytes)
  | hlen (k : Bytes)
  | sadd (k : Bytes) (ms : List Bytes)
  | srem (k : Bytes) (ms : List Bytes)
  | sismember (k m : Bytes)
  | smembers (k : Bytes)
  | srandmember (k : Bytes) (count : Option Int)
  | spop (k : Bytes) (count : Option Int)
  | sdiff (ks : List Bytes)
  | sinter (ks : List Bytes)
  | sunion (ks : List Bytes)
  | scard (k : Bytes)
deriving DecidableEq, Repr

/-- The type assertion `o.(protocol.RedisString)` followed by `Data()`: simple, bulk and null bulk strings (whose data is empty)
satisfy the interface (pkg/protocol/resp.go:36-41, 109-129); errors, integers and arrays do not. -/
def text : Resp → Option Bytes
  | .simple d => some d
  | .bulk d => some d
  | .nullBulk => some []
  | _ => none

/-- The loops that convert all arguments, e.g. pkg/command/global.go:399-406. -/
def texts : List Resp → Option (List Bytes)
  | [] => some []
  | o :: os =>
    match text o with
    | none => none
    | some d =>
      match texts os with
      | none => none
      | some ds => some (d :: ds)

/-- The loops that convert alternating keys and values, pkg/command/global.go:295-309 and hash.go:103-118 (the length is known to be even). -/
def pairs : List Resp → Option (List Bytes × List Bytes)
  | k :: v :: os =>
    match text k with
    | none => none
    | some dk =>
      match text v with
      | none => none
      | some dv =>
        match pairs os with
        | none => none
        | some (ks, vs) => some (dk :: ks, dv :: vs)
  | _ => some ([], [])

/-- A string argument that must hold an integer, e.g. pkg/command/global.go:975-983. -/
def intArg (o : Resp) : Option Int :=
  match text o with
  | none => none
  | some d => parseInt64 d

/-- Commands with exactly one argument, a key: pkg/command/global.go:205-218 (get), 579-592 (strlen); list.go:98-111 (lpop), 180-193
(rpop), 663-676 (llen); hash.go:497-510 (hlen), 575-588 (hgetall), 661-674 (hkeys), 746-759 (hvals); set.go:89-102 (scard), 264-277
(smembers). `none` is `ErrArgumentInvalid`, also below. -/
def parseKey (mk : Bytes → Command) : List Resp → Option Command
  | [o] => (text o).map mk
  | _ => none

/-- Commands with exactly two string arguments: pkg/command/global.go:115-133 (set), 658-676 (append); hash.go:195-215 (hget), 405-425
(hexists), 832-852 (hstrlen); set.go:350-370 (sismember). -/
def parseKeyArg (mk : Bytes → Bytes → Command) : List Resp → Option Command
  | [o, p] =>
    match text o, text p with
    | some k, some v => some (mk k v)
    | _, _ => none
  | _ => none

/-- Commands with at least one argument, all keys: pkg/command/global.go:392-409 (mget), 491-508 (exists); set.go:783-802 (sdiff),
896-915 (sinter), 1009-1028 (sunion). -/
def parseKeys (mk : List Bytes → Command) (os : List Resp) : Option Command :=
  if os.length ≤ 0 then none else (texts os).map mk

/-- Commands with a key and at least one more string: pkg/command/list.go:263-286 (lpush), 359-382 (rpush); hash.go:290-314 (hmget),
927-951 (hdel); set.go:168-192 (sadd), 443-467 (srem). -/
def parseKeyArgs (mk : Bytes → List Bytes → Command) (os : List Resp) : Option Command :=
  if os.length ≤ 1 then none
  else match texts os with
    | some (k :: vs) => some (mk k vs)
    | _ => none

/-- Commands with a key and two integers: pkg/command/global.go:963-1000 (getrange); list.go:456-493 (lrange), 940-977 (ltrim). -/
def parseKeyInts (mk : Bytes → Int → Int → Command) : List Resp → Option Command
  | [o, a, b] =>
    match text o, intArg a, intArg b with
    | some k, some i, some j => some (mk k i j)
    | _, _, _ => none
  | _ => none

/-- Commands with a key, an integer and a string: pkg/command/list.go:743-773 (lset), 844-874 (lrem). -/
def parseKeyIntArg (mk : Bytes → Int → Bytes → Command) : List Resp → Option Command
  | [o, a, b] =>
    match text o, intArg a, text b with
    | some k, some i, some v => some (mk k i v)
    | _, _, _ => none
  | _ => none

/-- pkg/command/list.go:569-594 (lindex). -/
def parseLindex : List Resp → Option Command
  | [o, a] =>
    match text o, intArg a with
    | some k, some i => some (.lindex k i)
    | _, _ => none
  | _ => none

/-- pkg/command/global.go:288-312 (mset). -/
def parseMset (os : List Resp) : Option Command :=
  if os.length % 2 ≠ 0 then none
  else (pairs os).map fun p => .mset p.1 p.2

/-- pkg/command/hash.go:90-121 (hset). -/
def parseHset (os : List Resp) : Option Command :=
  if os.length % 2 ≠ 1 then none
  else match os with
    | [] => none
    | o :: rest =>
      match text o with
      | none => none
      | some k => (pairs rest).map fun p => .hset k p.1 p.2

/-- pkg/command/global.go:748-771 (incrCommand) and 855-878 (decrCommand): one argument means step "1". -/
def parseIncr (mk : Bytes → Bytes → Command) : List Resp → Option Command
  | [o] => (text o).map fun k => mk k b!"1"
  | [o, a] =>
    match text o, text a with
    | some k, some v => some (mk k v)
    | _, _ => none
  | _ => none

/-- pkg/command/global.go:57-67 and 74-84: INCR and DECR drop all arguments after the first. -/
def parseIncrOne (mk : Bytes → Bytes → Command) (os : List Resp) : Option Command :=
  if os.length ≥ 1 then parseIncr mk (os.take 1) else parseIncr mk os

/-- pkg/command/set.go:541-574 (spop) and 663-696 (srandmember): the count is optional. -/
def parseCount (mk : Bytes → Option Int → Command) : List Resp → Option Command
  | [o] => (text o).map fun k => mk k none
  | [o, a] =>
    match text o, intArg a with
    | some k, some i => some (mk k (some i))
    | _, _ => none
  | _ => none

/-- Go's `strings.ToLower`, as far as a comparison with ASCII words can tell: ASCII letters, and the only two other characters whose
lower case is ASCII, U+0130 (to "i") and U+212A (to "k"). All other non-ASCII text maps to non-ASCII text and is left unchanged here.
Called at pkg/command/command.go:119 and list.go:1067. -/
def toLower : Bytes → Bytes
  | 0xC4 :: 0xB0 :: cs => 105 :: toLower cs
  | 0xE2 :: 0x84 :: 0xAA :: cs => 107 :: toLower cs
  | c :: cs => (if 65 ≤ c.toNat ∧ c.toNat ≤ 90 then c + 32 else c) :: toLower cs
  | [] => []

/-- pkg/command/list.go:1050-1087 (linsert). -/
def parseLinsert : List Resp → Option Command
  | [o, w, p, v] =>
    match text o, text w, text p, text v with
    | some k, some where', some pivot, some x =>
      if toLower where' = b!"before" then some (.linsert k false pivot x)
      else if toLower where' = b!"after" then some (.linsert k true pivot x)
      else none
    | _, _, _, _ => none
  | _ => none

/-- The map of pkg/command/command.go:52-111 together with the switches of `newGlobalCommand` (global.go:13-100), `newListCommand`
(list.go:13-84), `newHashCommand` (hash.go:10-74) and `newSetCommand` (set.go:11-75), which have a case for exactly these names. -/
def keyMap : GoMap (List Resp → Option Command) :=
  [ (b!"set", parseKeyArg .set)
  , (b!"get", parseKey .get)
  , (b!"mset", parseMset)
  , (b!"mget", parseKeys .mget)
  , (b!"exists", parseKeys .exist)
  , (b!"strlen", parseKey .strlen)
  , (b!"append", parseKeyArg .append)
  , (b!"incr", parseIncrOne .incr)
  , (b!"incrby", parseIncr .incr)
  , (b!"decr", parseIncrOne .decr)
  , (b!"decrby", parseIncr .decr)
  , (b!"getrange", parseKeyInts .getrange)
  , (b!"lpop", parseKey .lpop)
  , (b!"rpop", parseKey .rpop)
  , (b!"lindex", parseLindex)
  , (b!"linsert", parseLinsert)
  , (b!"llen", parseKey .llen)
  , (b!"lpush", parseKeyArgs .lpush)
  , (b!"rpush", parseKeyArgs .rpush)
  , (b!"lrange", parseKeyInts .lrange)
  , (b!"ltrim", parseKeyInts .ltrim)
  , (b!"lrem", parseKeyIntArg .lrem)
  , (b!"lset", parseKeyIntArg .lset)
  , (b!"hset", parseHset)
  , (b!"hget", parseKeyArg .hget)
  , (b!"hexists", parseKeyArg .hexists)
  , (b!"hdel", parseKeyArgs .hdel)
  , (b!"hmget", parseKeyArgs .hmget)
  , (b!"hkeys", parseKey .hkeys)
  , (b!"hvals", parseKey .hvals)
  , (b!"hgetall", parseKey .hgetall)
  , (b!"hstrlen", parseKeyArg .hstrlen)
  , (b!"hlen", parseKey .hlen)
  , (b!"sadd", parseKeyArgs .sadd)
  , (b!"srem", parseKeyArgs .srem)
  , (b!"sismember", parseKeyArg .sismember)
  , (b!"smembers", parseKey .smembers)
  , (b!"srandmember", parseCount .srandmember)
  , (b!"spop", parseCount .spop)
  , (b!"sdiff", parseKeys .sdiff)
  , (b!"sinter", parseKeys .sinter)
  , (b!"sunion", parseKeys .sunion)
  , (b!"scard", parseKey .scard) ]

/-- Errors a request can end in, as told apart by `handleError` (pkg/db/engine.go:270-286). The internal ones carry their text. -/
inductive CmdErr where
  | commandNotExist
  | argumentInvalid
  | notAInt
  | noSuchKey
  | outOfRange
  | internal (msg : Bytes)
deriving DecidableEq, Repr

/-- pkg/command/command.go:114-127 `NewCommand`. -/
def newCommand (name : Bytes) (args : List Resp) : Except CmdErr Command :=
  match keyMap.get (toLower name) with
  | none => .error .commandNotExist
  | some parse =>
    match parse args with
    | none => .error .argumentInvalid
    | some c => .ok c

namespace Command

/-- `Type() == ModifyCommandType`: pkg/command/global.go:170-172 (set), 357-359 (mset), 731-733 (append), 819-821 (incr), 926-928 (decr);
list.go:145-147 (lpop), 227-229 (rpop), 323-325 (lpush), 419-421 (rpush), 807-809 (lset), 903-905 (lrem), 1121-1123 (linsert);
hash.go:159-161 (hset), 993-995 (hdel); set.go:229-231 (sadd), 504-506 (srem), 626-628 (spop). All others, including ltrim
(list.go:1012-1014), are `AccessCommandType`. -/
def isModify : Command → Bool
  | .set .. | .mset .. | .append .. | .incr .. | .decr .. => true
  | .lpop .. | .rpop .. | .lpush .. | .rpush .. | .lset .. | .lrem .. | .linsert .. => true
  | .hset .. | .hdel .. => true
  | .sadd .. | .srem .. | .spop .. => true
  | _ => false

end Command

end Verif
