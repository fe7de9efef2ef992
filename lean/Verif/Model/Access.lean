import Verif.Model.DB

/-!
What a command declares about itself, and how the database uses it: the methods `Keys`, `ShouldCreate` and `TargetContainerType` of
pkg/command/{global,list,hash,set}.go, and pkg/db/db.go:26-66.
-/

namespace Verif

/-- pkg/container/container.go:5-14, the types of container a command can ask for. -/
inductive Target where
  | global | list | hash | set
deriving DecidableEq

namespace Command

/-- `TargetContainerType`: pkg/command/global.go:189-191 (set), 271-273 (get), 376-378 (mset), 475-477 (mget), 563-565 (exists), 633-635
(strlen), 723-725 (append), 838-840 (incr), 945-947 (decr), 1053-1055 (getrange);
pkg/command/list.go:164-166 (lpop), 246-248 (rpop), 342-344 (lpush), 438-440 (rpush), 552-554 (lrange), 647-649 (lindex), 725-727 (llen),
826-828 (lset), 922-924 (lrem), 1031-1033 (ltrim), 1140-1142 (linsert);
pkg/command/hash.go:178-180 (hset), 273-275 (hget), 388-390 (hmget), 481-483 (hexists), 559-561 (hlen), 645-647 (hgetall), 730-732 (hkeys),
815-817 (hvals), 910-912 (hstrlen), 1012-1014 (hdel);
pkg/command/set.go:151-153 (scard), 248-250 (sadd), 333-335 (smembers), 426-428 (sismember), 523-525 (srem), 645-647 (spop), 767-769
(srandmember), 880-882 (sdiff), 993-995 (sinter), 1106-1108 (sunion). -/
def target : Command → Target
  | .set .. | .get .. | .mset .. | .mget .. | .exist .. | .strlen .. | .append .. | .incr .. | .decr .. | .getrange .. => .global
  | .lpop .. | .rpop .. | .lindex .. | .linsert .. | .llen .. | .lpush .. | .rpush .. | .lrange .. | .ltrim .. | .lrem .. | .lset .. => .list
  | .hset .. | .hget .. | .hexists .. | .hdel .. | .hmget .. | .hkeys .. | .hvals .. | .hgetall .. | .hstrlen .. | .hlen .. => .hash
  | .sadd .. | .srem .. | .sismember .. | .smembers .. | .srandmember .. | .spop .. | .sdiff .. | .sinter .. | .sunion .. | .scard .. => .set

/-- `ShouldCreate`: pkg/command/global.go:178-180 (set), 260-262 (get), 365-367 (mset), 464-466 (mget), 552-554 (exists), 622-624 (strlen),
712-714 (append), 827-829 (incr), 934-936 (decr), 1042-1044 (getrange);
pkg/command/list.go:153-155 (lpop), 235-237 (rpop), 331-333 (lpush), 427-429 (rpush), 541-543 (lrange), 636-638 (lindex), 714-716 (llen),
815-817 (lset), 911-913 (lrem), 1020-1022 (ltrim), 1129-1131 (linsert);
pkg/command/hash.go:167-169 (hset), 262-264 (hget), 377-379 (hmget), 470-472 (hexists), 548-550 (hlen), 634-636 (hgetall), 719-721 (hkeys),
804-806 (hvals), 899-901 (hstrlen), 1001-1003 (hdel);
pkg/command/set.go:140-142 (scard), 237-239 (sadd), 322-324 (smembers), 415-417 (sismember), 512-514 (srem), 634-636 (spop), 756-758
(srandmember), 863-865 (sdiff), 976-978 (sinter), 1089-1091 (sunion). -/
def shouldCreate : Command → Bool
  | .set .. | .mset .. | .append .. | .incr .. | .decr .. => true
  | .lpush .. | .rpush .. => true
  | .hset .. => true
  | .sadd .. | .srem .. => true
  | _ => false

/-- `Keys`: pkg/command/global.go:174-176 (set), 256-258 (get), 361-363 (mset), 460-462 (mget), 548-550 (exists), 618-620 (strlen), 708-710
(append), 823-825 (incr), 930-932 (decr), 1038-1040 (getrange);
pkg/command/list.go:149-151 (lpop), 231-233 (rpop), 327-329 (lpush), 423-425 (rpush), 537-539 (lrange), 632-634 (lindex), 710-712 (llen),
811-813 (lset), 907-909 (lrem), 1016-1018 (ltrim), 1125-1127 (linsert);
pkg/command/hash.go:163-165 (hset), 258-260 (hget), 373-375 (hmget), 466-468 (hexists), 544-546 (hlen), 630-632 (hgetall), 715-717 (hkeys),
800-802 (hvals), 895-897 (hstrlen), 997-999 (hdel);
pkg/command/set.go:136-138 (scard), 233-235 (sadd), 318-320 (smembers), 411-413 (sismember), 508-510 (srem), 630-632 (spop), 752-754
(srandmember), 859-861 (sdiff), 972-974 (sinter), 1085-1087 (sunion). -/
def keys : Command → List Bytes
  | .mset ks _ | .mget ks | .exist ks | .sdiff ks | .sinter ks | .sunion ks => ks
  | .set k _ | .get k | .strlen k | .append k _ | .incr k _ | .decr k _ | .getrange k _ _ => [k]
  | .lpop k | .rpop k | .lindex k _ | .linsert k _ _ _ | .llen k | .lpush k _ | .rpush k _ | .lrange k _ _ | .ltrim k _ _ | .lrem k _ _
  | .lset k _ _ => [k]
  | .hset k _ _ | .hget k _ | .hexists k _ | .hdel k _ | .hmget k _ | .hkeys k | .hvals k | .hgetall k | .hstrlen k _ | .hlen k => [k]
  | .sadd k _ | .srem k _ | .sismember k _ | .smembers k | .srandmember k _ | .spop k _ | .scard k => [k]

end Command

namespace State

/-- pkg/db/db.go:26-52 `resolveName`, the effect on the containers. -/
def resolveName (st : State) (key : Bytes) (t : Target) (create : Bool) : State :=
  match t with
  | .global => st
  | .list => if create then (st.getOrCreateList key).1 else st
  | .hash => if create then (st.getOrCreateHash key).1 else st
  | .set => if create then (st.getOrCreateSet key).1 else st

/-- pkg/db/db.go:54-61, the loop of `ExecuteCommand` over the keys. -/
def resolve (st : State) (c : Command) : State := c.keys.foldl (fun st k => st.resolveName k c.target c.shouldCreate) st

end State

end Verif
