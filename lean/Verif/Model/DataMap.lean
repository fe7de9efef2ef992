import Verif.Model.GoMap
import Verif.Model.Proto
import Verif.Model.RWLock

/-! pkg/types/data_map.go: the three implementations of `DataMap`. Values are of any type `V` (`interface{}` in the code). -/

namespace Verif

open Fut (upd)

/-- The calls of the interface `DataMap` (pkg/types/data_map.go:10-16). -/
inductive MapOp (V : Type) where
  | set (k : Bytes) (v : V)
  | get (k : Bytes)
  | has (k : Bytes)
  | remove (k : Bytes)
  | len

/-- Their results. `Get`'s pair of value and flag is an `Option`. -/
inductive MapRet (V : Type) where
  | unit
  | val (v : Option V)
  | bool (b : Bool)
  | int (n : Int)

namespace DataMap

variable {V : Type}

/-- pkg/types/data_map.go:30-32 `simpleDataMap.Set`; also the body of `lockedDataMap.Set` (data_map.go:73). -/
def set (m : GoMap V) (k : Bytes) (v : V) : GoMap V := m.set k v

/-- pkg/types/data_map.go:35-38 `simpleDataMap.Get`; also the body of `lockedDataMap.Get` (data_map.go:80-81). -/
def get (m : GoMap V) (k : Bytes) : Option V := m.get k

/-- pkg/types/data_map.go:41-44 `simpleDataMap.Has`; also the body of `lockedDataMap.Has` (data_map.go:88-89). -/
def has (m : GoMap V) (k : Bytes) : Bool := (m.get k).isSome

/-- pkg/types/data_map.go:47-49 `simpleDataMap.Remove`; also the body of `lockedDataMap.Remove` (data_map.go:96). -/
def remove (m : GoMap V) (k : Bytes) : GoMap V := m.erase k

/-- pkg/types/data_map.go:52-54 `simpleDataMap.Len`; also the body of `lockedDataMap.Len` (data_map.go:103). -/
def len (m : GoMap V) : Int := m.length

/-- One call on the container. -/
def run : MapOp V → GoMap V → GoMap V × MapRet V
  | .set k v, m => (set m k v, .unit)
  | .get k, m => (m, .val (get m k))
  | .has k, m => (m, .bool (has m k))
  | .remove k, m => (remove m k, .unit)
  | .len, m => (m, .int (len m))

/-- pkg/types/data_map.go:18-54 `simpleDataMap`, not meant for concurrent use, and the bodies of pkg/types/data_map.go:57-104
`lockedDataMap`: `Get`, `Has` and `Len` take the read lock, `Set` and `Remove` the write lock. -/
def locked (V : Type) : Obj (GoMap V) (MapOp V) (MapRet V) where
  run := run
  reads
    | .get _ | .has _ | .len => true
    | .set _ _ | .remove _ => false

/-- pkg/types/data_map.go:108-111 `syncDataMap`: a `sync.Map` and an `int32`. -/
structure Sync (V : Type) where
  container : GoMap V
  size : Int

/-- pkg/types/data_map.go:114-116 `NewSyncDataMap`. -/
def Sync.new (V : Type) : Sync V := { container := [], size := 0 }

/-- pkg/types/data_map.go:134-137 `syncDataMap.Has`. -/
def Sync.has (m : Sync V) (k : Bytes) : Bool := (m.container.get k).isSome

/-- `atomic.AddInt32(&sdm.size, d)` (pkg/types/data_map.go:122, 144). -/
def Sync.add (m : Sync V) (d : Int) : Sync V := { m with size := Proto.wrap32 (m.size + d) }

/-- `sdm.container.Store` (pkg/types/data_map.go:125). -/
def Sync.store (m : Sync V) (k : Bytes) (v : V) : Sync V := { m with container := m.container.set k v }

/-- `sdm.container.Delete` (pkg/types/data_map.go:143). -/
def Sync.delete (m : Sync V) (k : Bytes) : Sync V := { m with container := m.container.erase k }

/-- One call by the only goroutine: pkg/types/data_map.go:120-126 `Set`, 129-131 `Get`, 134-137 `Has`, 141-146 `Remove`, 149-151 `Len`. -/
def Sync.run : MapOp V → Sync V → Sync V × MapRet V
  | .set k v, m => ((if m.has k then m else m.add 1).store k v, .unit)
  | .get k, m => (m, .val (m.container.get k))
  | .has k, m => (m, .bool (m.has k))
  | .remove k, m => (if m.has k then (m.delete k).add (-1) else m, .unit)
  | .len, m => (m, .int m.size)

/-- `syncDataMap` as an object used by one goroutine. No method takes a lock. -/
def Sync.obj (V : Type) : Obj (Sync V) (MapOp V) (MapRet V) := { run := Sync.run, reads := fun _ => true }

/-- Where a goroutine is in a method of `syncDataMap`; the methods of `sync.Map` and the atomic additions are single steps. -/
inductive Sync.Pc (V : Type) where
  | idle
  /-- In `Set`, the key was absent (pkg/types/data_map.go:122). -/
  | adding (k : Bytes) (v : V)
  /-- In `Set`, before the store (pkg/types/data_map.go:125); `fresh` when the key was absent. -/
  | storing (k : Bytes) (v : V) (fresh : Bool)
  /-- In `Remove`, the key was present (pkg/types/data_map.go:143). -/
  | deleting (k : Bytes)
  /-- In `Remove`, after the deletion (pkg/types/data_map.go:144). -/
  | subtracting (k : Bytes)

/-- A `syncDataMap` used by any number of goroutines. -/
structure Sync.Sys (V : Type) where
  map : Sync V
  pcs : Nat → Sync.Pc V

/-- The beginning. -/
def Sync.start (V : Type) : Sync.Sys V := { map := Sync.new V, pcs := fun _ => .idle }

/-- What happens. `stored` and `deleted` are the moments at which the other goroutines see the change. -/
inductive Sync.Ev (V : Type) where
  | set (t : Nat) (k : Bytes) (v : V)
  | added (t : Nat) (k : Bytes)
  | stored (t : Nat) (k : Bytes) (v : V)
  | remove (t : Nat) (k : Bytes)
  | deleted (t : Nat) (k : Bytes)
  | subtracted (t : Nat) (k : Bytes)
  | got (t : Nat) (k : Bytes) (v : Option V)
  | had (t : Nat) (k : Bytes) (b : Bool)
  | len (t : Nat) (n : Int)

/-- The steps of pkg/types/data_map.go:118-151. -/
inductive Sync.Step : Sync.Sys V → Sync.Ev V → Sync.Sys V → Prop where
  | setOld {s : Sync.Sys V} (t : Nat) (k : Bytes) (v : V) : s.pcs t = .idle → s.map.has k = true →
      Sync.Step s (.set t k v) { s with pcs := upd s.pcs t (.storing k v false) }
  | setNew {s : Sync.Sys V} (t : Nat) (k : Bytes) (v : V) : s.pcs t = .idle → s.map.has k = false →
      Sync.Step s (.set t k v) { s with pcs := upd s.pcs t (.adding k v) }
  | add {s : Sync.Sys V} (t : Nat) (k : Bytes) (v : V) : s.pcs t = .adding k v →
      Sync.Step s (.added t k) { map := s.map.add 1, pcs := upd s.pcs t (.storing k v true) }
  | store {s : Sync.Sys V} (t : Nat) (k : Bytes) (v : V) (fresh : Bool) : s.pcs t = .storing k v fresh →
      Sync.Step s (.stored t k v) { map := s.map.store k v, pcs := upd s.pcs t .idle }
  | removeOld {s : Sync.Sys V} (t : Nat) (k : Bytes) : s.pcs t = .idle → s.map.has k = true →
      Sync.Step s (.remove t k) { s with pcs := upd s.pcs t (.deleting k) }
  | removeNone {s : Sync.Sys V} (t : Nat) (k : Bytes) : s.pcs t = .idle → s.map.has k = false → Sync.Step s (.remove t k) s
  | delete {s : Sync.Sys V} (t : Nat) (k : Bytes) : s.pcs t = .deleting k →
      Sync.Step s (.deleted t k) { map := s.map.delete k, pcs := upd s.pcs t (.subtracting k) }
  | subtract {s : Sync.Sys V} (t : Nat) (k : Bytes) : s.pcs t = .subtracting k →
      Sync.Step s (.subtracted t k) { map := s.map.add (-1), pcs := upd s.pcs t .idle }
  | get {s : Sync.Sys V} (t : Nat) (k : Bytes) : s.pcs t = .idle → Sync.Step s (.got t k (s.map.container.get k)) s
  | has {s : Sync.Sys V} (t : Nat) (k : Bytes) : s.pcs t = .idle → Sync.Step s (.had t k (s.map.has k)) s
  | len {s : Sync.Sys V} (t : Nat) : s.pcs t = .idle → Sync.Step s (.len t s.map.size) s

end DataMap

end Verif
