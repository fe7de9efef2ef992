import Verif.Model.Future

/-!
pkg/replication/master.go:62-92, 94-106, 174-177: the map of connections of a master, its mutex and `stop`, at the granularity at which the Go runtime looks at
maps. What `handleConn` does in between (107-172) is one stage here; its steps are in `Verif.Model.Master`.
The master has a file: without one `handleConn` returns at once (95-98).
-/

namespace Verif

namespace Registry

open Fut (upd)

/-- Where `handleConn` is for a connection. -/
inductive Pc where
  | absent
  /-- master.go:103, waiting for the mutex -/
  | entered
  /-- master.go:104 -/
  | locked
  /-- In the middle of the assignment of master.go:104. -/
  | adding
  /-- master.go:105 -/
  | added
  /-- master.go:107-172 -/
  | serving
  /-- master.go:174, waiting for the mutex: everything has been sent. -/
  | sent
  /-- master.go:175 -/
  | relocked
  /-- In the middle of the `delete` of master.go:175. -/
  | removing
  /-- master.go:176 -/
  | removed
  | left
deriving DecidableEq

/-- Where `stop` is (master.go:83-92): the only call that gets past the `CompareAndSwap`; all others return at once and do nothing. -/
inductive Stop where
  | idle
  /-- master.go:85, waiting for the mutex -/
  | won
  /-- master.go:86 -/
  | holding
  /-- master.go:88 -/
  | free
  /-- master.go:88-90. `must` are the keys that were in the map at the beginning and have been there since, `seen` those that the iteration has given. -/
  | ranging (must seen : List Nat)
  | over
deriving DecidableEq

/-- Who has the mutex. -/
inductive Who where
  | handler (c : Nat)
  | stop
deriving DecidableEq

/-- The loop of `start` (master.go:62-80). -/
inductive Loop where
  | before | running | ended
deriving DecidableEq

/-- `conns` is `m.conn` as a list of addresses and connections, each address at most once; `crashed`: the Go runtime has ended the process. -/
structure Sys where
  loop : Loop
  pcs : Nat → Pc
  stop : Stop
  mutex : Option Who
  conns : List (Nat × Nat)
  closed : Nat → Bool
  crashed : Bool

/-- master.go:53-59 -/
def new : Sys :=
  { loop := .before, pcs := fun _ => .absent, stop := .idle, mutex := none, conns := [], closed := fun _ => false, crashed := false }

/-- What happens; `c` is a connection, `a` an address. -/
inductive Ev where
  | started
  | acceptFailed
  | accepted (c : Nat)
  | locked (c : Nat)
  | adding (c : Nat)
  | added (c : Nat)
  | unlocked (c : Nat)
  | sent (c : Nat)
  | failed (c : Nat)
  | relocked (c : Nat)
  | removing (c : Nat)
  | removed (c : Nat)
  | left (c : Nat)
  | stopping
  | held
  | letGo
  | ranged
  | closed (a : Nat)
  | over
  | crashed
deriving DecidableEq

/-- Some goroutine is in the middle of a change of the map, which the runtime notes in the map itself. -/
def Writing (s : Sys) : Prop := ∃ c, s.pcs c = .adding ∨ s.pcs c = .removing

/-- The map after an assignment. -/
def put (l : List (Nat × Nat)) (a c : Nat) : List (Nat × Nat) := (a, c) :: l.filter fun p => p.1 ≠ a

/-- The map after a `delete`. -/
def drop (l : List (Nat × Nat)) (a : Nat) : List (Nat × Nat) := l.filter fun p => p.1 ≠ a

/-- The iteration over the map when the entry at `a` is deleted: it will not be given if it has not been given yet. -/
def Stop.without : Stop → Nat → Stop
  | .ranging must seen, a => .ranging (must.filter (· ≠ a)) seen
  | p, _ => p

/-- The steps; `addr c` is the address of the peer of connection `c` (master.go:100). The runtime ends the process when a change of a map begins, or an iteration
is to give the next entry, in the middle of a change by another goroutine; that unsynchronised accesses may also go wrong without being noticed is left out. An
iteration over an empty map is over without being looked at. -/
inductive Move (addr : Nat → Nat) : Sys → Ev → Sys → Prop where
  /-- master.go:63: not if `stop` was called before -/
  | start {s : Sys} : s.loop = .before → Move addr s .started { s with loop := if s.stop = .idle then .running else .ended }
  /-- master.go:68-75 -/
  | acceptFails {s : Sys} : s.loop = .running → Move addr s .acceptFailed { s with loop := .ended }
  /-- master.go:67, 78; the loop does not look at `shutdown`, and `stop` does not close the listener -/
  | accept {s : Sys} (c : Nat) : s.loop = .running → s.pcs c = .absent → Move addr s (.accepted c) { s with pcs := upd s.pcs c .entered }
  /-- master.go:103 -/
  | lock {s : Sys} (c : Nat) : s.pcs c = .entered → s.mutex = none → Move addr s (.locked c) { s with mutex := some (.handler c), pcs := upd s.pcs c .locked }
  /-- master.go:104, the beginning -/
  | add {s : Sys} (c : Nat) : s.pcs c = .locked → ¬ Writing s → Move addr s (.adding c) { s with pcs := upd s.pcs c .adding }
  | addCrash {s : Sys} (c : Nat) : s.pcs c = .locked → Writing s → Move addr s .crashed { s with crashed := true }
  /-- master.go:104, the end -/
  | added {s : Sys} (c : Nat) : s.pcs c = .adding → Move addr s (.added c) { s with conns := put s.conns (addr c) c, pcs := upd s.pcs c .added }
  /-- master.go:105 -/
  | unlock {s : Sys} (c : Nat) : s.pcs c = .added → Move addr s (.unlocked c) { s with mutex := none, pcs := upd s.pcs c .serving }
  /-- master.go:107-172, everything has been sent -/
  | send {s : Sys} (c : Nat) : s.pcs c = .serving → s.closed c = false → Move addr s (.sent c) { s with pcs := upd s.pcs c .sent }
  /-- master.go:107-172, giving up: the connection is closed (101) and stays in the map -/
  | fail {s : Sys} (c : Nat) : s.pcs c = .serving → Move addr s (.failed c) { s with pcs := upd s.pcs c .left, closed := upd s.closed c true }
  /-- master.go:174 -/
  | relock {s : Sys} (c : Nat) : s.pcs c = .sent → s.mutex = none → Move addr s (.relocked c) { s with mutex := some (.handler c), pcs := upd s.pcs c .relocked }
  /-- master.go:175, the beginning -/
  | remove {s : Sys} (c : Nat) : s.pcs c = .relocked → ¬ Writing s → Move addr s (.removing c) { s with pcs := upd s.pcs c .removing }
  | removeCrash {s : Sys} (c : Nat) : s.pcs c = .relocked → Writing s → Move addr s .crashed { s with crashed := true }
  /-- master.go:175, the end -/
  | removed {s : Sys} (c : Nat) : s.pcs c = .removing →
      Move addr s (.removed c) { s with conns := drop s.conns (addr c), stop := s.stop.without (addr c), pcs := upd s.pcs c .removed }
  /-- master.go:176-177, 101 -/
  | leave {s : Sys} (c : Nat) : s.pcs c = .removed →
      Move addr s (.left c) { s with mutex := none, pcs := upd s.pcs c .left, closed := upd s.closed c true }
  /-- master.go:84 -/
  | stop {s : Sys} : s.stop = .idle → Move addr s .stopping { s with stop := .won }
  /-- master.go:85 -/
  | hold {s : Sys} : s.stop = .won → s.mutex = none → Move addr s .held { s with stop := .holding, mutex := some .stop }
  /-- master.go:86 -/
  | letGo {s : Sys} : s.stop = .holding → Move addr s .letGo { s with stop := .free, mutex := none }
  /-- master.go:88, the beginning -/
  | range {s : Sys} : s.stop = .free → s.conns ≠ [] → Move addr s .ranged { s with stop := .ranging (s.conns.map Prod.fst) [] }
  /-- master.go:88, an empty map -/
  | rangeEmpty {s : Sys} : s.stop = .free → s.conns = [] → Move addr s .over { s with stop := .over }
  /-- master.go:88-90, the next entry and the body -/
  | close {s : Sys} (must seen : List Nat) (a c : Nat) : s.stop = .ranging must seen → ¬ Writing s → (a, c) ∈ s.conns → a ∉ seen →
      Move addr s (.closed a) { s with stop := .ranging must (a :: seen), closed := upd s.closed c true }
  /-- master.go:88, no next entry: whatever was there all the time has been given; entries that came later may have been left out -/
  | finish {s : Sys} (must seen : List Nat) : s.stop = .ranging must seen → ¬ Writing s → (∀ a ∈ must, a ∈ seen) →
      Move addr s .over { s with stop := .over }
  /-- master.go:88, "concurrent map iteration and map write" -/
  | rangeCrash {s : Sys} (must seen : List Nat) : s.stop = .ranging must seen → Writing s → Move addr s .crashed { s with crashed := true }

/-- The steps of a process that is there. -/
def Step (addr : Nat → Nat) (s : Sys) (l : Ev) (s' : Sys) : Prop := s.crashed = false ∧ Move addr s l s'

end Registry

end Verif
