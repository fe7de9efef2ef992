import Verif.Model.Future

/-!
Several servers that start, in any order or at the same time, some of them as replicas of others: pkg/network/server.go:76-132 `Init` up to the
beginning of `Serve`, with pkg/db/engine.go:139-142 and the service to replicas of pkg/replication/master.go:62-177, taken together here from being
accepted to the end (the steps in between are in `Verif.Model.Master`).
-/

namespace Verif

namespace Cluster

open Fut (upd)

/-- How a server is configured, and what it finds. `master` is the server at whose port for replicas it asks for data (server.go:305-315): none if it
has no `MasterAddress` or no `DatabaseFile`. `serves`: it listens for replicas (server.go:110-118, engine.go:55-61, see `Config.init`).
`file`: its database file can be opened (server.go:338-344). -/
structure Config where
  master : Option Nat
  serves : Bool
  file : Bool

/-- The connection from a replica that starts to its master. -/
inductive Link where
  /-- Made by the kernel, and waiting for `Accept` (master.go:67). -/
  | queued
  /-- In the hands of `handleConn` (master.go:78). -/
  | handled
  /-- `handleConn` has returned without closing it (master.go:95-98). -/
  | forgotten
  /-- Everything has been sent (master.go:165-177). -/
  | sent
  /-- Ended before. -/
  | broken
deriving DecidableEq

/-- Where a server is. -/
inductive Pc where
  /-- There is no such process. -/
  | off
  /-- server.go:120: both ports are listened on. -/
  | bound
  /-- replica.go:39-65 `Receive` -/
  | waiting (l : Link)
  /-- server.go:122-132, and 134 on -/
  | ready
  /-- The engine has been started (engine.go:139-142); `accepting` tells whether the loop of master.go:66-79 runs. -/
  | up (accepting : Bool)
deriving DecidableEq

/-- Where each server is. -/
abbrev Sys := Nat → Pc

/-- No server has been started. -/
def new : Sys := fun _ => .off

/-- What happens; `i` is the server that starts, the connection is the one it has made. -/
inductive Ev where
  | bound (i : Nat)
  | alone (i : Nat)
  | dialled (i : Nat)
  | refused (i : Nat)
  | accepted (i : Nat)
  | noFile (i : Nat)
  | sent (i : Nat)
  | failed (i : Nat)
  | collected (i : Nat)
  | broke (i : Nat)
  | received (i : Nat)
  | served (i : Nat)
  | acceptFailed (i : Nat)
  | died (i : Nat)
deriving DecidableEq

/-- The port for replicas of server `m` is listened on. -/
def listens (cfg : Nat → Config) (s : Sys) (m : Nat) : Prop := (cfg m).serves = true ∧ s m ≠ .off

/-- What is left of a connection when the process at its other end is gone. -/
def cutOff : Pc → Pc
  | .waiting .sent => .waiting .sent
  | .waiting _ => .waiting .broken
  | p => p

/-- The process of server `i` is gone, and the operating system closes all its connections. -/
def without (cfg : Nat → Config) (s : Sys) (i : Nat) : Sys := fun k => if k = i then .off else if (cfg k).master = some i then cutOff (s k) else s k

/-- The steps. The kernel makes connections to a port that is listened on, whether or not anybody accepts them; that there is a limit to how many, that
connecting may fail for other reasons and that a host may be unreachable are left out. Replaying files may crash a process: `die` can come at any
time. -/
inductive Step (cfg : Nat → Config) : Sys → Ev → Sys → Prop where
  /-- server.go:88-118 -/
  | bind {s : Sys} (i : Nat) : s i = .off → Step cfg s (.bound i) (upd s i .bound)
  /-- server.go:120, 305-315 without a master to ask -/
  | alone {s : Sys} (i : Nat) : s i = .bound → (cfg i).master = none → Step cfg s (.alone i) (upd s i .ready)
  /-- server.go:318 -/
  | dial {s : Sys} (i m : Nat) : s i = .bound → (cfg i).master = some m → listens cfg s m → Step cfg s (.dialled i) (upd s i (.waiting .queued))
  /-- server.go:318-322 -/
  | refuse {s : Sys} (i m : Nat) : s i = .bound → (cfg i).master = some m → ¬ listens cfg s m → Step cfg s (.refused i) (upd s i .ready)
  /-- master.go:67, 78 -/
  | accept {s : Sys} (i m : Nat) : s i = .waiting .queued → (cfg i).master = some m → s m = .up true →
      Step cfg s (.accepted i) (upd s i (.waiting .handled))
  /-- master.go:95-98 -/
  | noFile {s : Sys} (i m : Nat) : s i = .waiting .handled → (cfg i).master = some m → (cfg m).file = false →
      Step cfg s (.noFile i) (upd s i (.waiting .forgotten))
  /-- master.go:100-177 -/
  | send {s : Sys} (i m : Nat) : s i = .waiting .handled → (cfg i).master = some m → (cfg m).file = true →
      Step cfg s (.sent i) (upd s i (.waiting .sent))
  /-- master.go:100-177, giving up somewhere -/
  | fail {s : Sys} (i m : Nat) : s i = .waiting .handled → (cfg i).master = some m → (cfg m).file = true →
      Step cfg s (.failed i) (upd s i (.waiting .broken))
  /-- A connection that nobody refers to is closed by its finalizer when the garbage collector has found it. -/
  | collect {s : Sys} (i : Nat) : s i = .waiting .forgotten → Step cfg s (.collected i) (upd s i (.waiting .broken))
  /-- The network breaks a connection. -/
  | broke {s : Sys} (i : Nat) (l : Link) : s i = .waiting l → l ≠ .sent → Step cfg s (.broke i) (upd s i (.waiting .broken))
  /-- replica.go:42-64, server.go:325-334 -/
  | receive {s : Sys} (i : Nat) : s i = .waiting .sent ∨ s i = .waiting .broken → Step cfg s (.received i) (upd s i .ready)
  /-- server.go:134-171, engine.go:139-142 -/
  | serve {s : Sys} (i : Nat) : s i = .ready → Step cfg s (.served i) (upd s i (.up (cfg i).serves))
  /-- master.go:68-75 -/
  | acceptFails {s : Sys} (i : Nat) : s i = .up true → Step cfg s (.acceptFailed i) (upd s i (.up false))
  | die {s : Sys} (i : Nat) : s i ≠ .off → Step cfg s (.died i) (without cfg s i)

end Cluster

end Verif
