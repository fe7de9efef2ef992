import Verif.Model.Log
import Verif.Model.Future

/-!
Serving replicas: pkg/replication/master.go:62-81 `start` and :94-177 `handleConn` next to the running engine, as a transition system, and what a
starting replica does with what it gets: pkg/replication/replica.go:39-65 `Receive` and pkg/network/server.go:305-315 `syncExternal`.
`stop` is in `Verif.Model.Stop`.
-/

namespace Verif

namespace Master

open Fut (upd)

/-- Where the goroutine of `handleConn` for one connection is. -/
inductive Pc where
  /-- Nobody has connected. -/
  | absent
  /-- master.go:95 -/
  | accepted
  /-- master.go:103 -/
  | entered
  /-- master.go:108 -/
  | listed
  /-- master.go:119 -/
  | created
  /-- master.go:125 -/
  | flushed
  /-- master.go:131 -/
  | opened
  /-- master.go:137, the temporary file containing `b` -/
  | copied (b : Bytes)
  /-- master.go:156-172, `n` bytes having gone out -/
  | sending (b : Bytes) (n : Nat)
  /-- `handleConn` has returned. -/
  | left
deriving DecidableEq

/-- The engine of pkg/db/engine.go and the master. Connections are numbered. `file` tells whether `SetFile` (master.go:187-190) has been called:
pkg/network/server.go:344 does it, if at all, before the master is started. `accepting` tells whether the loop of `start` runs. `stream c` is what
has been written to connection `c`, `closed` which connections are closed or broken, `conns` the map `m.conn`, whose keys are the peers' addresses,
`temps` the temporary files on disk and `raws` the handles of the log file (master.go:125) that nobody has closed, though a finalizer may do so in the
end. -/
structure Sys where
  engine : Engine
  file : Bool
  accepting : Bool
  pcs : Nat → Pc
  stream : Nat → Bytes
  closed : Nat → Bool
  conns : List Nat
  temps : List Nat
  raws : List Nat

/-- A master started next to an engine. -/
def new (e : Engine) (file : Bool) : Sys :=
  { engine := e, file := file, accepting := true, pcs := fun _ => .absent, stream := fun _ => [], closed := fun _ => false
    conns := [], temps := [], raws := [] }

/-- What happens. -/
inductive Ev where
  /-- A step of the engine or of one of its log writers. -/
  | engine
  | accepted (c : Nat)
  | acceptFailed
  /-- `handleConn` finds no file. -/
  | noFile (c : Nat)
  | entered (c : Nat)
  | listed (c : Nat)
  | created (c : Nat)
  | flushed (c : Nat)
  | opened (c : Nat)
  | copied (c : Nat)
  | prepared (c : Nat)
  | wrote (c : Nat)
  /-- Everything was sent. -/
  | finished (c : Nat)
  /-- `handleConn` gives up. -/
  | failed (c : Nat)
  /-- The connection breaks, or `stop` closes it (master.go:88-90), or it is forgotten and the garbage collector's finalizer closes it. -/
  | broke (c : Nat)
deriving DecidableEq

/-- `handleConn` returns: the deferred calls close the connection and remove the temporary file (master.go:101, 114-117). -/
def leave (s : Sys) (c : Nat) : Sys :=
  { s with pcs := upd s.pcs c .left, closed := upd s.closed c true, temps := s.temps.erase c }

/-- The engine's writers find no file to write to (pkg/db/engine.go:206-208). -/
def noLog (file : Bool) (before after : Engine) : Engine := if file then after else { after with file := before.file }

/-- The positions at which `handleConn` can give up: creating the temporary file (109-112), opening the log (126-129), copying it (132-135),
`Seek` and `Stat` (138-150), sending (157-172). Giving up after `Flush` (120-123) is the step `flushFails`. -/
def canFail : Pc → Bool
  | .listed | .flushed | .opened | .copied _ | .sending _ _ => true
  | _ => false

/-- The steps. `engine` are the steps of the engine, `ω` how much the disk takes. Reading the log file to its end (131) while others append to it
gives what it contains when the end is met, so it is one step. The four bytes of the length and the copied file go out one after the other
(156, 165); how many bytes a call takes is up to the network. -/
inductive Step (engine : Engine → Engine → Prop) (ω : Nat → Nat) : Sys → Ev → Sys → Prop where
  | engine {s : Sys} {e : Engine} : engine s.engine e → Step engine ω s .engine { s with engine := noLog s.file s.engine e }
  /-- master.go:67, 78 -/
  | accept {s : Sys} (c : Nat) : s.accepting = true → s.pcs c = .absent → Step engine ω s (.accepted c) { s with pcs := upd s.pcs c .accepted }
  /-- master.go:68-75: whatever the error, the loop is left (the `break` of line 73 is not inside a `select`) -/
  | acceptFails {s : Sys} : s.accepting = true → Step engine ω s .acceptFailed { s with accepting := false }
  /-- master.go:95-98 -/
  | noFile {s : Sys} (c : Nat) : s.pcs c = .accepted → s.file = false → Step engine ω s (.noFile c) { s with pcs := upd s.pcs c .left }
  | enter {s : Sys} (c : Nat) : s.pcs c = .accepted → s.file = true → Step engine ω s (.entered c) { s with pcs := upd s.pcs c .entered }
  /-- master.go:103-105 -/
  | list {s : Sys} (c : Nat) : s.pcs c = .entered → Step engine ω s (.listed c) { s with conns := c :: s.conns, pcs := upd s.pcs c .listed }
  /-- master.go:108 -/
  | create {s : Sys} (c : Nat) : s.pcs c = .listed → Step engine ω s (.created c) { s with temps := c :: s.temps, pcs := upd s.pcs c .created }
  /-- master.go:119 -/
  | flush {s : Sys} (c : Nat) : s.pcs c = .created → (s.engine.file.flush ω).failed = false →
      Step engine ω s (.flushed c) { s with engine := { s.engine with file := s.engine.file.flush ω }, pcs := upd s.pcs c .flushed }
  /-- master.go:119-123 -/
  | flushFails {s : Sys} (c : Nat) : s.pcs c = .created → (s.engine.file.flush ω).failed = true →
      Step engine ω s (.failed c) (leave { s with engine := { s.engine with file := s.engine.file.flush ω } } c)
  /-- master.go:125 -/
  | openRaw {s : Sys} (c : Nat) : s.pcs c = .flushed → Step engine ω s (.opened c) { s with raws := c :: s.raws, pcs := upd s.pcs c .opened }
  /-- master.go:131 -/
  | copy {s : Sys} (c : Nat) : s.pcs c = .opened → Step engine ω s (.copied c) { s with pcs := upd s.pcs c (.copied s.engine.file.disk) }
  /-- master.go:137-154 -/
  | prepare {s : Sys} (c : Nat) (b : Bytes) : s.pcs c = .copied b → Step engine ω s (.prepared c) { s with pcs := upd s.pcs c (.sending b 0) }
  /-- master.go:156, 165 -/
  | send {s : Sys} (c : Nat) (b : Bytes) (n k : Nat) : s.pcs c = .sending b n → s.closed c = false → n + k ≤ (transfer b).length →
      Step engine ω s (.wrote c)
        { s with stream := upd s.stream c (s.stream c ++ ((transfer b).drop n).take k), pcs := upd s.pcs c (.sending b (n + k)) }
  /-- master.go:174-177 -/
  | finish {s : Sys} (c : Nat) (b : Bytes) (n : Nat) : s.pcs c = .sending b n → n = (transfer b).length →
      Step engine ω s (.finished c) (leave { s with conns := s.conns.erase c } c)
  | fail {s : Sys} (c : Nat) : canFail (s.pcs c) = true → Step engine ω s (.failed c) (leave s c)
  | broke {s : Sys} (c : Nat) : s.pcs c ≠ .absent → Step engine ω s (.broke c) { s with closed := upd s.closed c true }

end Master

/-- Whether pkg/replication/replica.go:39-65 `Receive` returns when `got` has arrived and the connection has or has not `ended`; as long as bytes
are missing and the connection is open, `ReadExactBytes` (pkg/util/util.go:103-116) waits. -/
def receiveReturns (got : Bytes) (ended : Bool) : Bool := ended || decide ((receive got).2 ≠ some .incomplete)

/-- pkg/network/server.go:305-315 `syncExternal`, on a new engine: `own` is the contents of the database file, if one is configured (an unreadable
one is like an empty one, 338-342), `master` what arrives from the master, if one is configured and can be connected to (318-322). `envs` and
`envs'` are the surroundings of the two replays. -/
def syncExternal (envs envs' : Nat → Env) (own : Option Bytes) (master : Option Bytes) : Outcome DBs :=
  match own with
  | none => .ok fun _ => State.empty
  | some file => do
    let dbs ← fromFile (fun _ => State.empty) envs file
    match master with
    | none => .ok dbs
    | some s => fromMaster dbs envs' s

end Verif
