import Verif.Model.Log
import Verif.Model.Future

/-!
Stopping the server: pkg/network/server.go:134-180 `Serve`, :230-281 `responseWorker` and :283-303 `stop`, with pkg/db/engine.go:199-203 `Stop`,
pkg/replication/master.go:83-92 `stop` and the `main` of cmd/server/main.go:29-50, as a transition system.
-/

namespace Verif

namespace Stop

open Fut (upd)

/-- Whether `engine.master` (nil when replication is off or its port cannot be listened on, pkg/db/engine.go:55-61, pkg/replication/master.go:43-51)
and `engine.file` (nil when no database file is configured or it cannot be opened, pkg/network/server.go:305-308, 338-344) are set. -/
structure Config where
  master : Bool
  file : Bool
deriving DecidableEq

/-- What `stop` does (server.go:285-299, engine.go:200-202). -/
inductive Act where
  /-- server.go:285 -/
  | removeRequest
  /-- server.go:286 -/
  | removeResponse
  /-- server.go:288 -/
  | closeListener
  /-- server.go:290 -/
  | closeShut
  /-- engine.go:200 -/
  | stopMaster
  /-- engine.go:201 -/
  | flush
  /-- engine.go:202 -/
  | closeEngine
  /-- server.go:293-299 -/
  | closeClients
deriving DecidableEq

/-- Where a goroutine is. -/
inductive Pc where
  /-- Outside `stop`; for goroutine 0, at server.go:177. -/
  | idle
  /-- server.go:284 -/
  | called
  /-- Before doing this. -/
  | doing (a : Act)
  /-- master.go:88-90, going through the map of replicas. -/
  | inMaster
  /-- At the end of `stop`. -/
  | returning
deriving DecidableEq

/-- The goroutine of server.go:166-169: at the `select` of server.go:232-237, in `Receive` (server.go:238), at work on a response (server.go:240-278), or
left. -/
inductive Worker where
  | top | receiving | handling | left
deriving DecidableEq

/-- The dynamic type of a value stored in `clients`. -/
inductive Dyn where
  | conn | connPtr
deriving DecidableEq

/-- server.go:187-188: `NewConn` returns a pointer (pkg/network/conn.go:57-74), which is what is stored. -/
def newConnDyn : Dyn := .connPtr

/-- server.go:294, the type assertion `value.(conn)`. -/
def isConn : Dyn → Bool
  | .conn => true
  | .connPtr => false

/-- Why the process dies. -/
inductive Why where
  | nilMaster | nilFile | closeTwice | mapRace
deriving DecidableEq

/-- The process. Goroutine 0 is the main goroutine, which runs `Serve`; the others are the signal handler (server.go:126-129), the goroutines of
server.go:145 and 235, and whoever calls `Stop`. `acceptor` tells whether the goroutine of server.go:140-164 runs. `queue` holds the events
sent to the response receiver, `true` being the one with `ErrTopicRemoved`. `closedClients` are the connections `stop` has closed. -/
structure Sys where
  shutdown : Bool
  pcs : Nat → Pc
  requestTopic : Bool
  responseTopic : Bool
  listening : Bool
  shut : Bool
  engineShut : Bool
  acceptor : Bool
  worker : Worker
  queue : List Bool
  log : PFile
  clients : List (Nat × Dyn)
  closedClients : List Nat
  crashed : Bool
  exited : Bool

/-- A server on which `Serve` has started its goroutines, with a database file of contents `d`. -/
def new (d : Bytes) : Sys :=
  { shutdown := false, pcs := fun _ => .idle, requestTopic := true, responseTopic := true, listening := true, shut := false, engineShut := false
    acceptor := true, worker := .top, queue := [], log := PFile.new d, clients := [], closedClients := [], crashed := false, exited := false }

/-- What happens. -/
inductive Ev where
  | call (i : Nat)
  | won (i : Nat)
  | lost (i : Nat)
  | did (i : Nat) (a : Act)
  | masterLeft (i : Nat)
  | returned (i : Nat)
  /-- Bytes were handed to the log file by `writeLog` (engine.go:218). -/
  | logged (b : Bytes)
  /-- A transfer to a replica flushed the log file (master.go:119). -/
  | replicaFlush
  /-- A response was sent to the response worker. -/
  | response
  | accepted (c : Nat)
  | acceptorLeft
  | workerWaits
  | workerGot
  | workerDone
  | workerLeft
  | exit
  | crash (w : Why)
deriving DecidableEq

/-- The steps of a running process. `RemoveTopic` is one step: it waits for at most the 10ms each `Send` can take. -/
inductive Run (cfg : Config) (ω : Nat → Nat) : Sys → Ev → Sys → Prop where
  | call {s : Sys} (i : Nat) : i ≠ 0 → s.pcs i = .idle → Run cfg ω s (.call i) { s with pcs := upd s.pcs i .called }
  /-- server.go:177-179 -/
  | mainCall {s : Sys} : s.pcs 0 = .idle → s.acceptor = false → s.worker = .left → Run cfg ω s (.call 0) { s with pcs := upd s.pcs 0 .called }
  /-- server.go:284 -/
  | won {s : Sys} (i : Nat) : s.pcs i = .called → s.shutdown = false →
      Run cfg ω s (.won i) { s with shutdown := true, pcs := upd s.pcs i (.doing .removeRequest) }
  | lost {s : Sys} (i : Nat) : s.pcs i = .called → s.shutdown = true → Run cfg ω s (.lost i) { s with pcs := upd s.pcs i .returning }
  /-- server.go:285. The engine's loop, which this ends, is not part of the state. -/
  | removeRequest {s : Sys} (i : Nat) : s.pcs i = .doing .removeRequest →
      Run cfg ω s (.did i .removeRequest) { s with requestTopic := false, pcs := upd s.pcs i (.doing .removeResponse) }
  /-- server.go:286, the event being taken by the response receiver, whose buffer has 100 places (server.go:104) -/
  | removeResponse {s : Sys} (i : Nat) : s.pcs i = .doing .removeResponse → s.queue.length < 100 →
      Run cfg ω s (.did i .removeResponse) { s with responseTopic := false, queue := s.queue ++ [true], pcs := upd s.pcs i (.doing .closeListener) }
  /-- server.go:286, sending the event having expired -/
  | removeResponseExpired {s : Sys} (i : Nat) : s.pcs i = .doing .removeResponse →
      Run cfg ω s (.did i .removeResponse) { s with responseTopic := false, pcs := upd s.pcs i (.doing .closeListener) }
  /-- server.go:288 -/
  | closeListener {s : Sys} (i : Nat) : s.pcs i = .doing .closeListener →
      Run cfg ω s (.did i .closeListener) { s with listening := false, pcs := upd s.pcs i (.doing .closeShut) }
  /-- server.go:290 -/
  | closeShut {s : Sys} (i : Nat) : s.pcs i = .doing .closeShut → s.shut = false →
      Run cfg ω s (.did i .closeShut) { s with shut := true, pcs := upd s.pcs i (.doing .stopMaster) }
  | closeShutTwice {s : Sys} (i : Nat) : s.pcs i = .doing .closeShut → s.shut = true → Run cfg ω s (.crash .closeTwice) { s with crashed := true }
  /-- engine.go:200 with a master, up to master.go:86 -/
  | stopMaster {s : Sys} (i : Nat) : s.pcs i = .doing .stopMaster → cfg.master = true →
      Run cfg ω s (.did i .stopMaster) { s with pcs := upd s.pcs i .inMaster }
  /-- engine.go:200 without a master: a method call on a nil interface -/
  | nilMaster {s : Sys} (i : Nat) : s.pcs i = .doing .stopMaster → cfg.master = false → Run cfg ω s (.crash .nilMaster) { s with crashed := true }
  /-- master.go:90 -/
  | masterLeft {s : Sys} (i : Nat) : s.pcs i = .inMaster → Run cfg ω s (.masterLeft i) { s with pcs := upd s.pcs i (.doing .flush) }
  /-- master.go:88 with master.go:104 or 175: the loop does not hold the mutex, and the runtime kills a process it sees iterating over a map
  while writing to it. Without a file replicas are turned away before the map is written (master.go:95-98). -/
  | mapRace {s : Sys} (i : Nat) : s.pcs i = .inMaster → cfg.file = true → Run cfg ω s (.crash .mapRace) { s with crashed := true }
  /-- engine.go:201 with a file; the error is dropped -/
  | flush {s : Sys} (i : Nat) : s.pcs i = .doing .flush → cfg.file = true →
      Run cfg ω s (.did i .flush) { s with log := s.log.flush ω, pcs := upd s.pcs i (.doing .closeEngine) }
  /-- engine.go:201 without a file: `Flush` reads a field of a nil pointer (pkg/log/persistent.go:46) -/
  | nilFile {s : Sys} (i : Nat) : s.pcs i = .doing .flush → cfg.file = false → Run cfg ω s (.crash .nilFile) { s with crashed := true }
  /-- engine.go:202 -/
  | closeEngine {s : Sys} (i : Nat) : s.pcs i = .doing .closeEngine → s.engineShut = false →
      Run cfg ω s (.did i .closeEngine) { s with engineShut := true, pcs := upd s.pcs i (.doing .closeClients) }
  | closeEngineTwice {s : Sys} (i : Nat) : s.pcs i = .doing .closeEngine → s.engineShut = true →
      Run cfg ω s (.crash .closeTwice) { s with crashed := true }
  /-- server.go:293-299 -/
  | closeClients {s : Sys} (i : Nat) : s.pcs i = .doing .closeClients →
      Run cfg ω s (.did i .closeClients)
        { s with closedClients := s.closedClients ++ (s.clients.filter fun c => isConn c.2).map Prod.fst, pcs := upd s.pcs i .returning }
  | returned {s : Sys} (i : Nat) : i ≠ 0 → s.pcs i = .returning → Run cfg ω s (.returned i) { s with pcs := upd s.pcs i .idle }
  /-- server.go:180 and cmd/server/main.go:50: `main` returns, which ends the process -/
  | exit {s : Sys} : s.pcs 0 = .returning → Run cfg ω s .exit { s with exited := true }
  /-- engine.go:218. The goroutines of `writeLog` (engine.go:125) may come at any time. -/
  | logged {s : Sys} (b : Bytes) : cfg.file = true → Run cfg ω s (.logged b) { s with log := (s.log.write ω b).1 }
  /-- master.go:119 -/
  | replicaFlush {s : Sys} : cfg.file = true → cfg.master = true → Run cfg ω s .replicaFlush { s with log := s.log.flush ω }
  | response {s : Sys} : s.queue.length < 100 → Run cfg ω s .response { s with queue := s.queue ++ [false] }
  /-- server.go:148-159, 186-188 -/
  | accepted {s : Sys} (c : Nat) : s.acceptor = true → s.listening = true →
      Run cfg ω s (.accepted c) { s with clients := (c, newConnDyn) :: s.clients }
  /-- server.go:144-146, the `stop` being run by goroutine `j` -/
  | acceptorShut {s : Sys} (j : Nat) : s.acceptor = true → s.shut = true → j ≠ 0 → s.pcs j = .idle →
      Run cfg ω s .acceptorLeft { s with acceptor := false, pcs := upd s.pcs j .called }
  /-- server.go:150-151 -/
  | acceptorErr {s : Sys} : s.acceptor = true → s.listening = false → Run cfg ω s .acceptorLeft { s with acceptor := false }
  /-- server.go:234-236 -/
  | workerShut {s : Sys} (j : Nat) : s.worker = .top → s.shut = true → j ≠ 0 → s.pcs j = .idle →
      Run cfg ω s .workerLeft { s with worker := .left, pcs := upd s.pcs j .called }
  /-- server.go:237-238 -/
  | workerWaits {s : Sys} : s.worker = .top → s.shut = false → Run cfg ω s .workerWaits { s with worker := .receiving }
  /-- server.go:238, a response -/
  | workerGot {s : Sys} (q : List Bool) : s.worker = .receiving → s.queue = false :: q → Run cfg ω s .workerGot { s with worker := .handling, queue := q }
  /-- server.go:240-278 -/
  | workerDone {s : Sys} : s.worker = .handling → Run cfg ω s .workerDone { s with worker := .top }
  /-- server.go:240-244 -/
  | workerRemoved {s : Sys} (q : List Bool) : s.worker = .receiving → s.queue = true :: q → Run cfg ω s .workerLeft { s with worker := .left, queue := q }

/-- Nothing happens any more once the process has crashed or exited. -/
def Step (cfg : Config) (ω : Nat → Nat) (s : Sys) (e : Ev) (s' : Sys) : Prop := s.crashed = false ∧ s.exited = false ∧ Run cfg ω s e s'

end Stop

end Verif
