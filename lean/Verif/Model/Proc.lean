import Verif.Model.Full
import Verif.Model.Stop

/-!
The process of cmd/server/main.go:29-50 with a database file, from `Serve` (pkg/network/server.go:134-180) to its end: the whole server with its
connections (`Full`) together with what stops it (`Stop`).
-/

namespace Verif

namespace Proc

open Fut (upd)

/-- `left` tells whether the loop of pkg/db/engine.go:144-196 has ended. `unheard n`: request `n` was published when the topic `request` was gone.
`unsaid n`: the response to it was published when the topic `response` was gone. pkg/concurrency/event_bus.go:137-139 then starts no `distributeEvent`;
here the one `Full` has started never does anything. -/
structure Sys where
  full : Full.Sys
  stop : Stop.Sys
  left : Bool
  unheard : Nat → Bool
  unsaid : Nat → Bool

/-- A server that stores `st`, on a database file with contents `d`. -/
def new (d : Bytes) (st : State) : Sys :=
  { full := Full.new d st, stop := Stop.new d, left := false, unheard := fun _ => false, unsaid := fun _ => false }

/-- What happens: something in the server, something that has to do with stopping it, or both; or the engine leaves its loop. -/
inductive Ev where
  | full (e : Full.Ev)
  | stop (x : Stop.Ev)
  | both (e : Full.Ev) (x : Stop.Ev)
  | engineLeft

/-- The process is there. -/
def Sys.up (s : Sys) : Prop := s.full.up ∧ s.stop.crashed = false ∧ s.stop.exited = false

/-- What happens in the server apart from its connections. -/
def within : Full.Ev → Option Whole.Ev
  | .whole e | .both e _ _ => some e
  | .line _ _ => none

/-- What is a part of both. Packing fails for text that is not UTF-8 (pkg/db/engine.go:212-216), and then nothing is written. -/
inductive Pair : Whole.Ev → Stop.Ev → Prop where
  /-- server.go:148-159, 186-188; here a connection is stored when it is accepted -/
  | accepted (c : Nat) : Pair (.net (.pipe (.connected c))) (.accepted c)
  /-- pkg/concurrency/topic.go:97 -/
  | queued (n : Nat) : Pair (.net (.pipe (.queued n))) .response
  /-- server.go:237-238 -/
  | waits : Pair (.bus (.responses (.chan 0 (.recvCall 0)))) .workerWaits
  /-- server.go:238 -/
  | answering (n : Nat) : Pair (.net (.pipe (.answering n))) .workerGot
  /-- server.go:272 -/
  | wrote (c n : Nat) (b : Bytes) : Pair (.net (.pipe (.wrote c n b))) .workerDone
  /-- server.go:272-275 -/
  | refused (c n : Nat) : Pair (.net (.pipe (.refused c n))) .workerDone
  /-- server.go:264-267, 276-278 -/
  | nobody (n : Nat) : Pair (.net (.pipe (.nobody n))) .workerDone
  /-- engine.go:218 -/
  | logged (q : Req) (b : Bytes) : packLog (newLog q.stamp ((q.objs.head?.bind text).getD []) 1 q.objs) = some b →
      Pair (.recorded (q.stamp, q.objs)) (.logged b)
  /-- pkg/replication/master.go:119 -/
  | replica : Pair .flushed .replicaFlush
  /-- engine.go:201 -/
  | flush (i : Nat) : Pair .flushed (.did i .flush)

/-- What has only to do with stopping. -/
def own : Stop.Ev → Bool
  | .accepted _ | .response | .workerWaits | .workerGot | .workerDone | .logged _ | .replicaFlush | .did _ .flush => false
  | _ => true

/-- The number of the request whose publishing goes on with this. -/
def requestMoves : Whole.Ev → Option Nat
  | .bus (.requests (.topic (.own n _))) | .bus (.requests (.topic (.deleted n _))) | .bus (.requests (.chan _ (.sendCall n _)))
  | .net (.pipe (.taken n)) | .net (.pipe (.dropped n)) => some n
  | _ => none

/-- The number of the request the publishing of whose response goes on with this. -/
def responseMoves : Whole.Ev → Option Nat
  | .bus (.responses (.topic (.own n _))) | .bus (.responses (.topic (.deleted n _))) | .bus (.responses (.chan _ (.sendCall n _)))
  | .net (.pipe (.queued n)) | .net (.pipe (.unqueued n)) => some n
  | _ => none

/-- The engine calls `Receive` (engine.go:150). -/
def engineWaits : Whole.Ev → Bool
  | .bus (.requests (.chan _ (.recvCall _))) => true
  | _ => false

/-- The engine gets a request (engine.go:150). -/
def engineTakes : Whole.Ev → Bool
  | .net (.pipe (.taken _)) => true
  | _ => false

/-- What can happen in a server that is being stopped: only what was published to a topic is sent, and the engine does not go on once it has left its
loop, nor once it has seen at engine.go:146 that it is to stop. -/
def allowed (s : Sys) (e : Whole.Ev) : Prop :=
  (∀ n, requestMoves e = some n → s.unheard n = false) ∧ (∀ n, responseMoves e = some n → s.unsaid n = false) ∧
  (engineWaits e = true → s.left = false ∧ s.stop.engineShut = false) ∧ (engineTakes e = true → s.left = false)

/-- server.go:205, event_bus.go:137-139 -/
def Sys.hears (s : Sys) : Option Whole.Ev → Nat → Bool
  | some (.net (.read _ n _)) => if s.stop.requestTopic then s.unheard else upd s.unheard n true
  | _ => s.unheard

/-- engine.go:194, event_bus.go:137-139 -/
def Sys.says (s : Sys) : Option Whole.Ev → Nat → Bool
  | some (.net (.pipe (.executed n _ _))) => if s.stop.responseTopic then s.unsaid else upd s.unsaid n true
  | _ => s.unsaid

/-- The steps; `m` tells whether there is a master. -/
inductive Step (m : Bool) (ω : Nat → Nat) : Sys → Ev → Sys → Prop where
  /-- see `Full.Step` -/
  | full {s : Sys} (e : Full.Ev) (f : Full.Sys) : s.up → (∀ w, within e = some w → allowed s w ∧ ∀ x, ¬ Pair w x) → Full.Step ω s.full e f →
      Step m ω s (.full e) { s with full := f, unheard := s.hears (within e), unsaid := s.says (within e) }
  /-- see `Full.Step` and `Stop.Run` -/
  | both {s : Sys} (e : Full.Ev) (x : Stop.Ev) (w : Whole.Ev) (f : Full.Sys) (t : Stop.Sys) : s.up → within e = some w → Pair w x → allowed s w →
      Full.Step ω s.full e f → Stop.Step ⟨m, true⟩ ω s.stop x t → Step m ω s (.both e x) { s with full := f, stop := t }
  /-- see `Stop.Run` -/
  | stop {s : Sys} (x : Stop.Ev) (t : Stop.Sys) : s.up → own x = true → Stop.Step ⟨m, true⟩ ω s.stop x t →
      Step m ω s (.stop x) { s with stop := t }
  /-- server.go:285, event_bus.go:198-212, topic.go:69-75: the engine is waiting and gets the event; engine.go:162-165. -/
  | told {s : Sys} (i : Nat) (t : Stop.Sys) : s.up → s.left = false → s.full.whole.hub.engine = .waiting →
      Stop.Step ⟨m, true⟩ ω s.stop (.did i .removeRequest) t → Step m ω s (.stop (.did i .removeRequest)) { s with stop := t, left := true }
  /-- engine.go:146-147 -/
  | engineLeft {s : Sys} : s.up → s.left = false → s.full.whole.hub.engine = .away → s.stop.engineShut = true →
      Step m ω s .engineLeft { s with left := true }

end Proc

end Verif
