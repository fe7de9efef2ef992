import Verif.Model.Pipe
import Verif.Model.Wired

/-!
The way of a request through the server with the event bus in between: pkg/network/server.go:100-108, 186-281, pkg/db/engine.go:43-53, 139-197, and
the topics `request` and `response` with the goroutines of pkg/concurrency/topic.go and the channels of pkg/concurrency/data_channel.go. `Pipe` is
the same without the bus.
-/

namespace Verif

namespace Hub

open Fut (upd)
open Pipe (Val requestMap responseMap parseRequest parseResponse)

/-- A topic to which `name` has subscribed with a channel of this size (pkg/concurrency/topic.go:34-55). -/
def subscribed (name : Bytes) (size : Int) : Wired.Sys (GoMap Val) :=
  { topic := { Topic.new with subscribers := [(name, 0)], made := 1 }, chans := fun _ => DataChan.new _ size, event := fun _ => none }

/-- Where the engine is: about to call `Receive`, in `Receive` (engine.go:150), or at work on an event (engine.go:152-194). -/
inductive Engine where
  | away
  | waiting
  | has (m : Wired.Mail (GoMap Val))

/-- Where the response worker is: about to call `Receive`, in `Receive` (server.go:238), past it (server.go:240-271), or writing (server.go:272). -/
inductive Worker where
  | away
  | waiting
  | has (m : Wired.Mail (GoMap Val))
  | writing (n c : Nat) (b : Bytes)

/-- The server. `conns`, `clients` and `next` are as in `Pipe.Sys`; `req` and `resp` are the topics with their one subscriber each. A publish has the
number of the request it belongs to. -/
structure Sys where
  conns : Nat → Option Bytes
  clients : GoMap Nat
  next : Nat
  req : Wired.Sys (GoMap Val)
  engine : Engine
  db : State
  resp : Wired.Sys (GoMap Val)
  worker : Worker
  crashed : Bool

/-- A server without clients that stores `st`, after `Init`: server.go:101-108, engine.go:49. -/
def new (st : State) : Sys :=
  { conns := fun _ => none, clients := [], next := 0, req := subscribed b!"engine" 0, engine := .away, db := st
    resp := subscribed b!"server" 100, worker := .away, crashed := false }

/-- What happens: what `Pipe` shows as well, and what happens within the two topics, in the engine and in the worker. -/
inductive Ev where
  | seen (e : Pipe.Ev)
  | requests (e : Wired.Ev (GoMap Val))
  | responses (e : Wired.Ev (GoMap Val))
  | looked

/-- What happens within a topic without an event changing hands. -/
def inner : Wired.Ev (GoMap Val) → Bool
  | .topic _ => true
  | .chan _ (.sendCall _ _) => true
  | _ => false

/-- The steps. Nobody closes a channel or removes a topic before the server stops (see `Stop`). -/
inductive Step : Sys → Ev → Sys → Prop where
  /-- server.go:186-188 -/
  | connect {s : Sys} (c : Nat) (id : Bytes) : s.crashed = false → s.conns c = none → (∀ c', s.conns c' ≠ some id) →
      Step s (.seen (.connected c)) { s with conns := upd s.conns c (some id), clients := s.clients.set id c }
  /-- server.go:190-205, topic.go:57-67 -/
  | read {s : Sys} (c : Nat) (id : Bytes) (o : Resp) (w : Wired.Sys (GoMap Val)) : s.crashed = false → s.conns c = some id →
      Wired.Step s.req (.publish s.next (requestMap id o)) w → Step s (.seen (.read c s.next o)) { s with next := s.next + 1, req := w }
  /-- topic.go:77-123, data_channel.go:129 -/
  | requests {s : Sys} (e : Wired.Ev (GoMap Val)) (w : Wired.Sys (GoMap Val)) : s.crashed = false → inner e = true → Wired.Step s.req e w →
      Step s (.requests e) { s with req := w }
  /-- data_channel.go:135-136 -/
  | drop {s : Sys} (n : Nat) (name : Bytes) (m : Wired.Mail (GoMap Val)) (w : Wired.Sys (GoMap Val)) : s.crashed = false →
      Wired.Step s.req (.both (.own n (.tried name 0 .expired)) 0 (.expired n m)) w → Step s (.seen (.dropped n)) { s with req := w }
  /-- engine.go:150 -/
  | wait {s : Sys} (w : Wired.Sys (GoMap Val)) : s.crashed = false → s.engine = .away → Wired.Step s.req (.chan 0 (.recvCall 0)) w →
      Step s (.requests (.chan 0 (.recvCall 0))) { s with req := w, engine := .waiting }
  /-- engine.go:150, data_channel.go:120, 133-134 -/
  | take {s : Sys} (n : Nat) (name : Bytes) (m : Wired.Mail (GoMap Val)) (w : Wired.Sys (GoMap Val)) : s.crashed = false → s.engine = .waiting →
      Wired.Step s.req (.both (.own n (.tried name 0 .success)) 0 (.handed n m 0)) w →
      Step s (.seen (.taken n)) { s with req := w, engine := .has m }
  /-- engine.go:176-181 -/
  | ignore {s : Sys} (n : Nat) (m : GoMap Val) : s.crashed = false → s.engine = .has (n, m) → parseRequest m = none →
      Step s (.seen (.ignored n)) { s with engine := .away }
  /-- engine.go:176-194, topic.go:57-67 -/
  | execute {s : Sys} (n : Nat) (m : GoMap Val) (id : Bytes) (objs : List Resp) (env : Env) (db : State) (r : Resp) (w : Wired.Sys (GoMap Val)) :
      s.crashed = false → s.engine = .has (n, m) → parseRequest m = some (id, objs) → handle env s.db objs = .ok (db, r) →
      Wired.Step s.resp (.publish n (responseMap id r)) w →
      Step s (.seen (.executed n env r)) { s with engine := .away, db := db, resp := w }
  | crash {s : Sys} (n : Nat) (m : GoMap Val) (id : Bytes) (objs : List Resp) (env : Env) : s.crashed = false →
      s.engine = .has (n, m) → parseRequest m = some (id, objs) → handle env s.db objs = .panic →
      Step s (.seen (.crash n env)) { s with crashed := true }
  /-- topic.go:77-123, data_channel.go:129 -/
  | responses {s : Sys} (e : Wired.Ev (GoMap Val)) (w : Wired.Sys (GoMap Val)) : s.crashed = false → inner e = true → Wired.Step s.resp e w →
      Step s (.responses e) { s with resp := w }
  /-- data_channel.go:133-134 -/
  | queue {s : Sys} (n : Nat) (name : Bytes) (m : Wired.Mail (GoMap Val)) (w : Wired.Sys (GoMap Val)) : s.crashed = false →
      Wired.Step s.resp (.both (.own n (.tried name 0 .success)) 0 (.sent n m)) w → Step s (.seen (.queued n)) { s with resp := w }
  /-- data_channel.go:135-136 -/
  | unqueue {s : Sys} (n : Nat) (name : Bytes) (m : Wired.Mail (GoMap Val)) (w : Wired.Sys (GoMap Val)) : s.crashed = false →
      Wired.Step s.resp (.both (.own n (.tried name 0 .expired)) 0 (.expired n m)) w → Step s (.seen (.unqueued n)) { s with resp := w }
  /-- server.go:238 -/
  | await {s : Sys} (w : Wired.Sys (GoMap Val)) : s.crashed = false → s.worker = .away → Wired.Step s.resp (.chan 0 (.recvCall 0)) w →
      Step s (.responses (.chan 0 (.recvCall 0))) { s with resp := w, worker := .waiting }
  /-- server.go:238, data_channel.go:120 -/
  | receive {s : Sys} (n : Nat) (m : GoMap Val) (w : Wired.Sys (GoMap Val)) : s.crashed = false → s.worker = .waiting →
      Wired.Step s.resp (.chan 0 (.received 0 (n, m))) w → Step s (.seen (.answering n)) { s with resp := w, worker := .has (n, m) }
  /-- server.go:262-271 -/
  | look {s : Sys} (n : Nat) (m : GoMap Val) (id : Bytes) (r : Resp) (c : Nat) : s.crashed = false → s.worker = .has (n, m) →
      parseResponse m = some (id, r) → s.clients.get id = some c → Step s .looked { s with worker := .writing n c r.encode }
  /-- server.go:264-267, 276-278 -/
  | nobody {s : Sys} (n : Nat) (m : GoMap Val) : s.crashed = false → s.worker = .has (n, m) →
      (∀ id r, parseResponse m = some (id, r) → s.clients.get id = none) → Step s (.seen (.nobody n)) { s with worker := .away }
  /-- server.go:272, pkg/network/conn.go:95-111 -/
  | write {s : Sys} (n c : Nat) (b : Bytes) : s.crashed = false → s.worker = .writing n c b → Step s (.seen (.wrote c n b)) { s with worker := .away }
  /-- server.go:272-275 -/
  | refuse {s : Sys} (n c : Nat) (b : Bytes) : s.crashed = false → s.worker = .writing n c b → Step s (.seen (.refused c n)) { s with worker := .away }

end Hub

end Verif
