import Verif.Model.DB
import Verif.Model.Future

/-!
The way of a request through the server, as a transition system: pkg/network/server.go:186-281 (connections and response worker),
pkg/db/engine.go:81-104, 139-197 (engine) and the publishing of events in pkg/concurrency/topic.go:57-117.
-/

namespace Verif

namespace Pipe

open Fut (upd)

/-- What the data maps of requests and responses hold: a connection's id, or an object. -/
inductive Val where
  | str (s : Bytes)
  | obj (o : Resp)

/-- server.go:201-203 -/
def requestMap (id : Bytes) (o : Resp) : GoMap Val := (GoMap.set (GoMap.set [] b!"id" (.str id)) b!"request" (.obj o))

/-- The type assertion `response.(protocol.RedisArray)` followed by `Data()` (engine.go:97-102); the null array is a `RedisArray` without data
(pkg/protocol/resp.go:231-238). -/
def asArray : Resp → Option (List Resp)
  | .array items => some items
  | .nullArray => some []
  | _ => none

/-- pkg/db/engine.go:81-104 `parseRequest`. -/
def parseRequest (m : GoMap Val) : Option (Bytes × List Resp) :=
  match m.get b!"id" with
  | some (.str id) =>
    match m.get b!"request" with
    | some (.obj o) =>
      match asArray o with
      | some objs => some (id, objs)
      | none => none
    | _ => none
  | _ => none

/-- engine.go:183-192 -/
def responseMap (id : Bytes) (r : Resp) : GoMap Val := GoMap.set (GoMap.set [] b!"id" (.str id)) b!"response" (.obj r)

/-- pkg/network/server.go:210-228 `parseResponse`. -/
def parseResponse (m : GoMap Val) : Option (Bytes × Resp) :=
  match m.get b!"id" with
  | some (.str id) =>
    match m.get b!"response" with
    | some (.obj o) => some (id, o)
    | _ => none
  | _ => none

/-- The server. Connections are numbered, `conns c` is the id of connection `c`; `clients` is the map `server.clients` (server.go:58). Every
request read gets a number, which the events carry along; the code has no such number. `requests` are the request events being published,
`engine` the one the engine has received, `responses` the response events being published, `buffer` the channel of the response receiver
(100 places, server.go:104), `worker` what the response worker is writing to which connection. -/
structure Sys where
  conns : Nat → Option Bytes
  clients : GoMap Nat
  next : Nat
  requests : List (Nat × GoMap Val)
  engine : Option (Nat × GoMap Val)
  db : State
  responses : List (Nat × GoMap Val)
  buffer : List (Nat × GoMap Val)
  worker : Option (Nat × Nat × Bytes)
  crashed : Bool

/-- A server without clients that stores `st`: nothing, or what pkg/network/server.go:305-356 has read from a file or a master before `Serve`. -/
def new (st : State) : Sys :=
  { conns := fun _ => none, clients := [], next := 0, requests := [], engine := none, db := st, responses := [], buffer := [], worker := none
    crashed := false }

/-- What happens. `n` is always the number of the request. -/
inductive Ev where
  | connected (c : Nat)
  /-- Connection `c` read the object `o`. -/
  | read (c n : Nat) (o : Resp)
  /-- The engine received the request. -/
  | taken (n : Nat)
  /-- Sending the request event to the engine expired, or the engine is not subscribed. -/
  | dropped (n : Nat)
  /-- The engine found that the request is not an array. -/
  | ignored (n : Nat)
  /-- The engine executed the request, in the surroundings `env`, with reply `r`. -/
  | executed (n : Nat) (env : Env) (r : Resp)
  /-- Executing the request, in the surroundings `env`, killed the process. -/
  | crash (n : Nat) (env : Env)
  | queued (n : Nat)
  /-- Sending the response event to the response worker expired. -/
  | unqueued (n : Nat)
  | answering (n : Nat)
  /-- No client with the response's id. -/
  | nobody (n : Nat)
  /-- The text `b` was written to connection `c`. -/
  | wrote (c n : Nat) (b : Bytes)
  /-- The connection refused it, or the client went away while it was being written (a part of it may be out then, see `Conn`). -/
  | refused (c n : Nat)

/-- The steps. Of `Publish` (topic.go:57-117) what matters is that its goroutine offers the event to the one subscriber once, at any later time,
and that either it is taken or sending expires; `Hub` has the whole bus, and C80 shows that this is right. -/
inductive Step : Sys → Ev → Sys → Prop where
  /-- server.go:186-188. The id is a random UUID (pkg/network/conn.go:59); it is assumed to be new. -/
  | connect {s : Sys} (c : Nat) (id : Bytes) : s.crashed = false → s.conns c = none → (∀ c', s.conns c' ≠ some id) →
      Step s (.connected c) { s with conns := upd s.conns c (some id), clients := s.clients.set id c }
  /-- server.go:190-205 -/
  | read {s : Sys} (c : Nat) (id : Bytes) (o : Resp) : s.crashed = false → s.conns c = some id →
      Step s (.read c s.next o) { s with next := s.next + 1, requests := (s.next, requestMap id o) :: s.requests }
  /-- topic.go:97 and engine.go:150; the channel of the engine has no buffer (engine.go:49, topic.go:46) -/
  | take {s : Sys} (n : Nat) (m : GoMap Val) (before after : List (Nat × GoMap Val)) : s.crashed = false → s.requests = before ++ (n, m) :: after →
      s.engine = none → Step s (.taken n) { s with requests := before ++ after, engine := some (n, m) }
  | drop {s : Sys} (n : Nat) (m : GoMap Val) (before after : List (Nat × GoMap Val)) : s.crashed = false → s.requests = before ++ (n, m) :: after →
      Step s (.dropped n) { s with requests := before ++ after }
  /-- engine.go:176-181 -/
  | ignore {s : Sys} (n : Nat) (m : GoMap Val) : s.crashed = false → s.engine = some (n, m) → parseRequest m = none →
      Step s (.ignored n) { s with engine := none }
  /-- engine.go:176-194 -/
  | execute {s : Sys} (n : Nat) (m : GoMap Val) (id : Bytes) (objs : List Resp) (env : Env) (db : State) (r : Resp) : s.crashed = false →
      s.engine = some (n, m) → parseRequest m = some (id, objs) → handle env s.db objs = .ok (db, r) →
      Step s (.executed n env r) { s with engine := none, db := db, responses := (n, responseMap id r) :: s.responses }
  | crash {s : Sys} (n : Nat) (m : GoMap Val) (id : Bytes) (objs : List Resp) (env : Env) : s.crashed = false →
      s.engine = some (n, m) → parseRequest m = some (id, objs) → handle env s.db objs = .panic →
      Step s (.crash n env) { s with crashed := true }
  /-- topic.go:97 -/
  | queue {s : Sys} (n : Nat) (m : GoMap Val) (before after : List (Nat × GoMap Val)) : s.crashed = false → s.responses = before ++ (n, m) :: after →
      s.buffer.length < 100 → Step s (.queued n) { s with responses := before ++ after, buffer := s.buffer ++ [(n, m)] }
  | unqueue {s : Sys} (n : Nat) (m : GoMap Val) (before after : List (Nat × GoMap Val)) : s.crashed = false →
      s.responses = before ++ (n, m) :: after → Step s (.unqueued n) { s with responses := before ++ after }
  /-- server.go:238-272 -/
  | answer {s : Sys} (n : Nat) (m : GoMap Val) (rest : List (Nat × GoMap Val)) (id : Bytes) (r : Resp) (c : Nat) : s.crashed = false →
      s.worker = none → s.buffer = (n, m) :: rest → parseResponse m = some (id, r) → s.clients.get id = some c →
      Step s (.answering n) { s with buffer := rest, worker := some (n, c, r.encode) }
  /-- server.go:264-267, 276-278 -/
  | nobody {s : Sys} (n : Nat) (m : GoMap Val) (rest : List (Nat × GoMap Val)) : s.crashed = false → s.worker = none → s.buffer = (n, m) :: rest →
      (∀ id r, parseResponse m = some (id, r) → s.clients.get id = none) → Step s (.nobody n) { s with buffer := rest }
  /-- server.go:272, pkg/network/conn.go:95-111 -/
  | write {s : Sys} (n c : Nat) (b : Bytes) : s.crashed = false → s.worker = some (n, c, b) → Step s (.wrote c n b) { s with worker := none }
  /-- server.go:272-275 -/
  | refuse {s : Sys} (n c : Nat) (b : Bytes) : s.crashed = false → s.worker = some (n, c, b) → Step s (.refused c n) { s with worker := none }

end Pipe

end Verif
