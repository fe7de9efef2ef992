import Verif.Model.Hub
import Verif.Model.Net
import Verif.Model.Log

/-!
The whole server between its clients and its file: the readers of all connections (`Feed`), the way of a request through bus, engine and response
worker (`Hub`), and the writers of the log with their file (`Engine`). pkg/network/server.go:186-281, pkg/db/engine.go:106-197, 205-225.
-/

namespace Verif

namespace Whole

open Fut (upd)

/-- What a writer is started with (pkg/db/engine.go:125), and the id, time and host the record will get. -/
abbrev Record := Stamp × List Resp

/-- `feeds`, `out` and `dead` are as in `Net.Sys`, `hub` is the server behind the readers, `begun` tells whether the engine has passed
pkg/db/engine.go:126 with its request, `pending` and `file` are as in `Engine`. -/
structure Sys where
  feeds : Nat → Feed.Sys
  hub : Hub.Sys
  out : Nat → Bytes
  dead : Bool
  begun : Option Record
  pending : List Record
  file : PFile

/-- A server without clients that stores `st`, on a log file with contents `d`. -/
def new (d : Bytes) (st : State) : Sys :=
  { feeds := fun _ => Feed.new, hub := Hub.new st, out := fun _ => [], dead := false, begun := none, pending := [], file := PFile.new d }

/-- What happens: what `Net` shows as well; something within the bus; the engine gets past pkg/db/engine.go:126 with a request; a writer reaches the
file; or the buffer of the file is written out. -/
inductive Ev where
  | net (e : Net.Ev)
  | bus (e : Hub.Ev)
  | received (q : Record)
  | recorded (q : Record)
  | flushed

/-- What happens inside a topic, the engine or the response worker and is not seen in `Pipe`. -/
def hidden : Hub.Ev → Bool
  | .seen _ => false
  | _ => true

/-- What is neither the reading of a request nor its execution. -/
def between : Pipe.Ev → Bool
  | .read _ _ _ | .executed _ _ _ | .crash _ _ => false
  | _ => true

/-- The steps. Nothing goes on once the process is killed. -/
inductive Step (ω : Nat → Nat) : Sys → Ev → Sys → Prop where
  /-- pkg/network/conn.go:76-93 -/
  | feed {s : Sys} (c : Nat) (e : Feed.Ev) (x : Feed.Sys) : s.dead = false → s.hub.crashed = false → s.hub.conns c ≠ none → Net.aside e = true →
      Feed.Step (s.feeds c) e x → Step ω s (.net (.feed c e)) { s with feeds := upd s.feeds c x }
  | kill {s : Sys} (c : Nat) (x : Feed.Sys) : s.dead = false → s.hub.crashed = false → s.hub.conns c ≠ none → Feed.Step (s.feeds c) .crash x →
      Step ω s (.net (.feed c .crash)) { s with feeds := upd s.feeds c x, dead := true }
  /-- server.go:192-205 -/
  | read {s : Sys} (c n : Nat) (o : Resp) (x : Feed.Sys) (h : Hub.Sys) : s.dead = false → Feed.Step (s.feeds c) (.read o) x →
      Hub.Step s.hub (.seen (.read c n o)) h → Step ω s (.net (.read c n o)) { s with feeds := upd s.feeds c x, hub := h }
  /-- see `Hub.Step` -/
  | bus {s : Sys} (e : Hub.Ev) (h : Hub.Sys) : s.dead = false → hidden e = true → Hub.Step s.hub e h → Step ω s (.bus e) { s with hub := h }
  /-- see `Hub.Step`; server.go:272 for what is written -/
  | pass {s : Sys} (e : Pipe.Ev) (h : Hub.Sys) : s.dead = false → between e = true → Hub.Step s.hub (.seen e) h →
      Step ω s (.net (.pipe e)) { s with hub := h, out := Net.grow s.out e }
  /-- engine.go:106-126: the request is parsed and, if of modify type, a writer is started. -/
  | receive {s : Sys} (n : Nat) (m : GoMap Pipe.Val) (id : Bytes) (q : Record) : s.dead = false → s.hub.crashed = false →
      s.hub.engine = .has (n, m) → Pipe.parseRequest m = some (id, q.2) → s.begun = none →
      Step ω s (.received q) { s with begun := some q, pending := if isLogged q.2 then s.pending ++ [q] else s.pending }
  /-- engine.go:128-136, 186-194 -/
  | execute {s : Sys} (n : Nat) (env : Env) (r : Resp) (h : Hub.Sys) : s.dead = false → s.begun ≠ none →
      Hub.Step s.hub (.seen (.executed n env r)) h → Step ω s (.net (.pipe (.executed n env r))) { s with hub := h, begun := none }
  /-- engine.go:128-136 with a panic -/
  | crash {s : Sys} (n : Nat) (env : Env) (h : Hub.Sys) : s.dead = false → s.begun ≠ none →
      Hub.Step s.hub (.seen (.crash n env)) h → Step ω s (.net (.pipe (.crash n env))) { s with hub := h }
  /-- engine.go:205-225: any one of the started writers gets to the file. -/
  | record {s : Sys} (q : Req) (before after : List Record) : s.dead = false → s.hub.crashed = false →
      s.pending = before ++ (q.stamp, q.objs) :: after →
      Step ω s (.recorded (q.stamp, q.objs)) { s with pending := before ++ after, file := writeRecord ω s.file q }
  /-- pkg/replication/master.go:119, as in `Engine.Step` -/
  | flush {s : Sys} : s.dead = false → s.hub.crashed = false → Step ω s .flushed { s with file := s.file.flush ω }

end Whole

end Verif
