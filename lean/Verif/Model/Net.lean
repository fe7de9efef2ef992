import Verif.Model.Feed
import Verif.Model.Pipe

/-!
The server as seen from the network: the readers of all connections (`Feed`) in front of the way of a request (`Pipe`), pkg/network/server.go:186-281.
-/

namespace Verif

namespace Net

open Fut (upd)

/-- `feeds c` is the reader of connection `c`, `out c` everything written to it, `dead` whether a reader has killed the process. -/
structure Sys where
  feeds : Nat → Feed.Sys
  pipe : Pipe.Sys
  out : Nat → Bytes
  dead : Bool

/-- A server without clients that stores `st`. -/
def new (st : State) : Sys := { feeds := fun _ => Feed.new, pipe := Pipe.new st, out := fun _ => [], dead := false }

/-- What happens: something at the reader of connection `c`; something inside; or connection `c` reads a request, which gets the number `n`. -/
inductive Ev where
  | feed (c : Nat) (e : Feed.Ev)
  | pipe (e : Pipe.Ev)
  | read (c n : Nat) (o : Resp)

/-- What is not the reading of a request. -/
def inside : Pipe.Ev → Bool
  | .read _ _ _ => false
  | _ => true

/-- What is neither the reading of a request nor a crash. -/
def aside : Feed.Ev → Bool
  | .read _ | .crash => false
  | _ => true

/-- server.go:272 and pkg/network/conn.go:102. The message of conn.go:20, written when a connection is closed, is left out (see `Conn`). -/
def grow (out : Nat → Bytes) : Pipe.Ev → Nat → Bytes
  | .wrote c _ b => upd out c (out c ++ b)
  | _ => out

/-- The steps. Nothing goes on once the process is killed, by a reader (`dead`) or by the engine (`crashed`). -/
inductive Step : Sys → Ev → Sys → Prop where
  | feed {s : Sys} (c : Nat) (e : Feed.Ev) (x : Feed.Sys) : s.dead = false → s.pipe.crashed = false → s.pipe.conns c ≠ none → aside e = true →
      Feed.Step (s.feeds c) e x →
      Step s (.feed c e) { s with feeds := upd s.feeds c x }
  | crash {s : Sys} (c : Nat) (x : Feed.Sys) : s.dead = false → s.pipe.crashed = false → s.pipe.conns c ≠ none → Feed.Step (s.feeds c) .crash x →
      Step s (.feed c .crash) { s with feeds := upd s.feeds c x, dead := true }
  | pipe {s : Sys} (e : Pipe.Ev) (p : Pipe.Sys) : s.dead = false → inside e = true → Pipe.Step s.pipe e p →
      Step s (.pipe e) { s with pipe := p, out := grow s.out e }
  /-- server.go:192-205 -/
  | read {s : Sys} (c n : Nat) (o : Resp) (x : Feed.Sys) (p : Pipe.Sys) : s.dead = false → Feed.Step (s.feeds c) (.read o) x →
      Pipe.Step s.pipe (.read c n o) p → Step s (.read c n o) { s with feeds := upd s.feeds c x, pipe := p }

end Net

end Verif
