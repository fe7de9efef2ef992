import Verif.Model.Whole
import Verif.Model.Conn

/-!
The whole server together with the lives of its connections: `Whole`, with every read and write going through the connection it belongs to (`Conn`).
pkg/network/server.go:186-281, pkg/network/conn.go:57-151, pkg/db/engine.go:106-197, 205-225. `stop` closes no connection (server.go:293-299; see
`Stop.isConn`), so the only ones to close one are its expire worker and the goroutine started at the end of its stream.
-/

namespace Verif

namespace Full

open Fut (upd)

/-- `lines c` is connection `c`, in which 0 is the expire worker, 1 the response worker (server.go:230-281), 2 the reader (server.go:190-207) and 3 the
goroutine of conn.go:81-87. `cut c` tells whether the reader has returned because reading from the socket failed (server.go:193-198) although what had
arrived by then was neither ended nor wrong. -/
structure Sys where
  whole : Whole.Sys
  lines : Nat → Conn.Sys
  cut : Nat → Bool

/-- A server without clients that stores `st`, on a log file with contents `d`. -/
def new (d : Bytes) (st : State) : Sys := { whole := Whole.new d st, lines := fun _ => Conn.new, cut := fun _ => false }

/-- What happens: something in the server, something in connection `c`, or something in both at once. -/
inductive Ev where
  | whole (e : Whole.Ev)
  | line (c : Nat) (x : Conn.Ev)
  | both (e : Whole.Ev) (c : Nat) (x : Conn.Ev)

/-- The process is alive. -/
def Sys.up (s : Sys) : Prop := s.whole.dead = false ∧ s.whole.hub.crashed = false

/-- What in the server has nothing to do with a socket. -/
def apart : Whole.Ev → Bool
  | .net (.feed _ _) | .net (.read _ _ _) | .net (.pipe (.wrote _ _ _)) | .net (.pipe (.refused _ _)) => false
  | _ => true

/-- What comes from the client. -/
def sends : Feed.Ev → Bool
  | .arrived _ | .ended => true
  | _ => false

/-- How the loop of server.go:190-207 ends. -/
def ends : Feed.Ev → Bool
  | .stopped | .left => true
  | _ => false

/-- What goes on in a connection by itself: the calls of its goroutines other than their beginning and what they return to the server, the expire
worker, and the client. -/
def own : Conn.Ev → Bool
  | .readCall _ | .read _ | .readErr _ | .writeCall _ _ | .wrote _ _ | .writeClosed _ _ | .writeErr _ _ | .closeCall _ => false
  | _ => true

/-- The steps. -/
inductive Step (ω : Nat → Nat) : Sys → Ev → Sys → Prop where
  /-- see `Whole.Step` -/
  | whole {s : Sys} (e : Whole.Ev) (w : Whole.Sys) : apart e = true → Whole.Step ω s.whole e w → Step ω s (.whole e) { s with whole := w }
  /-- The client sends something or ends its stream; not once the connection is closed from here, or it has gone. -/
  | send {s : Sys} (c : Nat) (e : Feed.Ev) (w : Whole.Sys) : sends e = true → (s.lines c).sock = false → (s.lines c).client ≠ .gone →
      Whole.Step ω s.whole (.net (.feed c e)) w → Step ω s (.whole (.net (.feed c e))) { s with whole := w }
  /-- server.go:192, conn.go:76-77 -/
  | readCall {s : Sys} (c : Nat) (x : Conn.Sys) : s.up → s.whole.hub.conns c ≠ none → (s.whole.feeds c).pc = .reading → s.cut c = false →
      Conn.Step (s.lines c) (.readCall 2) x → Step ω s (.line c (.readCall 2)) { s with lines := upd s.lines c x }
  /-- conn.go:79, 92, server.go:201-205. What has arrived can still be read when the socket has been closed from here; of the code this is true
  only of what is in the reader's buffer. -/
  | read {s : Sys} (c n : Nat) (o : Resp) (w : Whole.Sys) (x : Conn.Sys) : Whole.Step ω s.whole (.net (.read c n o)) w →
      Conn.Step (s.lines c) (.read 2) x → Step ω s (.both (.net (.read c n o)) c (.read 2)) { s with whole := w, lines := upd s.lines c x }
  /-- conn.go:81-90, server.go:193-198 -/
  | finish {s : Sys} (c : Nat) (e : Feed.Ev) (w : Whole.Sys) (x : Conn.Sys) : ends e = true → Whole.Step ω s.whole (.net (.feed c e)) w →
      Conn.Step (s.lines c) (.readErr 2) x → Step ω s (.both (.net (.feed c e)) c (.readErr 2)) { s with whole := w, lines := upd s.lines c x }
  /-- conn.go:79 with a panic -/
  | kill {s : Sys} (c : Nat) (w : Whole.Sys) : (s.lines c).pcs 2 = .reading → Whole.Step ω s.whole (.net (.feed c .crash)) w →
      Step ω s (.whole (.net (.feed c .crash))) { s with whole := w }
  /-- conn.go:79, 88-90, server.go:193-198, the socket being closed from here, or the client gone. -/
  | cut {s : Sys} (c : Nat) (x : Conn.Sys) : s.up → ((s.lines c).sock = true ∨ (s.lines c).client = .gone) → Conn.Step (s.lines c) (.readErr 2) x →
      Step ω s (.line c (.readErr 2)) { s with lines := upd s.lines c x, cut := upd s.cut c true }
  /-- conn.go:81-87: after the end of the stream, unless the connection was marked closed already. -/
  | closeCall {s : Sys} (c : Nat) (x : Conn.Sys) : s.up → (s.whole.feeds c).pc = .left → (s.lines c).flag = false →
      Conn.Step (s.lines c) (.closeCall 3) x → Step ω s (.line c (.closeCall 3)) { s with lines := upd s.lines c x }
  /-- server.go:272, conn.go:95-100 -/
  | writeCall {s : Sys} (n c : Nat) (b : Bytes) (x : Conn.Sys) : s.up → s.whole.hub.worker = .writing n c b →
      Conn.Step (s.lines c) (.writeCall 1 b) x → Step ω s (.line c (.writeCall 1 b)) { s with lines := upd s.lines c x }
  /-- conn.go:102, 110, server.go:272 -/
  | wrote {s : Sys} (n c : Nat) (b : Bytes) (w : Whole.Sys) (x : Conn.Sys) : Whole.Step ω s.whole (.net (.pipe (.wrote c n b))) w →
      Conn.Step (s.lines c) (.wrote 1 b) x →
      Step ω s (.both (.net (.pipe (.wrote c n b))) c (.wrote 1 b)) { s with whole := w, lines := upd s.lines c x }
  /-- conn.go:96-98, server.go:272-275 -/
  | refuse {s : Sys} (n c : Nat) (b : Bytes) (w : Whole.Sys) (x : Conn.Sys) : s.whole.hub.worker = .writing n c b →
      Whole.Step ω s.whole (.net (.pipe (.refused c n))) w → Conn.Step (s.lines c) (.writeClosed 1 b) x →
      Step ω s (.both (.net (.pipe (.refused c n))) c (.writeClosed 1 b)) { s with whole := w, lines := upd s.lines c x }
  /-- conn.go:104-108, server.go:272-275 -/
  | fail {s : Sys} (n c : Nat) (b : Bytes) (w : Whole.Sys) (x : Conn.Sys) : Whole.Step ω s.whole (.net (.pipe (.refused c n))) w →
      Conn.Step (s.lines c) (.writeErr 1 b) x →
      Step ω s (.both (.net (.pipe (.refused c n))) c (.writeErr 1 b)) { s with whole := w, lines := upd s.lines c x }
  /-- see `Conn.Step` -/
  | own {s : Sys} (c : Nat) (e : Conn.Ev) (x : Conn.Sys) : s.up → s.whole.hub.conns c ≠ none → own e = true → Conn.Step (s.lines c) e x →
      Step ω s (.line c e) { s with lines := upd s.lines c x }

end Full

end Verif
