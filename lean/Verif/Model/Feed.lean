import Verif.Model.Resp

/-!
What one connection reads: the loop of pkg/network/server.go:190-207 around pkg/network/conn.go:76-93 `Read`, as a transition system. The bytes of
the client arrive in pieces, at any time. Left out: the server closing the connection itself (C44, C45, C68) and the wait for the expire worker at
conn.go:77 (C44).
-/

namespace Verif

namespace Feed

/-- Where the goroutine of server.go:190-207 is. -/
inductive Pc where
  /-- In `Read`. -/
  | reading
  /-- It has returned because of an error other than the end of the stream (server.go:196-198). Nobody closes the connection. -/
  | stopped
  /-- It has returned because the stream has ended (server.go:193-195); `Read` has started a goroutine that closes the connection
  (conn.go:81-87). -/
  | left
  /-- The reader panicked: the process has died. -/
  | crashed
deriving DecidableEq

/-- `pending` are the bytes that have arrived and are not part of an object already read; `ended` tells whether the client has closed its side. -/
structure Sys where
  pending : Bytes
  ended : Bool
  pc : Pc

/-- A new connection. -/
def new : Sys := { pending := [], ended := false, pc := .reading }

/-- What happens. -/
inductive Ev where
  /-- Bytes arrive. -/
  | arrived (b : Bytes)
  /-- The client closes its side. -/
  | ended
  /-- `Read` returns an object, which is published as a request. -/
  | read (o : Resp)
  | stopped
  | left
  | crash

/-- The steps. While what has arrived is not a whole object and more can come, `Read` waits; otherwise it returns what pkg/protocol/reader.go:148-169
makes of it. That the reader looks at the bytes as they come makes no difference: its verdict never changes when more bytes follow (C03). -/
inductive Step : Sys → Ev → Sys → Prop where
  | arrive {s : Sys} (b : Bytes) : s.ended = false → Step s (.arrived b) { s with pending := s.pending ++ b }
  | finish {s : Sys} : s.ended = false → Step s .ended { s with ended := true }
  /-- conn.go:79, 92, server.go:201-205 -/
  | read {s : Sys} (o : Resp) (rest : Bytes) : s.pc = .reading → parse s.pending = .ok o rest → Step s (.read o) { s with pending := rest }
  /-- conn.go:88-90, server.go:196-198 -/
  | stop {s : Sys} : s.pc = .reading → parse s.pending = .bad → Step s .stopped { s with pc := .stopped }
  /-- conn.go:81-87, server.go:193-195 -/
  | leave {s : Sys} : s.pc = .reading → s.ended = true → parse s.pending = .eof → Step s .left { s with pc := .left }
  | crash {s : Sys} : s.pc = .reading → parse s.pending = .panic → Step s .crash { s with pc := .crashed }

end Feed

end Verif
