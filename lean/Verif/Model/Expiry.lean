import Verif.Model.Basic

/-!
The expiry of connections, pkg/network/conn.go:49-111 and 137-152 with the loop of pkg/network/server.go:190-207, as a transition system with a
discrete clock.

The goroutines of the server take no time: the clock only moves when none of them can do anything (`busy`). Only whole requests are counted, not their
bytes; `Close` and what it does is one step (its parts are in `Conn`).
-/

namespace Verif

namespace Expiry

/-- The goroutine of server.go:190-207: about to send on `resetChan` (conn.go:77), in `ReadObject` (conn.go:79), or it has returned. -/
inductive Reader where
  | resetting | reading | stopped
deriving DecidableEq

/-- `now` is the clock. `armed` is when the pending `time.After` of conn.go:146 was called, `worker` whether the expire worker is still at its `select`.
`inbox` is the number of whole requests that have arrived and are not read, `ended` whether the client has closed its side, `writers` the number of
calls of `Write` waiting at conn.go:100. `timers` are the calls of `time.After` whose timers have not fired yet: with the Go version of go.mod:3 a timer
nobody waits for any more is kept until then. -/
structure Sys where
  now : Nat
  armed : Nat
  worker : Bool
  closed : Bool
  reader : Reader
  inbox : Nat
  ended : Bool
  writers : Nat
  timers : List Nat

/-- conn.go:57-74 `NewConnWithExpire`, server.go:186-192. -/
def new : Sys :=
  { now := 0, armed := 0, worker := true, closed := false, reader := .resetting, inbox := 0, ended := false, writers := 0, timers := [0] }

/-- What happens. -/
inductive Ev where
  /-- The clock moves. -/
  | tick
  /-- The last byte of a request arrives. -/
  | arrived
  /-- Other bytes arrive. -/
  | bytes
  /-- Bytes arrive that are not a request. -/
  | malformed
  /-- The client closes its side. -/
  | ended
  /-- `Write` is called. -/
  | writeCall
  | readReset
  | read
  /-- `Read` returned an error because the connection was closed by the server, because the stream has ended. -/
  | readFailed
  | left
  /-- `Write` gets past conn.go:100. -/
  | wrote
  | expired
  | workerLeft
deriving DecidableEq

/-- Some goroutine of the server can do something. -/
def busy (T : Nat) (s : Sys) : Prop :=
  (s.worker = true ∧ (s.reader = .resetting ∨ 0 < s.writers ∨ s.closed = true ∨ s.armed + T ≤ s.now)) ∨
  (s.reader = .reading ∧ (0 < s.inbox ∨ s.closed = true ∨ s.ended = true))

/-- The steps; `T` is `expireTime`. When several cases of the `select` are ready, any of them can be taken. -/
inductive Step (T : Nat) : Sys → Ev → Sys → Prop where
  | tick {s : Sys} : ¬ busy T s → Step T s .tick { s with now := s.now + 1, timers := s.timers.filter fun t => s.now + 1 < t + T }
  | arrive {s : Sys} : s.ended = false → Step T s .arrived { s with inbox := s.inbox + 1 }
  | bytes {s : Sys} : s.ended = false → Step T s .bytes s
  /-- conn.go:88-90, server.go:196-198 -/
  | malformed {s : Sys} : s.ended = false → s.reader = .reading → s.inbox = 0 → Step T s .malformed { s with reader := .stopped }
  | ended {s : Sys} : s.ended = false → Step T s .ended { s with ended := true }
  /-- conn.go:96-98 -/
  | writeCall {s : Sys} : s.closed = false → Step T s .writeCall { s with writers := s.writers + 1 }
  /-- conn.go:77 and 142-143, 146 -/
  | readReset {s : Sys} : s.worker = true → s.reader = .resetting →
      Step T s .readReset { s with reader := .reading, armed := s.now, timers := s.now :: s.timers }
  /-- conn.go:79, 92, server.go:192, 205. Also after the connection has been closed, if the request is buffered already. -/
  | read {s : Sys} : s.reader = .reading → 0 < s.inbox → Step T s .read { s with reader := .resetting, inbox := s.inbox - 1 }
  | readFailed {s : Sys} : s.reader = .reading → s.closed = true → Step T s .readFailed { s with reader := .stopped }
  /-- conn.go:81-87 -/
  | left {s : Sys} : s.reader = .reading → s.inbox = 0 → s.ended = true → Step T s .left { s with reader := .stopped, closed := true }
  /-- conn.go:100 and 142-143, 146 -/
  | wrote {s : Sys} : s.worker = true → 0 < s.writers →
      Step T s .wrote { s with writers := s.writers - 1, armed := s.now, timers := s.now :: s.timers }
  /-- conn.go:146-148 -/
  | expire {s : Sys} : s.worker = true → s.closed = false → s.armed + T ≤ s.now → Step T s .expired { s with worker := false, closed := true }
  /-- conn.go:144-145; or the timer is taken, and `Close` finds the connection closed -/
  | workerLeft {s : Sys} : s.worker = true → s.closed = true → Step T s .workerLeft { s with worker := false }

end Expiry

end Verif
