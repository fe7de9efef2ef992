import Verif.Spec.Heard

/-! What it means that nothing is left of a connection in the end. -/

namespace Verif.Spec

/-- What the goroutine numbered `k` does to close connection `c` (pkg/network/conn.go:113-123): the expire worker (conn.go:147) for `k = 0`, and the one
started at the end of the stream (conn.go:82-86) for `k = 3`. -/
inductive Closer (c k : Nat) : Full.Ev → Prop where
  | call : Closer c k (.line c (.closeCall k))
  | won : Closer c k (.line c (.closeWon k))
  | lost : Closer c k (.line c (.closeLost k))
  | farewell : Closer c k (.line c (.farewell k))
  | farewellErr : Closer c k (.line c (.farewellErr k))
  | sockClosed : Closer c k (.line c (.sockClosed k))
  | closed : Closer c k (.line c (.closed k))

variable {ω : Nat → Nat} {s0 : Full.Sys}

/-- From time `i` on nothing arrives on connection `c`. Its stream may end, and its client may go away. -/
def Run.Silent (r : Run (Full.Step ω) s0) (c i : Nat) : Prop := ∀ j b, i ≤ j → r.ev j = some (.whole (.net (.feed c (.arrived b)))) → b = []

/-- If from some time on nobody resets the timer of connection `c` (conn.go:142), the expire worker finds in the end that it has fired (conn.go:146) or
that the connection is closed (conn.go:144). -/
def Run.Ticks (r : Run (Full.Step ω) s0) (c : Nat) : Prop :=
  ∀ i, (r.state i).whole.hub.conns c ≠ none → (∀ j, i ≤ j → r.ev j ≠ some (.line c (.readReset 2)) ∧ r.ev j ≠ some (.line c (.writeReset 1))) →
    ∃ j, i ≤ j ∧ ((r.state j).lines c).worker ≠ .selecting

/-- No goroutine that closes connection `c` is ever forgotten. -/
def Run.FairToClosers (r : Run (Full.Step ω) s0) (c : Nat) : Prop := ∀ k, r.Fair (Closer c k)

/-- From some time on somebody writes the farewell to connection `c` (conn.go:115), whose client is again and again found not to read. -/
def Run.Parting (r : Run (Full.Step ω) s0) (c : Nat) : Prop := ∃ i k,
  (∀ j, i ≤ j → ((r.state j).lines c).pcs k = .farewell) ∧ ∀ j, i ≤ j → ∃ j', j ≤ j' ∧ ((r.state j').lines c).client = .stalled

/-- Connection `c` is closed: its socket is, its expire worker has ended, and nobody is closing it any more. -/
structure Shut (s : Full.Sys) (c : Nat) : Prop where
  flag : (s.lines c).flag = true
  sock : (s.lines c).sock = true
  worker : (s.lines c).worker ≠ .selecting
  expirer : (s.lines c).pcs 0 = .idle
  closer : (s.lines c).pcs 3 = .idle

/-- The goroutine reading from connection `c` (pkg/network/server.go:190-207) has ended. -/
def ReaderOver (s : Full.Sys) (c : Nat) : Prop := (s.lines c).pcs 2 = .idle ∧ ((s.whole.feeds c).pc ≠ .reading ∨ s.cut c = true)

/-- It waits to reset the timer (conn.go:77), and nobody is there to do it (conn.go:139-152). -/
def ReaderWaits (s : Full.Sys) (c : Nat) : Prop := (s.lines c).pcs 2 = .readReset ∧ (s.lines c).worker ≠ .selecting

/-- The server remembers connection `c` (server.go:188). -/
def Remembers (s : Full.Sys) (c : Nat) : Prop := ∃ id, s.whole.hub.clients.get id = some c

/-- What is true from some time on. -/
def Run.Finally (r : Run (Full.Step ω) s0) (P : Full.Sys → Prop) : Prop := ∃ i, ∀ j, i ≤ j → P (r.state j)

/-- The process lives, none of its goroutines is forgotten, and the timer of connection `c` runs. -/
structure Run.Orderly (r : Run (Full.Step ω) s0) (c : Nat) : Prop where
  lives : r.Lives
  all : r.FairToAll
  reader : r.Fair (Reader c)
  closers : r.FairToClosers c
  ticks : r.Ticks c

/-- When nothing more arrives on a connection, this holds of it in the end. -/
def EndsUp (P : Full.Sys → Nat → Prop) : Prop :=
  ∀ (ω : Nat → Nat) (d : Bytes) (st : State) (r : Run (Full.Step ω) (Full.new d st)) (c i : Nat), (r.state i).whole.hub.conns c ≠ none → r.Silent c i →
    r.Orderly c → r.Finally (P · c)

end Verif.Spec
