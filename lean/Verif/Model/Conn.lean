import Verif.Model.Basic
import Verif.Model.Future

/-! pkg/network/conn.go as a transition system: one client connection, its expire worker and any number of callers. -/

namespace Verif

namespace Conn

open Fut (upd)

/-- What the other end of the socket does: it reads, it has stopped reading and all buffers are full, or it is gone. -/
inductive Client where
  | reads | stalled | gone
deriving DecidableEq

/-- Where a goroutine is. -/
inductive Pc where
  | idle
  /-- conn.go:77, sending on `resetChan` -/
  | readReset
  /-- conn.go:79 -/
  | reading
  /-- conn.go:100, sending on `resetChan` -/
  | writeReset (s : Bytes)
  /-- conn.go:102 -/
  | writing (s : Bytes)
  /-- conn.go:114 -/
  | closeStart
  /-- conn.go:115 -/
  | farewell
  /-- conn.go:117 -/
  | sockClose
  /-- conn.go:118 -/
  | chanClose
deriving DecidableEq

/-- The goroutine of conn.go:138-151: at the `select`, past the timer (its `Close` is then run as goroutine 0), or left. -/
inductive Worker where
  | selecting | expired | gone
deriving DecidableEq

/-- What is written to the socket: a whole text, the message of conn.go:20, or the part of one of them that was out when writing failed. -/
inductive Out where
  | reply (s : Bytes)
  | farewell
  | part (s : Bytes)
deriving DecidableEq

/-- conn.go:38-47 `conn`. `flag` is the field `closed`, `sock` whether the socket is closed, `chan` whether `closeChan` is, `out` what has been
written. The goroutines are numbered; 0 is the expire worker. -/
structure Sys where
  flag : Bool
  sock : Bool
  chan : Bool
  out : List Out
  client : Client
  worker : Worker
  pcs : Nat → Pc
  crashed : Bool

/-- conn.go:20 `closeMessage`. -/
def closeMessage : Bytes := b!"TTL expired"

/-- conn.go:57-74 `NewConnWithExpire`. -/
def new : Sys :=
  { flag := false, sock := false, chan := false, out := [], client := .reads, worker := .selecting, pcs := fun _ => .idle, crashed := false }

/-- What happens. -/
inductive Ev where
  | readCall (i : Nat)
  | readReset (i : Nat)
  /-- `Read` returned an object, or an error. After `io.EOF` it also starts a goroutine that calls `Close`. -/
  | read (i : Nat)
  | readErr (i : Nat)
  | writeCall (i : Nat) (s : Bytes)
  | writeReset (i : Nat)
  /-- `Write` returned: everything written, `ErrConnIsClosed`, another error. -/
  | wrote (i : Nat) (s : Bytes)
  | writeClosed (i : Nat) (s : Bytes)
  | writeErr (i : Nat) (s : Bytes)
  | closeCall (i : Nat)
  /-- The compare-and-swap succeeded. -/
  | closeWon (i : Nat)
  /-- `Close` returned nil, `ErrConnIsClosed`. -/
  | closed (i : Nat)
  | closeLost (i : Nat)
  | farewell (i : Nat)
  | farewellErr (i : Nat)
  | sockClosed (i : Nat)
  | expired
  | workerLeft
  /-- The client changes its behaviour. -/
  | client (c : Client)
  | crash
deriving DecidableEq

/-- The steps. The clock is not modelled: the timer can fire at any time. -/
inductive Step : Sys → Ev → Sys → Prop where
  /-- conn.go:76-77 -/
  | readCall {s : Sys} (i : Nat) : i ≠ 0 → s.pcs i = .idle → Step s (.readCall i) { s with pcs := upd s.pcs i .readReset }
  /-- conn.go:77 and 142 -/
  | readReset {s : Sys} (i : Nat) : s.pcs i = .readReset → s.worker = .selecting → Step s (.readReset i) { s with pcs := upd s.pcs i .reading }
  /-- conn.go:79, 92 -/
  | read {s : Sys} (i : Nat) : s.pcs i = .reading → Step s (.read i) { s with pcs := upd s.pcs i .idle }
  /-- conn.go:81-90 -/
  | readErr {s : Sys} (i : Nat) : s.pcs i = .reading → Step s (.readErr i) { s with pcs := upd s.pcs i .idle }
  /-- conn.go:96-98 -/
  | writeClosed {s : Sys} (i : Nat) (m : Bytes) : i ≠ 0 → s.pcs i = .idle → s.flag = true → Step s (.writeClosed i m) s
  /-- conn.go:96, 100 -/
  | writeCall {s : Sys} (i : Nat) (m : Bytes) : i ≠ 0 → s.pcs i = .idle → s.flag = false →
      Step s (.writeCall i m) { s with pcs := upd s.pcs i (.writeReset m) }
  /-- conn.go:100 and 142 -/
  | writeReset {s : Sys} (i : Nat) (m : Bytes) : s.pcs i = .writeReset m → s.worker = .selecting →
      Step s (.writeReset i) { s with pcs := upd s.pcs i (.writing m) }
  /-- conn.go:102, 110. There is no deadline: the call waits while the client does not read. -/
  | wrote {s : Sys} (i : Nat) (m : Bytes) : s.pcs i = .writing m → s.sock = false → s.client ≠ .stalled →
      Step s (.wrote i m) { s with out := s.out ++ [.reply m], pcs := upd s.pcs i .idle }
  /-- conn.go:104-108, on a closed socket -/
  | writeErr {s : Sys} (i : Nat) (m : Bytes) : s.pcs i = .writing m → s.sock = true → Step s (.writeErr i m) { s with pcs := upd s.pcs i .idle }
  /-- conn.go:104-108, the client having gone away after `p` was out -/
  | writePart {s : Sys} (i : Nat) (m p : Bytes) : s.pcs i = .writing m → s.client = .gone → p <+: m →
      Step s (.writeErr i m) { s with out := s.out ++ [.part p], pcs := upd s.pcs i .idle }
  /-- conn.go:113 -/
  | closeCall {s : Sys} (i : Nat) : i ≠ 0 → s.pcs i = .idle → Step s (.closeCall i) { s with pcs := upd s.pcs i .closeStart }
  /-- conn.go:114 -/
  | closeWon {s : Sys} (i : Nat) : s.pcs i = .closeStart → s.flag = false → Step s (.closeWon i) { s with flag := true, pcs := upd s.pcs i .farewell }
  /-- conn.go:114, 122 -/
  | closeLost {s : Sys} (i : Nat) : s.pcs i = .closeStart → s.flag = true → Step s (.closeLost i) { s with pcs := upd s.pcs i .idle }
  /-- conn.go:115 -/
  | farewell {s : Sys} (i : Nat) : s.pcs i = .farewell → s.sock = false → s.client ≠ .stalled →
      Step s (.farewell i) { s with out := s.out ++ [.farewell], pcs := upd s.pcs i .sockClose }
  /-- conn.go:115, whose error is not looked at; likewise -/
  | farewellErr {s : Sys} (i : Nat) : s.pcs i = .farewell → s.sock = true → Step s (.farewellErr i) { s with pcs := upd s.pcs i .sockClose }
  | farewellPart {s : Sys} (i : Nat) (p : Bytes) : s.pcs i = .farewell → s.client = .gone → p <+: closeMessage →
      Step s (.farewellErr i) { s with out := s.out ++ [.part p], pcs := upd s.pcs i .sockClose }
  /-- conn.go:117 -/
  | sockClose {s : Sys} (i : Nat) : s.pcs i = .sockClose → Step s (.sockClosed i) { s with sock := true, pcs := upd s.pcs i .chanClose }
  /-- conn.go:118-119 -/
  | chanClose {s : Sys} (i : Nat) : s.pcs i = .chanClose → s.chan = false → Step s (.closed i) { s with chan := true, pcs := upd s.pcs i .idle }
  /-- conn.go:118, the channel being closed already -/
  | crash {s : Sys} (i : Nat) : s.pcs i = .chanClose → s.chan = true → Step s .crash { s with crashed := true }
  /-- conn.go:146-147 -/
  | expire {s : Sys} : s.worker = .selecting → Step s .expired { s with worker := .expired, pcs := upd s.pcs 0 .closeStart }
  /-- conn.go:144-145 -/
  | workerLeft {s : Sys} : s.worker = .selecting → s.chan = true → Step s .workerLeft { s with worker := .gone }
  | client {s : Sys} (c : Client) : s.client ≠ .gone → Step s (.client c) { s with client := c }

end Conn

/-! pkg/network/server.go:230-281 `responseWorker`: one goroutine writes the responses to all connections. -/

namespace Pool

open Fut (upd)

/-- The connections of the server and the connection the response worker is writing to, if any. In every connection the response worker is
goroutine 1. -/
structure Sys where
  conns : Nat → Conn.Sys
  busy : Option Nat

/-- Every connection is new. -/
def new : Sys := { conns := fun _ => Conn.new, busy := none }

/-- What happens: connection `c` does something, or the worker turns to, or is done with, a response. -/
inductive Ev where
  | conn (c : Nat) (e : Conn.Ev)
  | turn (c : Nat) (m : Bytes)
  | dropped (c : Nat) (m : Bytes)
  | done (c : Nat)

/-- The events of goroutine 1 that only the response worker may cause. -/
def workers : Conn.Ev → Bool
  | .readCall 1 | .writeCall 1 _ | .writeClosed 1 _ | .closeCall 1 => true
  | _ => false

/-- The steps. Where the responses come from is left open. -/
inductive Step : Sys → Ev → Sys → Prop where
  | conn {s : Sys} (c : Nat) (e : Conn.Ev) (x : Conn.Sys) : workers e = false → Conn.Step (s.conns c) e x →
      Step s (.conn c e) { s with conns := upd s.conns c x }
  /-- server.go:272 -/
  | turn {s : Sys} (c : Nat) (m : Bytes) (x : Conn.Sys) : s.busy = none → Conn.Step (s.conns c) (.writeCall 1 m) x →
      Step s (.turn c m) { conns := upd s.conns c x, busy := some c }
  | dropped {s : Sys} (c : Nat) (m : Bytes) (x : Conn.Sys) : s.busy = none → Conn.Step (s.conns c) (.writeClosed 1 m) x →
      Step s (.dropped c m) { s with conns := upd s.conns c x }
  | done {s : Sys} (c : Nat) : s.busy = some c → (s.conns c).pcs 1 = .idle → Step s (.done c) { s with busy := none }

end Pool

end Verif
