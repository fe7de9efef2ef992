import Verif.Model.Future

/-! pkg/concurrency/data_channel.go as a transition system. -/

namespace Verif

namespace DataChan

open Fut (upd)

/-- A goroutine in `Close` (pkg/concurrency/data_channel.go:123-127): outside, or past the compare-and-swap and before `close`. -/
inductive Closer where
  | idle | closing
deriving DecidableEq

/-- A data channel. `cap` is the buffer size (0 for an unbuffered channel, lines 71-87, 91-112), `flag` the field `closed`, `closed` whether
`closeChannel` is closed. `senders i` is the event goroutine `i` is sending, `receivers j` whether goroutine `j` waits at line 120. -/
structure Sys (E : Type) where
  cap : Nat
  buf : List E
  flag : Bool
  closed : Bool
  senders : Nat → Option E
  receivers : Nat → Bool
  closers : Nat → Closer
  crashed : Bool

/-- data_channel.go:91-113 `NewDataChannelWithOption` (and `NewDataChannel`, with size 0). -/
def new (E : Type) (size : Int) : Sys E :=
  { cap := size.toNat, buf := [], flag := false, closed := false, senders := fun _ => none, receivers := fun _ => false
    closers := fun _ => .idle, crashed := false }

/-- What can be observed. -/
inductive Ev (E : Type) where
  | sendCall (i : Nat) (e : E)
  /-- `Send` returns `Success`, `Closed`, `Expired`. -/
  | sent (i : Nat) (e : E)
  | sendClosed (i : Nat) (e : E)
  | expired (i : Nat) (e : E)
  /-- `Receive` is called on an open channel. -/
  | recvCall (j : Nat)
  /-- `Receive` returns an event, or `ErrChannelClosed`. -/
  | received (j : Nat) (e : E)
  | recvClosed (j : Nat)
  /-- A `Send` and a `Receive` meet on an unbuffered channel. -/
  | handed (i : Nat) (e : E) (j : Nat)
  /-- `Close` wins the compare-and-swap; `Close` returns. -/
  | closeWon (k : Nat)
  | closed (k : Nat)
  | crash

/-- The steps. -/
inductive Step {E : Type} : Sys E → Ev E → Sys E → Prop where
  /-- data_channel.go:129-130 -/
  | sendCall {s : Sys E} (i : Nat) (e : E) : s.crashed = false → s.senders i = none → Step s (.sendCall i e) { s with senders := upd s.senders i (some e) }
  /-- data_channel.go:133-134, room in the buffer -/
  | sent {s : Sys E} (i : Nat) (e : E) : s.crashed = false → s.senders i = some e → s.buf.length < s.cap →
      Step s (.sent i e) { s with buf := s.buf ++ [e], senders := upd s.senders i none }
  /-- data_channel.go:133-134 and 120, no buffer -/
  | handed {s : Sys E} (i : Nat) (e : E) (j : Nat) : s.crashed = false → s.senders i = some e → s.cap = 0 → s.receivers j = true →
      Step s (.handed i e j) { s with senders := upd s.senders i none, receivers := upd s.receivers j false }
  /-- data_channel.go:131-132 -/
  | sendClosed {s : Sys E} (i : Nat) (e : E) : s.crashed = false → s.senders i = some e → s.closed = true →
      Step s (.sendClosed i e) { s with senders := upd s.senders i none }
  /-- data_channel.go:135-136; the clock is not modelled -/
  | expired {s : Sys E} (i : Nat) (e : E) : s.crashed = false → s.senders i = some e → Step s (.expired i e) { s with senders := upd s.senders i none }
  /-- data_channel.go:116 -/
  | recvCall {s : Sys E} (j : Nat) : s.crashed = false → s.receivers j = false → s.flag = false →
      Step s (.recvCall j) { s with receivers := upd s.receivers j true }
  /-- data_channel.go:116-118 -/
  | recvClosed {s : Sys E} (j : Nat) : s.crashed = false → s.receivers j = false → s.flag = true → Step s (.recvClosed j) s
  /-- data_channel.go:120, from the buffer -/
  | received {s : Sys E} (j : Nat) (e : E) (rest : List E) : s.crashed = false → s.receivers j = true → s.buf = e :: rest →
      Step s (.received j e) { s with buf := rest, receivers := upd s.receivers j false }
  /-- data_channel.go:124, successful -/
  | closeWon {s : Sys E} (k : Nat) : s.crashed = false → s.closers k = .idle → s.flag = false →
      Step s (.closeWon k) { s with flag := true, closers := upd s.closers k .closing }
  /-- data_channel.go:124, unsuccessful -/
  | closeLost {s : Sys E} (k : Nat) : s.crashed = false → s.closers k = .idle → s.flag = true → Step s (.closed k) s
  /-- data_channel.go:125 -/
  | close {s : Sys E} (k : Nat) : s.crashed = false → s.closers k = .closing → s.closed = false →
      Step s (.closed k) { s with closed := true, closers := upd s.closers k .idle }
  /-- data_channel.go:125, the channel being closed already -/
  | closeCrash {s : Sys E} (k : Nat) : s.crashed = false → s.closers k = .closing → s.closed = true → Step s .crash { s with crashed := true }

end DataChan

end Verif
