import Verif.Model.Future

/-!
Objects whose methods are bracketed by a `sync.RWMutex`: pkg/types/data_map.go:57-104 `lockedDataMap` and
pkg/concurrency/event_bus.go:125-221 `eventBus`. Each method is `Lock` or `RLock`, a body, and the deferred unlock.
-/

namespace Verif

open Fut (upd)

/-- The bodies of the methods, on the state `σ`; `reads` tells which methods take only the read lock. -/
structure Obj (σ op ret : Type) where
  run : op → σ → σ × ret
  reads : op → Bool

/-- The body of the method can change the state. -/
def Obj.Writes {σ op ret : Type} (obj : Obj σ op ret) (o : op) : Prop := ∃ v, (obj.run o v).1 ≠ v

namespace RW

/-- Where a goroutine is: outside, before `Lock`/`RLock`, before the body, in the body, after the body. -/
inductive Pc (op ret : Type) where
  | idle
  | want (o : op)
  | holds (o : op)
  | body (o : op)
  | leaving (o : op) (r : ret)

/-- An object in use by any number of goroutines. The mutex knows only how many readers there are; which ones is for the proofs. A writer
waiting in `Lock` also keeps new readers out; that only forbids executions and is left out. -/
structure Sys (σ op ret : Type) where
  val : σ
  readers : List Nat
  writer : Option Nat
  pcs : Nat → Pc op ret
  crashed : Bool

/-- The beginning. -/
def new (op ret : Type) {σ : Type} (v : σ) : Sys σ op ret := { val := v, readers := [], writer := none, pcs := fun _ => .idle, crashed := false }

/-- What can be observed. `applied` marks the end of a body. -/
inductive Ev (op ret : Type) where
  | call (t : Nat) (o : op)
  | locked (t : Nat)
  | entered (t : Nat)
  | applied (t : Nat) (o : op) (r : ret)
  | returned (t : Nat) (o : op) (r : ret)
  | crash

/-- The steps. Go maps must not be written by one goroutine while another one uses them; the runtime ends the process (`crash`). -/
inductive Step {σ op ret : Type} (obj : Obj σ op ret) : Sys σ op ret → Ev op ret → Sys σ op ret → Prop where
  | call {s : Sys σ op ret} (t : Nat) (o : op) : s.crashed = false → s.pcs t = .idle →
      Step obj s (.call t o) { s with pcs := upd s.pcs t (.want o) }
  | rlock {s : Sys σ op ret} (t : Nat) (o : op) : s.crashed = false → s.pcs t = .want o → obj.reads o = true → s.writer = none →
      Step obj s (.locked t) { s with readers := t :: s.readers, pcs := upd s.pcs t (.holds o) }
  | lock {s : Sys σ op ret} (t : Nat) (o : op) : s.crashed = false → s.pcs t = .want o → obj.reads o = false → s.writer = none → s.readers = [] →
      Step obj s (.locked t) { s with writer := some t, pcs := upd s.pcs t (.holds o) }
  | enter {s : Sys σ op ret} (t : Nat) (o : op) : s.crashed = false → s.pcs t = .holds o →
      Step obj s (.entered t) { s with pcs := upd s.pcs t (.body o) }
  | apply {s : Sys σ op ret} (t : Nat) (o : op) : s.crashed = false → s.pcs t = .body o →
      Step obj s (.applied t o (obj.run o s.val).2) { s with val := (obj.run o s.val).1, pcs := upd s.pcs t (.leaving o (obj.run o s.val).2) }
  | runlock {s : Sys σ op ret} (t : Nat) (o : op) (r : ret) : s.crashed = false → s.pcs t = .leaving o r → obj.reads o = true →
      Step obj s (.returned t o r) { s with readers := s.readers.erase t, pcs := upd s.pcs t .idle }
  | unlock {s : Sys σ op ret} (t : Nat) (o : op) (r : ret) : s.crashed = false → s.pcs t = .leaving o r → obj.reads o = false →
      Step obj s (.returned t o r) { s with writer := none, pcs := upd s.pcs t .idle }
  | race {s : Sys σ op ret} (t u : Nat) (o p : op) : s.crashed = false → t ≠ u → s.pcs t = .body o → s.pcs u = .body p → obj.Writes o →
      Step obj s .crash { s with crashed := true }

end RW

end Verif
