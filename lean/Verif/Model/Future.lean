/-! pkg/concurrency/future.go as a transition system: one goroutine runs the task, any number of goroutines call the methods. -/

namespace Verif

namespace Fut

/-- Where the goroutine of pkg/concurrency/future.go:68-77 is: running the task, before the `select`, before `close(f.doneChan)`, finished. -/
inductive Runner where
  | running | stored | closing | finished
deriving DecidableEq

/-- A goroutine in `Cancel` (lines 80-90): outside, or past the `select` and before `close(f.cancelChan)`. -/
inductive Canceller where
  | idle | closing
deriving DecidableEq

/-- A goroutine in `Get`, `Wait` or `WaitFor` (lines 92-120): outside, in the `select`, or in `Get` with `Wait` having succeeded. -/
inductive Waiter where
  | idle | inGet | inWait | inWaitFor | ready
deriving DecidableEq

/-- A future. The two channels are only ever closed, so each is a flag. `result` is the pair of fields `f.result, f.err`, `none` before
the task has set them. Goroutines are numbered; each may call as often as it likes. -/
structure Sys (V : Type) where
  result : Option V
  done : Bool
  cancelled : Bool
  runner : Runner
  cancellers : Nat → Canceller
  waiters : Nat → Waiter
  crashed : Bool

/-- pkg/concurrency/future.go:53-65 `NewFuture`. -/
def new (V : Type) : Sys V :=
  { result := none, done := false, cancelled := false, runner := .running, cancellers := fun _ => .idle, waiters := fun _ => .idle
    crashed := false }

/-- What can be observed. -/
inductive Ev (V : Type) where
  /-- The task returns. -/
  | taskReturns (v : V)
  /-- The task's goroutine does something internal. -/
  | runner
  /-- `Cancel` is called and passes its `select`, without result yet. -/
  | cancelCall (i : Nat)
  /-- `Cancel` returns nil, `ErrFulfilled` or `ErrCancelled`. -/
  | cancelOk (i : Nat)
  | cancelFulfilled (i : Nat)
  | cancelAlready (i : Nat)
  /-- `Get`, `Wait`, `WaitFor` are called. -/
  | call (i : Nat) (w : Waiter)
  /-- `Get` passes `Wait`. -/
  | pass (i : Nat)
  /-- `Get` returns; `none` would be the zero values of fields never set. -/
  | got (i : Nat) (v : Option V)
  /-- `Wait` or `WaitFor` returns nil. -/
  | waited (i : Nat)
  /-- `Get`, `Wait` or `WaitFor` returns `ErrCancelled`. -/
  | sawCancel (i : Nat)
  /-- `WaitFor` returns `ErrTimeout`. -/
  | timeout (i : Nat)
  /-- A channel is closed a second time: the process dies. -/
  | crash

/-- Changing one goroutine's position. -/
def upd {α : Type} (f : Nat → α) (i : Nat) (a : α) : Nat → α := fun j => if j = i then a else f j

/-- The steps. A `select` with several ready cases takes any of them. -/
inductive Step {V : Type} : Sys V → Ev V → Sys V → Prop where
  /-- future.go:69 -/
  | task {s : Sys V} (v : V) : s.crashed = false → s.runner = .running → Step s (.taskReturns v) { s with result := some v, runner := .stored }
  /-- future.go:70-73 -/
  | late {s : Sys V} : s.crashed = false → s.runner = .stored → s.cancelled = true → Step s .runner { s with runner := .finished }
  /-- future.go:74 -/
  | decide {s : Sys V} : s.crashed = false → s.runner = .stored → s.cancelled = false → Step s .runner { s with runner := .closing }
  /-- future.go:75 -/
  | finish {s : Sys V} : s.crashed = false → s.runner = .closing → s.done = false → Step s .runner { s with runner := .finished, done := true }
  /-- future.go:75, the channel being closed already -/
  | finishCrash {s : Sys V} : s.crashed = false → s.runner = .closing → s.done = true → Step s .crash { s with crashed := true }
  /-- future.go:82-83 -/
  | cancelFulfilled {s : Sys V} (i : Nat) : s.crashed = false → s.cancellers i = .idle → s.done = true → Step s (.cancelFulfilled i) s
  /-- future.go:84-85 -/
  | cancelAlready {s : Sys V} (i : Nat) : s.crashed = false → s.cancellers i = .idle → s.cancelled = true → Step s (.cancelAlready i) s
  /-- future.go:86 -/
  | cancelCall {s : Sys V} (i : Nat) : s.crashed = false → s.cancellers i = .idle → s.done = false → s.cancelled = false →
      Step s (.cancelCall i) { s with cancellers := upd s.cancellers i .closing }
  /-- future.go:87-88 -/
  | cancelOk {s : Sys V} (i : Nat) : s.crashed = false → s.cancellers i = .closing → s.cancelled = false →
      Step s (.cancelOk i) { s with cancelled := true, cancellers := upd s.cancellers i .idle }
  /-- future.go:87, the channel being closed already -/
  | cancelCrash {s : Sys V} (i : Nat) : s.crashed = false → s.cancellers i = .closing → s.cancelled = true →
      Step s .crash { s with crashed := true }
  /-- future.go:92-93, 102, 111: the call, up to the `select` -/
  | call {s : Sys V} (i : Nat) (w : Waiter) : s.crashed = false → s.waiters i = .idle → w = .inGet ∨ w = .inWait ∨ w = .inWaitFor →
      Step s (.call i w) { s with waiters := upd s.waiters i w }
  /-- future.go:104-105 within `Get` -/
  | pass {s : Sys V} (i : Nat) : s.crashed = false → s.waiters i = .inGet → s.done = true → Step s (.pass i) { s with waiters := upd s.waiters i .ready }
  /-- future.go:99 -/
  | got {s : Sys V} (i : Nat) : s.crashed = false → s.waiters i = .ready → Step s (.got i s.result) { s with waiters := upd s.waiters i .idle }
  /-- future.go:104-105, 113-114 -/
  | waited {s : Sys V} (i : Nat) : s.crashed = false → s.waiters i = .inWait ∨ s.waiters i = .inWaitFor → s.done = true →
      Step s (.waited i) { s with waiters := upd s.waiters i .idle }
  /-- future.go:106-107, 115-116 and 95-97 -/
  | sawCancel {s : Sys V} (i : Nat) : s.crashed = false → s.waiters i = .inGet ∨ s.waiters i = .inWait ∨ s.waiters i = .inWaitFor →
      s.cancelled = true → Step s (.sawCancel i) { s with waiters := upd s.waiters i .idle }
  /-- future.go:117-118; the clock is not modelled -/
  | timeout {s : Sys V} (i : Nat) : s.crashed = false → s.waiters i = .inWaitFor → Step s (.timeout i) { s with waiters := upd s.waiters i .idle }

end Fut

end Verif
