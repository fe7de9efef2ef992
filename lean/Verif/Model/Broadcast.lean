import Verif.Model.Future

/-! pkg/concurrency/broadcast.go as a transition system. -/

namespace Verif

namespace Bcast

open Fut (upd)

/-- A goroutine in `Set` (pkg/concurrency/broadcast.go:28-31): outside, or between the two statements. -/
inductive Setter where
  | idle | stored
deriving DecidableEq

/-- A goroutine in `Get` (pkg/concurrency/broadcast.go:33-36): outside, waiting, or between the two statements. -/
inductive Getter where
  | idle | waiting | woken
deriving DecidableEq

/-- A broadcaster; `message` is `none` for the initial nil, `ready` tells whether the channel is closed. -/
structure Sys (M : Type) where
  message : Option M
  ready : Bool
  setters : Nat → Setter
  getters : Nat → Getter
  crashed : Bool

/-- pkg/concurrency/broadcast.go:21-26 `NewBroadCaster`. -/
def new (M : Type) : Sys M := { message := none, ready := false, setters := fun _ => .idle, getters := fun _ => .idle, crashed := false }

/-- What can be observed. -/
inductive Ev (M : Type) where
  | setCall (i : Nat) (m : M)
  /-- `Set` returns. -/
  | setDone (i : Nat)
  | getCall (j : Nat)
  | woken (j : Nat)
  /-- `Get` returns. -/
  | got (j : Nat) (m : Option M)
  | crash

/-- The steps. -/
inductive Step {M : Type} : Sys M → Ev M → Sys M → Prop where
  /-- broadcast.go:29 -/
  | setCall {s : Sys M} (i : Nat) (m : M) : s.crashed = false → s.setters i = .idle →
      Step s (.setCall i m) { s with message := some m, setters := upd s.setters i .stored }
  /-- broadcast.go:30 -/
  | setDone {s : Sys M} (i : Nat) : s.crashed = false → s.setters i = .stored → s.ready = false →
      Step s (.setDone i) { s with ready := true, setters := upd s.setters i .idle }
  /-- broadcast.go:30, the channel being closed already -/
  | crash {s : Sys M} (i : Nat) : s.crashed = false → s.setters i = .stored → s.ready = true → Step s .crash { s with crashed := true }
  /-- broadcast.go:34 -/
  | getCall {s : Sys M} (j : Nat) : s.crashed = false → s.getters j = .idle → Step s (.getCall j) { s with getters := upd s.getters j .waiting }
  /-- broadcast.go:34 -/
  | woken {s : Sys M} (j : Nat) : s.crashed = false → s.getters j = .waiting → s.ready = true → Step s (.woken j) { s with getters := upd s.getters j .woken }
  /-- broadcast.go:35 -/
  | got {s : Sys M} (j : Nat) : s.crashed = false → s.getters j = .woken → Step s (.got j s.message) { s with getters := upd s.getters j .idle }

end Bcast

end Verif
