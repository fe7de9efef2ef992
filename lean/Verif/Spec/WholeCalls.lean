import Verif.Spec.Calls
import Verif.Model.Broadcast
import Verif.Model.DataChannel
import Verif.Model.DataMap

/-! What one call of a method looks like from beginning to end, for futures, broadcasters, data channels and `syncDataMap`. -/

namespace Verif.Spec

/-- What goroutine `i` does in `Cancel`. -/
def inCancel {V : Type} (i : Nat) : Fut.Ev V → Bool
  | .cancelCall j | .cancelOk j | .cancelFulfilled j | .cancelAlready j => i = j
  | _ => false

/-- `Cancel` returns `ErrFulfilled` or `ErrCancelled` at once, or goes on to cancel. -/
inductive WholeCancel {V : Type} (i : Nat) : List (Fut.Ev V) → Prop where
  | fulfilled : WholeCancel i [.cancelFulfilled i]
  | already : WholeCancel i [.cancelAlready i]
  | ok : WholeCancel i [.cancelCall i, .cancelOk i]

/-- What goroutine `i` does in `Get`, `Wait` and `WaitFor`. -/
def inWaiting {V : Type} (i : Nat) : Fut.Ev V → Bool
  | .call j _ | .pass j | .got j _ | .waited j | .sawCancel j | .timeout j => i = j
  | _ => false

/-- `Get` waits and then returns the result, `Wait` and `WaitFor` return, each of them may see that the future was cancelled, and only `WaitFor` may
time out. -/
inductive WholeWait {V : Type} (i : Nat) : List (Fut.Ev V) → Prop where
  | got (v : V) : WholeWait i [.call i .inGet, .pass i, .got i (some v)]
  | waited : WholeWait i [.call i .inWait, .waited i]
  | waitedFor : WholeWait i [.call i .inWaitFor, .waited i]
  | cancelled (w : Fut.Waiter) : w = .inGet ∨ w = .inWait ∨ w = .inWaitFor → WholeWait i [.call i w, .sawCancel i]
  | timeout : WholeWait i [.call i .inWaitFor, .timeout i]

/-- What goroutine `i` does in `Set` of a broadcaster. -/
def inSet {M : Type} (i : Nat) : Bcast.Ev M → Bool
  | .setCall j _ | .setDone j => i = j
  | _ => false

/-- What goroutine `i` does in `Get` of a broadcaster. -/
def inGet {M : Type} (i : Nat) : Bcast.Ev M → Bool
  | .getCall j | .woken j | .got j _ => i = j
  | _ => false

/-- `Set` stores the message and returns. -/
inductive WholeSet {M : Type} (i : Nat) : List (Bcast.Ev M) → Prop where
  | set (m : M) : WholeSet i [.setCall i m, .setDone i]

/-- `Get` waits, is woken and returns a message. -/
inductive WholeGet {M : Type} (i : Nat) : List (Bcast.Ev M) → Prop where
  | got (m : M) : WholeGet i [.getCall i, .woken i, .got i (some m)]

/-- What goroutine `i` does in `Send`. -/
def inSend {E : Type} (i : Nat) : DataChan.Ev E → Bool
  | .sendCall j _ | .sent j _ | .sendClosed j _ | .expired j _ | .handed j _ _ => i = j
  | _ => false

/-- What goroutine `i` does in `Receive`. -/
def inReceive {E : Type} (i : Nat) : DataChan.Ev E → Bool
  | .recvCall j | .received j _ | .recvClosed j | .handed _ _ j => i = j
  | _ => false

/-- What goroutine `i` does in `Close`. -/
def inClose {E : Type} (i : Nat) : DataChan.Ev E → Bool
  | .closeWon j | .closed j => i = j
  | _ => false

/-- `Send` returns exactly one of `Success`, `Closed` and `Expired`, for the event it was called with. -/
inductive WholeSend {E : Type} (i : Nat) : List (DataChan.Ev E) → Prop where
  | sent (e : E) : WholeSend i [.sendCall i e, .sent i e]
  | handed (e : E) (j : Nat) : WholeSend i [.sendCall i e, .handed i e j]
  | closed (e : E) : WholeSend i [.sendCall i e, .sendClosed i e]
  | expired (e : E) : WholeSend i [.sendCall i e, .expired i e]

/-- `Receive` returns `ErrChannelClosed` at once, or one event. -/
inductive WholeReceive {E : Type} (j : Nat) : List (DataChan.Ev E) → Prop where
  | closed : WholeReceive j [.recvClosed j]
  | received (e : E) : WholeReceive j [.recvCall j, .received j e]
  | handed (i : Nat) (e : E) : WholeReceive j [.recvCall j, .handed i e j]

/-- `Close` finds the channel closed, or closes it. -/
inductive WholeClose {E : Type} (k : Nat) : List (DataChan.Ev E) → Prop where
  | lost : WholeClose k [.closed k]
  | won : WholeClose k [.closeWon k, .closed k]

/-- What goroutine `t` does with a `syncDataMap`. -/
def inSyncMap {V : Type} (t : Nat) : DataMap.Sync.Ev V → Bool
  | .set u _ _ | .added u _ | .stored u _ _ | .remove u _ | .deleted u _ | .subtracted u _ | .got u _ _ | .had u _ _ | .len u _ => t = u

/-- `Set` counts a key it did not find, and then stores; `Remove` deletes a key it found, and then counts; the others only look. -/
inductive WholeSync {V : Type} (t : Nat) : List (DataMap.Sync.Ev V) → Prop where
  | setOld (k : Bytes) (v : V) : WholeSync t [.set t k v, .stored t k v]
  | setNew (k : Bytes) (v : V) : WholeSync t [.set t k v, .added t k, .stored t k v]
  | removeNone (k : Bytes) : WholeSync t [.remove t k]
  | removeOld (k : Bytes) : WholeSync t [.remove t k, .deleted t k, .subtracted t k]
  | got (k : Bytes) (v : Option V) : WholeSync t [.got t k v]
  | had (k : Bytes) (b : Bool) : WholeSync t [.had t k b]
  | len (n : Int) : WholeSync t [.len t n]

end Verif.Spec
