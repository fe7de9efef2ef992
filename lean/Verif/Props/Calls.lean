import Verif.Spec.WholeCalls
import Verif.Lemmas.Calls
import Verif.Props.Future
import Verif.Props.Broadcast
import Verif.Props.DataChannel
import Verif.Props.DataMap

/-! Each goroutine makes whole calls, one after the other. -/

namespace Verif.Props

open Spec
open Fut (upd)

/-! ## C37 -/

section

variable {V : Type}

/-- How far goroutine `i` has come in `Cancel`. -/
def cancelCourse (i : Nat) : Fut.Canceller → List (Fut.Ev V) → Prop
  | .idle, l => l = []
  | .closing, l => l = [.cancelCall i]

/-- How far goroutine `i` has come in `Get`, `Wait` or `WaitFor`. -/
def waitCourse (i : Nat) : Fut.Waiter → List (Fut.Ev V) → Prop
  | .idle, l => l = []
  | .ready, l => l = [.call i .inGet, .pass i]
  | .inGet, l => l = [.call i .inGet]
  | .inWait, l => l = [.call i .inWait]
  | .inWaitFor, l => l = [.call i .inWaitFor]

/-- C37: whatever the others do, what one goroutine does in `Cancel` is a sequence of whole calls, the last one possibly under way. -/
theorem C37_cancel_calls {tr : List (Fut.Ev V)} {s : Fut.Sys V} (h : Exec Fut.Step (Fut.new V) tr s) (i : Nat) :
    InCalls (inCancel i) (WholeCancel i) tr (s.cancellers i = .idle) := by
  have key : CallsAt (inCancel (V := V)) WholeCancel cancelCourse i tr (s.cancellers i) := by
    refine h.inv (P := fun tr s => CallsAt (inCancel (V := V)) WholeCancel cancelCourse i tr (s.cancellers i)) (.nil (by exact rfl)) ?_
    intro tr s l s' _ ih hs
    cases hs with
    | cancelFulfilled j _ hj _ => exact ih.single j (fun _ => rfl) (by rw [hj]; exact fun _ h => h) .fulfilled
    | cancelAlready j _ hj _ => exact ih.single j (fun _ => rfl) (by rw [hj]; exact fun _ h => h) .already
    | cancelCall j _ hj _ _ => exact ih.goes j (fun _ => rfl) (by rw [hj]; rintro _ rfl; rfl)
    | cancelOk j _ hj _ => exact ih.ends j (fun _ => rfl) rfl (by rw [hj]; rintro _ rfl; exact .ok)
    | _ => exact ih.other rfl
  obtain ⟨rest, h1, h2⟩ := key
  refine ⟨rest, h1, ?_⟩
  cases hp : s.cancellers i <;> rw [hp] at h2 <;> simp only [cancelCourse] at h2 <;> subst h2
  · exact .inl ⟨rfl, rfl⟩
  · exact .inr ⟨by simp, by simp, _, by simp, .ok⟩

/-- C37: the same for `Get`, `Wait` and `WaitFor`: each call returns one thing, once, `Get` a result of the task. Only `WaitFor` times out. -/
theorem C37_wait_calls {tr : List (Fut.Ev V)} {s : Fut.Sys V} (h : Exec Fut.Step (Fut.new V) tr s) (i : Nat) :
    InCalls (inWaiting i) (WholeWait i) tr (s.waiters i = .idle) := by
  have key : CallsAt (inWaiting (V := V)) WholeWait waitCourse i tr (s.waiters i) := by
    refine h.inv (P := fun tr s => CallsAt (inWaiting (V := V)) WholeWait waitCourse i tr (s.waiters i)) (.nil (by exact rfl)) ?_
    intro tr s l s' hx ih hs
    have inv := futInv hx
    cases hs with
    | call j w _ hj hw => exact ih.goes j (fun _ => rfl) (by rw [hj]; rintro _ rfl; rcases hw with rfl | rfl | rfl <;> rfl)
    | pass j _ hj _ => exact ih.goes j (fun _ => rfl) (by rw [hj]; rintro _ rfl; rfl)
    | got j _ hj =>
      have hr : s.result ≠ none := by
        intro hn
        have := inv.running.2 hn
        have := inv.done (inv.ready j hj)
        simp_all
      obtain ⟨v, hv⟩ := Option.ne_none_iff_exists'.1 hr
      rw [hv]
      exact ih.ends j (fun _ => rfl) rfl (by rw [hj]; rintro _ rfl; exact .got v)
    | waited j _ hj _ =>
      refine ih.ends j (fun _ => rfl) rfl ?_
      rcases hj with hj | hj <;> rw [hj] <;> rintro _ rfl
      · exact .waited
      · exact .waitedFor
    | sawCancel j _ hj _ =>
      refine ih.ends j (fun _ => rfl) rfl ?_
      rcases hj with hj | hj | hj <;> rw [hj] <;> rintro _ rfl <;> exact .cancelled _ (by simp)
    | timeout j _ hj => exact ih.ends j (fun _ => rfl) rfl (by rw [hj]; rintro _ rfl; exact .timeout)
    | _ => exact ih.other rfl
  obtain ⟨rest, h1, h2⟩ := key
  refine ⟨rest, h1, ?_⟩
  cases hp : s.waiters i <;> rw [hp] at h2 <;> simp only [waitCourse] at h2 <;> subst h2
  · exact .inl ⟨rfl, rfl⟩
  · exact .inr ⟨by simp, by simp, [.sawCancel i], by simp, .cancelled _ (by simp)⟩
  · exact .inr ⟨by simp, by simp, _, by simp, .waited⟩
  · exact .inr ⟨by simp, by simp, _, by simp, .timeout⟩
  · have inv := futInv h
    have hr : s.result ≠ none := by
      intro hn
      have := inv.running.2 hn
      have := inv.done (inv.ready i hp)
      simp_all
    obtain ⟨v, _⟩ := Option.ne_none_iff_exists'.1 hr
    exact .inr ⟨by simp, by simp, [.got i (some v)], by simp, .got v⟩

/-- A `WaitFor` that times out, and a `Get` by the same goroutine that is under way. -/
example : ∃ s, Exec Fut.Step (Fut.new Nat) [.call 3 .inWaitFor, .cancelCall 3, .timeout 3, .taskReturns 42, .call 3 .inGet] s ∧
    [Fut.Ev.call 3 .inWaitFor, .cancelCall 3, .timeout 3, .taskReturns 42, .call 3 .inGet].filter (inWaiting (V := Nat) 3) =
      [.call 3 .inWaitFor, .timeout 3] ++ [.call 3 .inGet] :=
  ⟨_, .cons (.call 3 .inWaitFor rfl rfl (by simp)) (.cons (.cancelCall 3 rfl rfl rfl rfl) (.cons (.timeout 3 rfl rfl) (.cons (.task 42 rfl rfl)
    (.one (.call 3 .inGet rfl rfl (by simp)))))), rfl⟩

end

/-! ## C42 -/

section

variable {M : Type}

/-- How far goroutine `i` has come in `Set`. -/
def setCourse (i : Nat) : Bcast.Setter → List (Bcast.Ev M) → Prop
  | .idle, l => l = []
  | .stored, l => ∃ m, l = [.setCall i m]

/-- How far goroutine `i` has come in `Get`. -/
def getCourse (i : Nat) : Bcast.Getter → List (Bcast.Ev M) → Prop
  | .idle, l => l = []
  | .waiting, l => l = [.getCall i]
  | .woken, l => l = [.getCall i, .woken i]

/-- C42: whatever the others do, what one goroutine does in `Set` is a sequence of whole calls, the last one possibly under way. -/
theorem C42_set_calls {tr : List (Bcast.Ev M)} {s : Bcast.Sys M} (h : Exec Bcast.Step (Bcast.new M) tr s) (i : Nat) :
    InCalls (inSet i) (WholeSet i) tr (s.setters i = .idle) := by
  have key : CallsAt (inSet (M := M)) WholeSet setCourse i tr (s.setters i) := by
    refine h.inv (P := fun tr s => CallsAt (inSet (M := M)) WholeSet setCourse i tr (s.setters i)) (.nil (by exact rfl)) ?_
    intro tr s l s' _ ih hs
    cases hs with
    | setCall j m _ hj => exact ih.goes j (fun _ => rfl) (by rw [hj]; rintro _ rfl; exact ⟨m, rfl⟩)
    | setDone j _ hj _ => exact ih.ends j (fun _ => rfl) rfl (by rw [hj]; rintro _ ⟨m, rfl⟩; exact .set m)
    | _ => exact ih.other rfl
  obtain ⟨rest, h1, h2⟩ := key
  refine ⟨rest, h1, ?_⟩
  cases hp : s.setters i <;> rw [hp] at h2 <;> simp only [setCourse] at h2
  · exact .inl ⟨rfl, h2⟩
  · obtain ⟨m, rfl⟩ := h2
    exact .inr ⟨by simp, by simp, _, by simp, .set m⟩

/-- C42: the same for `Get`: each call returns once, with a message, after it was woken. A `Get` that has not returned can do so only once a message
is there. -/
theorem C42_get_calls {tr : List (Bcast.Ev M)} {s : Bcast.Sys M} (h : Exec Bcast.Step (Bcast.new M) tr s) (i : Nat) :
    ∃ rest, CallsThen (inGet i) (WholeGet i) tr rest ∧
      (s.getters i = .idle ∧ rest = [] ∨ s.getters i = .waiting ∧ rest = [.getCall i] ∨ s.getters i = .woken ∧ rest = [.getCall i, .woken i]) := by
  have key : CallsAt (inGet (M := M)) WholeGet getCourse i tr (s.getters i) := by
    refine h.inv (P := fun tr s => CallsAt (inGet (M := M)) WholeGet getCourse i tr (s.getters i)) (.nil (by exact rfl)) ?_
    intro tr s l s' hx ih hs
    have inv := bcastInv hx
    cases hs with
    | getCall j _ hj => exact ih.goes j (fun _ => rfl) (by rw [hj]; rintro _ rfl; rfl)
    | woken j _ hj _ => exact ih.goes j (fun _ => rfl) (by rw [hj]; rintro _ rfl; rfl)
    | got j _ hj =>
      obtain ⟨m, hm⟩ := inv.full (inv.woken j hj)
      rw [hm]
      exact ih.ends j (fun _ => rfl) rfl (by rw [hj]; rintro _ rfl; exact .got m)
    | _ => exact ih.other rfl
  obtain ⟨rest, h1, h2⟩ := key
  refine ⟨rest, h1, ?_⟩
  cases hp : s.getters i <;> rw [hp] at h2 <;> simp only [getCourse] at h2 <;> simp [h2]

/-- One goroutine sets and another gets twice. -/
example : ∃ s, Exec Bcast.Step (Bcast.new Nat)
    [.getCall 5, .setCall 5 7, .setDone 5, .woken 5, .got 5 (some 7), .getCall 5, .woken 5] s ∧ s.getters 5 = .woken :=
  ⟨_, .cons (.getCall 5 rfl rfl) (.cons (.setCall 5 7 rfl rfl) (.cons (.setDone 5 rfl rfl rfl) (.cons (.woken 5 rfl rfl rfl) (.cons (.got 5 rfl rfl)
    (.cons (.getCall 5 rfl rfl) (.one (.woken 5 rfl rfl rfl))))))), rfl⟩

end

/-! ## C38 -/

section

variable {E : Type}

/-- How far goroutine `i` has come in `Send`. -/
def sendCourse (i : Nat) : Option E → List (DataChan.Ev E) → Prop
  | none, l => l = []
  | some e, l => l = [.sendCall i e]

/-- How far goroutine `i` has come in `Receive`. -/
def recvCourse (i : Nat) : Bool → List (DataChan.Ev E) → Prop
  | false, l => l = []
  | true, l => l = [.recvCall i]

/-- How far goroutine `i` has come in `Close`. -/
def closeCourse (i : Nat) : DataChan.Closer → List (DataChan.Ev E) → Prop
  | .idle, l => l = []
  | .closing, l => l = [.closeWon i]

/-- C38: whatever the others do, what one goroutine does in `Send` is a sequence of whole calls, the last one possibly under way: each call returns
one thing, once, about the event it was called with. -/
theorem C38_send_calls {n : Int} {tr : List (DataChan.Ev E)} {s : DataChan.Sys E} (h : Exec DataChan.Step (DataChan.new E n) tr s) (i : Nat) :
    InCalls (inSend i) (WholeSend i) tr (s.senders i = none) := by
  have key : CallsAt (inSend (E := E)) WholeSend sendCourse i tr (s.senders i) := by
    refine h.inv (P := fun tr s => CallsAt (inSend (E := E)) WholeSend sendCourse i tr (s.senders i)) (.nil (by exact rfl)) ?_
    intro tr s l s' _ ih hs
    cases hs with
    | sendCall j e _ hj => exact ih.goes j (fun _ => rfl) (by rw [hj]; rintro _ rfl; rfl)
    | sent j e _ hj _ => exact ih.ends j (fun _ => rfl) rfl (by rw [hj]; rintro _ rfl; exact .sent e)
    | handed j e k _ hj _ _ => exact ih.ends j (fun _ => rfl) rfl (by rw [hj]; rintro _ rfl; exact .handed e k)
    | sendClosed j e _ hj _ => exact ih.ends j (fun _ => rfl) rfl (by rw [hj]; rintro _ rfl; exact .closed e)
    | expired j e _ hj => exact ih.ends j (fun _ => rfl) rfl (by rw [hj]; rintro _ rfl; exact .expired e)
    | _ => exact ih.other rfl
  obtain ⟨rest, h1, h2⟩ := key
  refine ⟨rest, h1, ?_⟩
  cases hp : s.senders i <;> rw [hp] at h2 <;> simp only [sendCourse] at h2 <;> subst h2
  · exact .inl ⟨rfl, rfl⟩
  · exact .inr ⟨by simp, by simp, _, by simp, .expired _⟩

/-- C38: the same for `Receive`: `ErrChannelClosed` at once, or one event. -/
theorem C38_receive_calls {n : Int} {tr : List (DataChan.Ev E)} {s : DataChan.Sys E} (h : Exec DataChan.Step (DataChan.new E n) tr s) (j : Nat) :
    ∃ rest, CallsThen (inReceive j) (WholeReceive j) tr rest ∧ (s.receivers j = false ∧ rest = [] ∨ s.receivers j = true ∧ rest = [.recvCall j]) := by
  have key : CallsAt (inReceive (E := E)) WholeReceive recvCourse j tr (s.receivers j) := by
    refine h.inv (P := fun tr s => CallsAt (inReceive (E := E)) WholeReceive recvCourse j tr (s.receivers j)) (.nil (by exact rfl)) ?_
    intro tr s l s' _ ih hs
    cases hs with
    | recvCall k _ hk _ => exact ih.goes k (fun _ => rfl) (by rw [hk]; rintro _ rfl; rfl)
    | recvClosed k _ hk _ => exact ih.single k (fun _ => rfl) (by rw [hk]; exact fun _ h => h) .closed
    | received k e _ _ hk _ => exact ih.ends k (fun _ => rfl) rfl (by rw [hk]; rintro _ rfl; exact .received e)
    | handed i e k _ _ _ hk => exact ih.ends k (fun _ => rfl) rfl (by rw [hk]; rintro _ rfl; exact .handed i e)
    | _ => exact ih.other rfl
  obtain ⟨rest, h1, h2⟩ := key
  refine ⟨rest, h1, ?_⟩
  cases hp : s.receivers j <;> rw [hp] at h2 <;> simp only [recvCourse] at h2 <;> simp [h2]

/-- C38: the same for `Close`. -/
theorem C38_close_calls {n : Int} {tr : List (DataChan.Ev E)} {s : DataChan.Sys E} (h : Exec DataChan.Step (DataChan.new E n) tr s) (k : Nat) :
    InCalls (inClose k) (WholeClose k) tr (s.closers k = .idle) := by
  have key : CallsAt (inClose (E := E)) WholeClose closeCourse k tr (s.closers k) := by
    refine h.inv (P := fun tr s => CallsAt (inClose (E := E)) WholeClose closeCourse k tr (s.closers k)) (.nil (by exact rfl)) ?_
    intro tr s l s' _ ih hs
    cases hs with
    | closeWon j _ hj _ => exact ih.goes j (fun _ => rfl) (by rw [hj]; rintro _ rfl; rfl)
    | closeLost j _ hj _ => exact ih.single j (fun _ => rfl) (by rw [hj]; exact fun _ h => h) .lost
    | close j _ hj _ => exact ih.ends j (fun _ => rfl) rfl (by rw [hj]; rintro _ rfl; exact .won)
    | _ => exact ih.other rfl
  obtain ⟨rest, h1, h2⟩ := key
  refine ⟨rest, h1, ?_⟩
  cases hp : s.closers k <;> rw [hp] at h2 <;> simp only [closeCourse] at h2 <;> subst h2
  · exact .inl ⟨rfl, rfl⟩
  · exact .inr ⟨by simp, by simp, _, by simp, .won⟩

/-- A rendezvous, which is part of a `Send` and of a `Receive`. -/
example : ∃ s, Exec DataChan.Step (DataChan.new Nat 0) [.recvCall 4, .sendCall 4 9, .handed 4 9 4] s ∧
    [DataChan.Ev.recvCall 4, .sendCall 4 9, .handed 4 9 4].filter (inSend (E := Nat) 4) = [.sendCall 4 9, .handed 4 9 4] ∧
    [DataChan.Ev.recvCall 4, .sendCall 4 9, .handed 4 9 4].filter (inReceive (E := Nat) 4) = [.recvCall 4, .handed 4 9 4] :=
  ⟨_, .cons (.recvCall 4 rfl rfl rfl) (.cons (.sendCall 4 9 rfl rfl) (.one (.handed 4 9 4 rfl rfl rfl rfl))), rfl, rfl⟩

end

/-! ## C41 -/

section

variable {V : Type}

open DataMap

/-- How far goroutine `t` has come. -/
def syncCourse (t : Nat) : Sync.Pc V → List (Sync.Ev V) → Prop
  | .idle, l => l = []
  | .adding k v, l => l = [.set t k v]
  | .storing k v false, l => l = [.set t k v]
  | .storing k v true, l => l = [.set t k v, .added t k]
  | .deleting k, l => l = [.remove t k]
  | .subtracting k, l => l = [.remove t k, .deleted t k]

/-- C41: whatever the others do, what one goroutine does with a `syncDataMap` is a sequence of whole calls, the last one possibly under way. In
particular each `Set` counts at most once and stores exactly once, and each `Remove` deletes as often as it counts. -/
theorem C41_sync_calls {tr : List (Sync.Ev V)} {s : Sync.Sys V} (h : Exec Sync.Step (Sync.start V) tr s) (t : Nat) :
    InCalls (inSyncMap t) (WholeSync t) tr (s.pcs t = .idle) := by
  have key : CallsAt (inSyncMap (V := V)) WholeSync syncCourse t tr (s.pcs t) := by
    refine h.inv (P := fun tr s => CallsAt (inSyncMap (V := V)) WholeSync syncCourse t tr (s.pcs t)) (.nil (by exact rfl)) ?_
    intro tr s l s' _ ih hs
    cases hs with
    | setOld u k v hu _ => exact ih.goes u (fun _ => rfl) (by rw [hu]; rintro _ rfl; rfl)
    | setNew u k v hu _ => exact ih.goes u (fun _ => rfl) (by rw [hu]; rintro _ rfl; rfl)
    | add u k v hu => exact ih.goes u (fun _ => rfl) (by rw [hu]; rintro _ rfl; rfl)
    | store u k v b hu =>
      refine ih.ends u (fun _ => rfl) rfl ?_
      rw [hu]
      cases b <;> rintro _ rfl
      · exact .setOld k v
      · exact .setNew k v
    | removeOld u k hu _ => exact ih.goes u (fun _ => rfl) (by rw [hu]; rintro _ rfl; rfl)
    | removeNone u k hu _ => exact ih.single u (fun _ => rfl) (by rw [hu]; exact fun _ h => h) (.removeNone k)
    | delete u k hu => exact ih.goes u (fun _ => rfl) (by rw [hu]; rintro _ rfl; rfl)
    | subtract u k hu => exact ih.ends u (fun _ => rfl) rfl (by rw [hu]; rintro _ rfl; exact .removeOld k)
    | get u k hu => exact ih.single u (fun _ => rfl) (by rw [hu]; exact fun _ h => h) (.got k _)
    | has u k hu => exact ih.single u (fun _ => rfl) (by rw [hu]; exact fun _ h => h) (.had k _)
    | len u hu => exact ih.single u (fun _ => rfl) (by rw [hu]; exact fun _ h => h) (.len _)
  obtain ⟨rest, h1, h2⟩ := key
  refine ⟨rest, h1, ?_⟩
  cases hp : s.pcs t with
  | idle => rw [hp] at h2; exact .inl ⟨by simp, h2⟩
  | adding k v => rw [hp] at h2; obtain rfl := h2; exact .inr ⟨by simp, by simp, _, by simp, .setNew k v⟩
  | storing k v b =>
    rw [hp] at h2
    cases b <;> obtain rfl := h2
    · exact .inr ⟨by simp, by simp, _, by simp, .setOld k v⟩
    · exact .inr ⟨by simp, by simp, [.stored t k v], by simp, .setNew k v⟩
  | deleting k => rw [hp] at h2; obtain rfl := h2; exact .inr ⟨by simp, by simp, [.deleted t k, .subtracted t k], by simp, .removeOld k⟩
  | subtracting k => rw [hp] at h2; obtain rfl := h2; exact .inr ⟨by simp, by simp, [.subtracted t k], by simp, .removeOld k⟩

/-- Two goroutines set the same new key at the same time. -/
example : ∃ s, Exec Sync.Step (Sync.start Nat) [.set 1 [1] 5, .set 2 [1] 6, .added 1 [1], .added 2 [1], .stored 1 [1] 5] s ∧ s.pcs 2 = .storing [1] 6 true :=
  ⟨_, .cons (.setNew 1 [1] 5 rfl rfl) (.cons (.setNew 2 [1] 6 rfl rfl) (.cons (.add 1 [1] 5 rfl) (.cons (.add 2 [1] 6 rfl)
    (.one (.store 1 [1] 5 true rfl))))), rfl⟩

end

end Verif.Props
