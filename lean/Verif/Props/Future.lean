import Verif.Model.Future
import Verif.Lemmas.LTS

/-! # C37 – futures -/

namespace Verif.Props

open Spec Fut

variable {V : Type}

/-- What holds in every reachable state. -/
structure FutInv (tr : List (Ev V)) (s : Sys V) : Prop where
  result : ∀ v, s.result = some v → .taskReturns v ∈ tr
  running : s.runner = .running ↔ s.result = none
  once : ∀ v, .taskReturns v ∈ tr → s.result = some v
  done : s.done = true → s.runner = .finished
  ready : ∀ i, s.waiters i = .ready → s.done = true
  cancelled : s.cancelled = true ↔ ∃ i, .cancelOk i ∈ tr
  over : s.runner = .finished → s.done = true ∨ s.cancelled = true

theorem futInv {tr : List (Ev V)} {s : Sys V} (h : Exec Step (new V) tr s) : FutInv tr s := by
  refine h.inv (P := FutInv) ?_ ?_
  · exact ⟨by simp [new], by simp [new], by simp, by simp [new], by simp [new], by simp [new], by simp [new]⟩
  · intro tr s l s' _ ih hs
    obtain ⟨i1, i2, i3, i4, i5, i6, i7⟩ := ih
    cases hs <;> constructor <;> grind [upd]

/-- C37: a `Get` that succeeds returns exactly what the task returned, and the task returned before. -/
theorem C37_get {tr : List (Ev V)} {s : Sys V} (h : Exec Step (new V) tr s) (i : Nat) (x : Option V) :
    After tr (.got i x) fun before => ∃ v, x = some v ∧ .taskReturns v ∈ before := by
  refine .of_step h ?_
  intro tr1 s1 s2 h1 hs
  have inv := futInv h1
  cases hs with
  | got _ _ hw =>
    have hf := inv.done (inv.ready i hw)
    cases hr : s1.result with
    | none => rw [inv.running.2 hr] at hf; cases hf
    | some v => exact ⟨v, rfl, inv.result v hr⟩

/-- C37: a `Wait` or `WaitFor` that succeeds does so after the task has returned. -/
theorem C37_wait {tr : List (Ev V)} {s : Sys V} (h : Exec Step (new V) tr s) (i : Nat) :
    After tr (.waited i) fun before => ∃ v, .taskReturns v ∈ before := by
  refine .of_step h ?_
  intro tr1 s1 s2 h1 hs
  have inv := futInv h1
  cases hs with
  | waited _ _ hw hd =>
    have hf := inv.done hd
    cases hr : s1.result with
    | none => rw [inv.running.2 hr] at hf; cases hf
    | some v => exact ⟨v, inv.result v hr⟩

/-- C37: the task's result is unique. -/
theorem C37_once {tr : List (Ev V)} {s : Sys V} (h : Exec Step (new V) tr s) {v w : V} (hv : .taskReturns v ∈ tr) (hw : .taskReturns w ∈ tr) :
    v = w := by
  have inv := futInv h
  have := (inv.once v hv).symm.trans (inv.once w hw)
  exact Option.some.inj this

/-- C37: cancellation is reported only after some `Cancel` closed the channel; that `Cancel` is the one that returns nil. -/
theorem C37_cancelled {tr : List (Ev V)} {s : Sys V} (h : Exec Step (new V) tr s) (i : Nat) :
    After tr (.sawCancel i) fun before => ∃ j, .cancelOk j ∈ before := by
  refine .of_step h ?_
  intro tr1 s1 s2 h1 hs
  have inv := futInv h1
  cases hs with
  | sawCancel _ _ _ hc => exact inv.cancelled.1 hc

/-- C37: `Cancel` reports `ErrCancelled` only after another `Cancel` succeeded, `ErrFulfilled` only after the task returned. -/
theorem C37_cancel_errors {tr : List (Ev V)} {s : Sys V} (h : Exec Step (new V) tr s) (i : Nat) :
    After tr (.cancelAlready i) (fun before => ∃ j, .cancelOk j ∈ before) ∧
    After tr (.cancelFulfilled i) (fun before => ∃ v, .taskReturns v ∈ before) := by
  refine ⟨.of_step h ?_, .of_step h ?_⟩
  · intro tr1 s1 s2 h1 hs
    cases hs with
    | cancelAlready _ _ _ hc => exact (futInv h1).cancelled.1 hc
  · intro tr1 s1 s2 h1 hs
    have inv := futInv h1
    cases hs with
    | cancelFulfilled _ _ _ hd =>
      have hf := inv.done hd
      cases hr : s1.result with
      | none => rw [inv.running.2 hr] at hf; cases hf
      | some v => exact ⟨v, inv.result v hr⟩

/-- C37: at most one `Cancel` succeeds. -/
theorem C37_cancel_once {tr : List (Ev V)} {s : Sys V} (h : Exec Step (new V) tr s) (i : Nat) :
    After tr (.cancelOk i) fun before => ∀ j, .cancelOk j ∉ before := by
  refine .of_step h ?_
  intro tr1 s1 s2 h1 hs j hj
  cases hs with
  | cancelOk _ _ _ hc => rw [(futInv h1).cancelled.2 ⟨j, hj⟩] at hc; cases hc

/-- C37: once the task's goroutine has ended nobody waits in vain: every `Get`, `Wait` and `WaitFor` can return. -/
theorem C37_wakes {tr : List (Ev V)} {s : Sys V} (h : Exec Step (new V) tr s) (hc : s.crashed = false) (hr : s.runner = .finished) (i : Nat)
    (hw : s.waiters i ≠ .idle) : ∃ e s', Step s e s' ∧ (e = .pass i ∨ (∃ x, e = .got i x) ∨ e = .waited i ∨ e = .sawCancel i) := by
  cases hx : s.waiters i with
  | idle => exact absurd hx hw
  | ready => exact ⟨_, _, .got i hc hx, .inr (.inl ⟨_, rfl⟩)⟩
  | inGet =>
    rcases (futInv h).over hr with hd | hd
    · exact ⟨_, _, .pass i hc hx hd, .inl rfl⟩
    · exact ⟨_, _, .sawCancel i hc (.inl hx) hd, .inr (.inr (.inr rfl))⟩
  | inWait =>
    rcases (futInv h).over hr with hd | hd
    · exact ⟨_, _, .waited i hc (.inl hx) hd, .inr (.inr (.inl rfl))⟩
    · exact ⟨_, _, .sawCancel i hc (.inr (.inl hx)) hd, .inr (.inr (.inr rfl))⟩
  | inWaitFor =>
    rcases (futInv h).over hr with hd | hd
    · exact ⟨_, _, .waited i hc (.inr hx) hd, .inr (.inr (.inl rfl))⟩
    · exact ⟨_, _, .sawCancel i hc (.inr (.inr hx)) hd, .inr (.inr (.inr rfl))⟩

/-- How many steps the goroutine has made at most since the task returned. -/
def ownSteps : Runner → Nat
  | .running | .stored => 0
  | .closing => 1
  | .finished => 2

/-- C37: once the task has returned its goroutine ends by itself in at most two steps, whatever the others do, and unless the future was
cancelled by then it is fulfilled. -/
theorem C37_ends {tr : List (Ev V)} {s : Sys V} (h : Exec Step (new V) tr s) (hc : s.crashed = false) {v : V} (hv : .taskReturns v ∈ tr) :
    (tr.countP fun e => e matches .runner) ≤ 2 ∧
    ∃ n s', Exec Step s (List.replicate n .runner) s' ∧ s'.runner = .finished ∧ (s.cancelled = false → s'.done = true) := by
  have inv := futInv h
  constructor
  · have key : (tr.countP fun e => e matches .runner) ≤ ownSteps s.runner := by
      refine h.inv (P := fun tr s => (tr.countP fun e => e matches .runner) ≤ ownSteps s.runner) (by simp [new]) ?_
      intro tr s l s' _ ih hs
      rw [List.countP_append]
      generalize (tr.countP fun e => e matches .runner) = c at ih ⊢
      cases hs <;> simp_all [ownSteps]
    refine Nat.le_trans key ?_
    cases s.runner <;> simp [ownSteps]
  · have hr : s.runner ≠ .running := by
      intro e
      have := inv.once v hv
      rw [inv.running.1 e] at this; cases this
    cases hx : s.runner with
    | running => exact absurd hx hr
    | stored =>
      cases hk : s.cancelled with
      | true => exact ⟨1, _, .one (.late hc hx hk), rfl, by simp⟩
      | false =>
        have hd : s.done = false := by
          cases hd : s.done with
          | false => rfl
          | true => rw [inv.done hd] at hx; cases hx
        exact ⟨2, _, .cons (.decide hc hx hk) (.one (.finish hc rfl hd)), rfl, fun _ => rfl⟩
    | closing =>
      have hd : s.done = false := by
        cases hd : s.done with
        | false => rfl
        | true => rw [inv.done hd] at hx; cases hx
      exact ⟨1, _, .one (.finish hc hx hd), rfl, fun _ => rfl⟩
    | finished =>
      refine ⟨0, s, .nil, hx, fun hk => ?_⟩
      rcases inv.over hx with hd | hd
      · exact hd
      · rw [hk] at hd; cases hd

/-- C37: with one canceller (calling as often as it likes) no interleaving crashes. -/
theorem C37_one_canceller {tr : List (Ev V)} {s : Sys V} (h : Exec Step (new V) tr s) (h1 : ∀ i, .cancelCall i ∈ tr → i = 0) :
    .crash ∉ tr ∧ s.crashed = false := by
  have key : (∀ i, .cancelCall i ∈ tr → i = 0) → .crash ∉ tr ∧ s.crashed = false ∧ (∀ i, s.cancellers i = .closing → i = 0 ∧ s.cancelled = false) ∧
      (s.runner ≠ .finished → s.done = false) := by
    refine h.inv (P := fun tr s => (∀ i, .cancelCall i ∈ tr → i = 0) → .crash ∉ tr ∧ s.crashed = false ∧
      (∀ i, s.cancellers i = .closing → i = 0 ∧ s.cancelled = false) ∧ (s.runner ≠ .finished → s.done = false)) ?_ ?_
    · simp [new]
    · intro tr s l s' _ ih hs hi
      have := ih fun i hx => hi i (by simp [hx])
      cases hs <;> grind [upd]
  exact ⟨(key h1).1, (key h1).2.1⟩

/-- The full claim without the restriction to one canceller. -/
def NeverCrashes (V : Type) : Prop := ∀ (tr : List (Ev V)) (s : Sys V), Exec Step (new V) tr s → s.crashed = false

/-- C37 is false for two cancellers: both can pass the `select` before either closes the channel. -/
theorem C37_false (V : Type) : ¬ NeverCrashes V := by
  intro h
  have e : Exec Step (new V) [.cancelCall 0, .cancelCall 1, .cancelOk 0, .crash] _ :=
    .cons (.cancelCall 0 rfl rfl rfl rfl) (.cons (.cancelCall 1 rfl rfl rfl rfl) (.cons (.cancelOk 0 rfl rfl rfl) (.one (.cancelCrash 1 rfl rfl rfl))))
  cases h _ _ e

/-- C37: a crash is the last thing that happens: it takes the whole process with it. Two cancellers are at it that both got past the `select`, one of them
has succeeded. -/
theorem C37_dead {before after : List (Ev V)} {s : Sys V} (h : Exec Step (new V) (before ++ .crash :: after) s) :
    after = [] ∧ ∃ i j, i ≠ j ∧ .cancelOk i ∈ before ∧ .cancelCall j ∈ before := by
  refine ⟨h.last (fun s => s.crashed = true) (fun s s' hs => by cases hs <;> rfl) fun s l s' hc hs => by cases hs <;> simp_all, ?_⟩
  rw [List.append_cons] at h
  obtain ⟨s1, h1, -⟩ := h.split
  obtain ⟨s2, h2, h3⟩ := h1.split_snoc
  have key : (∀ j, s2.cancellers j = .closing → .cancelCall j ∈ before ∧ .cancelOk j ∉ before) ∧ (∀ i, .cancelOk i ∈ before → s2.cancelled = true) ∧
      (s2.cancelled = true → ∃ i, .cancelOk i ∈ before) ∧ (s2.runner ≠ .finished → s2.done = false) := by
    refine h2.inv (P := fun before s2 => (∀ j, s2.cancellers j = .closing → .cancelCall j ∈ before ∧ .cancelOk j ∉ before) ∧
      (∀ i, .cancelOk i ∈ before → s2.cancelled = true) ∧ (s2.cancelled = true → ∃ i, .cancelOk i ∈ before) ∧ (s2.runner ≠ .finished → s2.done = false)) ?_ ?_
    · simp [new]
    · intro tr s l s' _ ih hs
      cases hs <;> grind [upd]
  cases h3 with
  | finishCrash _ hr hd => simp [key.2.2.2 (by rw [hr]; simp)] at hd
  | cancelCrash j _ hj hc =>
    obtain ⟨i, hi⟩ := key.2.2.1 hc
    obtain ⟨h1, h2⟩ := key.1 j hj
    exact ⟨i, j, fun e => h2 (e ▸ hi), hi, h1⟩

/-- C37: a race the documentation does not mention. `Cancel` can succeed although the task has finished and a `Get` then succeeds. -/
theorem C37_both (v : V) : ∃ s, Exec Step (new V) [.taskReturns v, .cancelCall 0, .runner, .cancelOk 0, .runner, .call 1 .inGet, .pass 1, .got 1 (some v),
    .call 1 .inGet, .sawCancel 1] s := by
  exact ⟨_, .cons (.task v rfl rfl) (.cons (.cancelCall 0 rfl rfl rfl rfl) (.cons (.decide rfl rfl rfl) (.cons (.cancelOk 0 rfl rfl rfl)
    (.cons (.finish rfl rfl rfl) (.cons (.call 1 .inGet rfl rfl (.inl rfl)) (.cons (.pass 1 rfl rfl rfl) (.cons (.got 1 rfl rfl)
    (.cons (.call 1 .inGet rfl rfl (.inl rfl)) (.one (.sawCancel 1 rfl (.inl rfl) rfl))))))))))⟩

/-- An ordinary execution: a `Get` called before the task returns, a `Cancel` that comes too late. -/
example : ∃ s, Exec Step (new Nat) [.call 3 .inGet, .taskReturns 42, .runner, .runner, .cancelFulfilled 0, .pass 3, .got 3 (some 42)] s ∧
    s.runner = .finished :=
  ⟨_, .cons (.call 3 .inGet rfl rfl (.inl rfl)) (.cons (.task 42 rfl rfl) (.cons (.decide rfl rfl rfl) (.cons (.finish rfl rfl rfl)
    (.cons (.cancelFulfilled 0 rfl rfl rfl) (.cons (.pass 3 rfl rfl rfl) (.one (.got 3 rfl rfl))))))), rfl⟩

/-- The hypothesis of `C37_dead`. -/
example : ∃ s, Exec Step (new Nat) ([.cancelCall 0, .cancelCall 1, .cancelOk 0] ++ .crash :: []) s :=
  ⟨_, .cons (.cancelCall 0 rfl rfl rfl rfl) (.cons (.cancelCall 1 rfl rfl rfl rfl) (.cons (.cancelOk 0 rfl rfl rfl) (.one (.cancelCrash 1 rfl rfl rfl))))⟩

/-- A cancelled execution. -/
example : ∃ s, Exec Step (new Nat) [.call 3 .inWaitFor, .cancelCall 0, .cancelOk 0, .sawCancel 3, .cancelAlready 0, .taskReturns 42, .runner] s :=
  ⟨_, .cons (.call 3 .inWaitFor rfl rfl (.inr (.inr rfl))) (.cons (.cancelCall 0 rfl rfl rfl rfl) (.cons (.cancelOk 0 rfl rfl rfl)
    (.cons (.sawCancel 3 rfl (.inr (.inr rfl)) rfl) (.cons (.cancelAlready 0 rfl rfl rfl) (.cons (.task 42 rfl rfl) (.one (.late rfl rfl rfl)))))))⟩

end Verif.Props
