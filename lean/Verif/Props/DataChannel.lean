import Verif.Spec.DataChannel
import Verif.Lemmas.LTS

/-! # C38 – data channels -/

namespace Verif.Props

open Spec DataChan
open Fut (upd)

variable {E : Type}

theorem sentOf_append (t u : List (Ev E)) : sentOf (t ++ u) = sentOf t ++ sentOf u := by
  induction t with
  | nil => rfl
  | cons a t ih => cases a <;> simp [sentOf, ih]

theorem receivedOf_append (t u : List (Ev E)) : receivedOf (t ++ u) = receivedOf t ++ receivedOf u := by
  induction t with
  | nil => rfl
  | cons a t ih => cases a <;> simp [receivedOf, ih]

theorem offeredOf_append (t u : List (Ev E)) : offeredOf (t ++ u) = offeredOf t ++ offeredOf u := by
  induction t with
  | nil => rfl
  | cons a t ih => cases a <;> simp [offeredOf, ih]

/-- C38: at every moment, what has been received and what waits in the buffer is exactly what was sent with success, in order, and the buffer
holds no more than its size. -/
theorem C38_fifo {n : Int} {tr : List (Ev E)} {s : Sys E} (h : Exec Step (new E n) tr s) :
    receivedOf tr ++ s.buf = sentOf tr ∧ (s.buf.length : Int) ≤ max n 0 := by
  have key : receivedOf tr ++ s.buf = sentOf tr ∧ s.buf.length ≤ s.cap ∧ s.cap = n.toNat := by
    refine h.inv (P := fun tr s => receivedOf tr ++ s.buf = sentOf tr ∧ s.buf.length ≤ s.cap ∧ s.cap = n.toNat) ?_ ?_
    · simp [new, receivedOf, sentOf]
    · intro tr s l s' _ ih hs
      obtain ⟨h1, h2, h3⟩ := ih
      have h4 : s.cap = 0 → s.buf = [] := fun h => List.eq_nil_of_length_eq_zero (by omega)
      rw [receivedOf_append, sentOf_append, ← h1]
      cases hs <;> grind [receivedOf, sentOf]
  exact ⟨key.1, by omega⟩

/-- C38: the events received are a prefix of the events sent with success. -/
theorem C38_prefix {n : Int} {tr : List (Ev E)} {s : Sys E} (h : Exec Step (new E n) tr s) : receivedOf tr <+: sentOf tr :=
  ⟨s.buf, (C38_fifo h).1⟩

theorem refusedOf_append (t u : List (Ev E)) : refusedOf (t ++ u) = refusedOf t ++ refusedOf u := by
  induction t with
  | nil => rfl
  | cons a t ih => cases a <;> simp [refusedOf, ih]

/-- C38: nothing is invented: what was sent with success had been passed to `Send`. -/
theorem C38_offered {n : Int} {tr : List (Ev E)} {s : Sys E} (h : Exec Step (new E n) tr s) : ∀ e ∈ sentOf tr, e ∈ offeredOf tr := by
  have key : (∀ e ∈ sentOf tr, e ∈ offeredOf tr) ∧ ∀ i e, s.senders i = some e → e ∈ offeredOf tr := by
    refine h.inv (P := fun tr s => (∀ e ∈ sentOf tr, e ∈ offeredOf tr) ∧ ∀ i e, s.senders i = some e → e ∈ offeredOf tr) ?_ ?_
    · simp [new, sentOf]
    · intro tr s l s' _ ih hs
      rw [sentOf_append, offeredOf_append]
      cases hs <;> grind [sentOf, offeredOf, upd]
  exact key.1

/-- C38: an event whose `Send` reported `Closed` or `Expired` is never received, if each event is passed to `Send` only once. -/
theorem C38_refused {n : Int} {tr : List (Ev E)} {s : Sys E} (h : Exec Step (new E n) tr s) (hd : (offeredOf tr).Nodup) :
    ∀ e ∈ refusedOf tr, e ∉ receivedOf tr := by
  have key : (offeredOf tr).Nodup → (∀ e ∈ sentOf tr, e ∈ offeredOf tr) ∧ (∀ e ∈ refusedOf tr, e ∈ offeredOf tr ∧ e ∉ sentOf tr) ∧
      (∀ i e, s.senders i = some e → e ∈ offeredOf tr ∧ e ∉ sentOf tr ∧ e ∉ refusedOf tr) ∧
      ∀ i j e, s.senders i = some e → s.senders j = some e → i = j := by
    refine h.inv (P := fun tr s => (offeredOf tr).Nodup → (∀ e ∈ sentOf tr, e ∈ offeredOf tr) ∧
      (∀ e ∈ refusedOf tr, e ∈ offeredOf tr ∧ e ∉ sentOf tr) ∧
      (∀ i e, s.senders i = some e → e ∈ offeredOf tr ∧ e ∉ sentOf tr ∧ e ∉ refusedOf tr) ∧
      ∀ i j e, s.senders i = some e → s.senders j = some e → i = j) ?_ ?_
    · simp [new, sentOf, refusedOf]
    · intro tr s l s' _ ih hs hn
      rw [offeredOf_append] at hn
      have hn' := List.nodup_append.1 hn
      have := ih hn'.1
      rw [sentOf_append, offeredOf_append, refusedOf_append]
      cases hs <;> grind [sentOf, offeredOf, refusedOf, upd]
  intro e he hr
  exact ((key hd).2.1 e he).2 ((C38_prefix h).subset hr)

/-- C38: after `Close` has won, no `Receive` waits for events any more: every later call reports `ErrChannelClosed`. -/
theorem C38_closed {n : Int} {tr : List (Ev E)} {s : Sys E} (h : Exec Step (new E n) tr s) (j : Nat) :
    After tr (.recvCall j) (fun before => ∀ k, .closed k ∉ before) ∧ After tr (.recvClosed j) fun before => ∃ k, .closeWon k ∈ before := by
  have inv : ∀ {tr s}, Exec Step (new E n) tr s → (s.flag = true ↔ ∃ k, .closeWon k ∈ tr) ∧ ((∃ k, .closed k ∈ tr) → s.flag = true) ∧
      ∀ k, s.closers k = .closing → s.flag = true := by
    intro tr s h
    refine h.inv (P := fun tr s => (s.flag = true ↔ ∃ k, .closeWon k ∈ tr) ∧ ((∃ k, .closed k ∈ tr) → s.flag = true) ∧
      ∀ k, s.closers k = .closing → s.flag = true) ?_ ?_
    · simp [new]
    · intro tr s l s' _ ih hs
      cases hs <;> grind [upd]
  refine ⟨.of_step h ?_, .of_step h ?_⟩
  · intro tr1 s1 s2 h1 hs k hk
    cases hs with
    | recvCall _ _ _ hf => rw [(inv h1).2.1 ⟨k, hk⟩] at hf; cases hf
  · intro tr1 s1 s2 h1 hs
    cases hs with
    | recvClosed _ _ _ hf => exact (inv h1).1.1 hf

/-- C38: `Close` may be called any number of times from anywhere: nothing crashes. -/
theorem C38_close_safe {n : Int} {tr : List (Ev E)} {s : Sys E} (h : Exec Step (new E n) tr s) : .crash ∉ tr := by
  have key : .crash ∉ tr ∧ (s.closed = true → s.flag = true) ∧ (∀ k, s.closers k = .closing → s.flag = true ∧ s.closed = false) ∧
      ∀ k l, s.closers k = .closing → s.closers l = .closing → k = l := by
    refine h.inv (P := fun tr s => .crash ∉ tr ∧ (s.closed = true → s.flag = true) ∧
      (∀ k, s.closers k = .closing → s.flag = true ∧ s.closed = false) ∧ ∀ k l, s.closers k = .closing → s.closers l = .closing → k = l) ?_ ?_
    · simp [new]
    · intro tr s l s' _ ih hs
      cases hs <;> grind [upd]
  exact key.1

/-- C38: a `Send` can always return, and a `Receive` can whenever the buffer holds something; it then returns the oldest event. -/
theorem C38_progress {n : Int} {tr : List (Ev E)} {s : Sys E} (h : Exec Step (new E n) tr s) :
    (∀ i e, s.senders i = some e → ∃ s', Step s (.expired i e) s') ∧
    ∀ j e rest, s.receivers j = true → s.buf = e :: rest → ∃ s', Step s (.received j e) s' := by
  have hc : s.crashed = false := by
    have key : s.crashed = true → .crash ∈ tr := by
      refine h.inv (P := fun tr s => s.crashed = true → .crash ∈ tr) ?_ ?_
      · simp [new]
      · intro tr s l s' _ ih hs
        cases hs <;> grind
    cases hx : s.crashed
    · rfl
    · exact absurd (key hx) (C38_close_safe h)
  exact ⟨fun i e he => ⟨_, .expired i e hc he⟩, fun j e rest hj hb => ⟨_, .received j e rest hc hj hb⟩⟩

/-- C38: `Close` does not wake a `Receive` that is waiting already. On an unbuffered channel without senders it waits for ever. -/
theorem C38_not_woken : ∃ s : Sys E, Exec Step (new E 0) [.recvCall 1, .closeWon 0, .closed 0] s ∧ s.receivers 1 = true ∧
    ∀ tr s', Exec Step s tr s' → (∀ i e, .sendCall i e ∉ tr) → s'.receivers 1 = true := by
  refine ⟨_, .cons (.recvCall 1 rfl rfl rfl) (.cons (.closeWon 0 rfl rfl rfl) (.one (.close 0 rfl rfl rfl))), rfl, ?_⟩
  intro tr s' h hn
  have key : (∀ i e, .sendCall i e ∉ tr) → s'.receivers 1 = true ∧ s'.buf = [] ∧ ∀ i, s'.senders i = none := by
    refine h.inv (P := fun tr s => (∀ i e, .sendCall i e ∉ tr) → s.receivers 1 = true ∧ s.buf = [] ∧ ∀ i, s.senders i = none) ?_ ?_
    · intro _; exact ⟨rfl, rfl, fun _ => rfl⟩
    · intro tr s l s' _ ih hs hn
      have := ih fun i e hx => hn i e (by simp [hx])
      cases hs <;> grind [upd]
  exact (key hn).1

/-- C38: a `Send` after `Close` may report `Success` (a buffer has room); the event is then never received unless some `Receive` was waiting
already. -/
theorem C38_lost (e : E) : ∃ s : Sys E, Exec Step (new E 1) [.closeWon 0, .closed 0, .sendCall 7 e, .sent 7 e] s ∧
    ∀ tr s', Exec Step s tr s' → receivedOf tr = [] := by
  refine ⟨_, .cons (.closeWon 0 rfl rfl rfl) (.cons (.close 0 rfl rfl rfl) (.cons (.sendCall 7 e rfl rfl) (.one (.sent 7 e rfl rfl (show 0 < 1 from Nat.one_pos))))), ?_⟩
  intro tr s' h
  have key : receivedOf tr = [] ∧ s'.flag = true ∧ ∀ j, s'.receivers j = false := by
    refine h.inv (P := fun tr s => receivedOf tr = [] ∧ s.flag = true ∧ ∀ j, s.receivers j = false) ?_ ?_
    · exact ⟨rfl, rfl, fun _ => rfl⟩
    · intro tr s l s' _ ih hs
      rw [receivedOf_append]
      cases hs <;> grind [receivedOf, upd]
  exact key.1

/-- Two senders and two receivers on a buffer of two; one send expires. -/
example : ∃ s : Sys Nat, Exec Step (new Nat 2) [.sendCall 0 10, .sendCall 1 11, .recvCall 5, .sent 1 11, .received 5 11, .sent 0 10, .sendCall 0 12,
    .expired 0 12, .recvCall 6, .received 6 10] s ∧ s.buf = [] :=
  ⟨_, .cons (.sendCall 0 10 rfl rfl) (.cons (.sendCall 1 11 rfl rfl) (.cons (.recvCall 5 rfl rfl rfl) (.cons (.sent 1 11 rfl rfl (by decide))
    (.cons (.received 5 11 [] rfl rfl rfl) (.cons (.sent 0 10 rfl rfl (by decide)) (.cons (.sendCall 0 12 rfl rfl) (.cons (.expired 0 12 rfl rfl)
    (.cons (.recvCall 6 rfl rfl rfl) (.one (.received 6 10 [] rfl rfl rfl)))))))))), rfl⟩

/-- The unbuffered channel, closed while a send is pending. -/
example : ∃ s : Sys Nat, Exec Step (new Nat (-3)) [.recvCall 5, .sendCall 0 10, .handed 0 10 5, .sendCall 0 11, .closeWon 2, .recvClosed 5, .closed 2,
    .sendClosed 0 11] s ∧ (offeredOf [.recvCall 5, .sendCall 0 10, .handed 0 10 5, .sendCall 0 11]).Nodup :=
  ⟨_, .cons (.recvCall 5 rfl rfl rfl) (.cons (.sendCall 0 10 rfl rfl) (.cons (.handed 0 10 5 rfl rfl rfl rfl) (.cons (.sendCall 0 11 rfl rfl)
    (.cons (.closeWon 2 rfl rfl rfl) (.cons (.recvClosed 5 rfl rfl rfl) (.cons (.close 2 rfl rfl rfl) (.one (.sendClosed 0 11 rfl rfl rfl)))))))),
    by decide⟩

end Verif.Props
