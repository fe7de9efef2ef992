import Verif.Lemmas.Conn
import Verif.Lemmas.Calls

/-! # C44, C45 – connections -/

namespace Verif.Props

open Spec Conn
open Fut (upd)

theorem reads_ne : Conn.Client.reads ≠ .stalled := by decide

theorem reads_ne' : Conn.Client.reads ≠ .gone := by decide

/-- C45: at most one `Close` wins, at most one returns success, and then only the winner; the farewell is sent at most once and the socket closed
at most once; the close signal is never closed twice. -/
theorem C45_once {tr : List Conn.Ev} {s : Conn.Sys} (h : Exec Conn.Step Conn.new tr s) (i : Nat) :
    (After tr (.closeWon i) fun before => ∀ j, .closeWon j ∉ before) ∧
    (After tr (.closed i) fun before => (∀ j, .closed j ∉ before) ∧ .sockClosed i ∈ before) ∧
    (After tr (.farewell i) fun before => (∀ j, .farewell j ∉ before) ∧ .closeWon i ∈ before) ∧
    (After tr (.sockClosed i) fun before => (∀ j, .sockClosed j ∉ before) ∧ (.farewell i ∈ before ∨ .farewellErr i ∈ before)) ∧
    .crash ∉ tr ∧ s.out.count .farewell ≤ 1 := by
  have inv := connInv h
  refine ⟨.of_step h ?_, .of_step h ?_, .of_step h ?_, .of_step h ?_, inv.crash, inv.count⟩ <;> intro tr1 s1 s2 h1 hs <;> have inv := connInv h1
  · cases hs with
    | closeWon _ hp hf => intro j hj; rw [inv.flag.2 ⟨j, hj⟩] at hf; cases hf
  · cases hs with
    | chanClose _ hp hc => exact ⟨fun j hj => by simp [inv.chan.2 ⟨j, hj⟩] at hc, inv.shutBy i hp⟩
  · cases hs with
    | farewell _ hp _ _ => exact ⟨fun j => ((inv.said i hp).2.2 j).1, inv.won i (by simp [hp, Conn.closing])⟩
  · cases hs with
    | sockClose _ hp =>
      have := inv.shut i hp
      exact ⟨fun j hj => by simp [inv.sock.2 ⟨j, hj⟩] at this, this.2.2⟩

/-- C45: a `Close` that reports `ErrConnIsClosed` lost to one that won before. -/
theorem C45_lost {tr : List Conn.Ev} {s : Conn.Sys} (h : Exec Conn.Step Conn.new tr s) (i : Nat) :
    After tr (.closeLost i) fun before => ∃ j, .closeWon j ∈ before := by
  refine .of_step h ?_
  intro tr1 s1 s2 h1 hs
  cases hs with
  | closeLost _ hp hf => exact (connInv h1).flag.1 hf

/-- C45: nothing is written once the socket is closed. -/
theorem C45_silent {tr : List Conn.Ev} {s : Conn.Sys} (h : Exec Conn.Step Conn.new tr s) (i : Nat) (m : Bytes) :
    (After tr (.wrote i m) fun before => ∀ j, .sockClosed j ∉ before) ∧ After tr (.farewell i) fun before => ∀ j, .sockClosed j ∉ before := by
  refine ⟨.of_step h ?_, .of_step h ?_⟩ <;> intro tr1 s1 s2 h1 hs j hj <;> have hk := (connInv h1).sock.2 ⟨j, hj⟩
  · cases hs with
    | wrote _ _ hp hf _ => rw [hk] at hf; cases hf
  · cases hs with
    | farewell _ hp hf _ => rw [hk] at hf; cases hf

/-- C45: what is on the wire are the texts written in full, in this order; only when the client has gone away can there be parts of texts as well, and
each of them is the beginning of a text whose writing failed. -/
theorem C45_wire {tr : List Conn.Ev} {s : Conn.Sys} (h : Exec Conn.Step Conn.new tr s) :
    s.out.filter Conn.whole = Conn.written tr ∧
    ∀ p, .part p ∈ s.out → .client .gone ∈ tr ∧ ∃ i m, p <+: m ∧ (.writeErr i m ∈ tr ∨ .farewellErr i ∈ tr ∧ m = b!"TTL expired") := by
  have h0 : s.out.filter Conn.whole = Conn.written tr ∧ (s.client = .gone → .client .gone ∈ tr) ∧
      ∀ p, .part p ∈ s.out → .client .gone ∈ tr ∧ ∃ i m, p <+: m ∧ (.writeErr i m ∈ tr ∨ .farewellErr i ∈ tr ∧ m = b!"TTL expired") := by
    refine h.inv (P := fun tr s => s.out.filter Conn.whole = Conn.written tr ∧ (s.client = .gone → .client .gone ∈ tr) ∧
      ∀ p, .part p ∈ s.out → .client .gone ∈ tr ∧ ∃ i m, p <+: m ∧ (.writeErr i m ∈ tr ∨ .farewellErr i ∈ tr ∧ m = b!"TTL expired"))
      ⟨rfl, by simp [Conn.new], by simp [Conn.new]⟩ ?_
    rintro tr s l s' - ⟨h1, h2, h3⟩ hs
    refine ⟨?_, by cases hs <;> grind, ?_⟩
    · simp only [Conn.written, List.filterMap_append] at h1 ⊢
      cases hs <;> simp [Conn.whole, h1]
    · intro p hp
      cases hs with
      | writePart i m p' _ hg hpre =>
        simp only [List.mem_append, List.mem_singleton, Out.part.injEq] at hp
        rcases hp with hp | rfl
        · grind
        · exact ⟨by simp [h2 hg], i, m, hpre, by simp⟩
      | farewellPart i p' _ hg hpre =>
        simp only [List.mem_append, List.mem_singleton, Out.part.injEq] at hp
        rcases hp with hp | rfl
        · grind
        · exact ⟨by simp [h2 hg], i, _, hpre, by simp [closeMessage]⟩
      | _ => grind
  exact ⟨h0.1, h0.2.2⟩

/-- A reply of which three bytes are out when the client goes away, and then the farewell. -/
example : ∃ s, Exec Conn.Step Conn.new [.writeCall 1 b!"$1\r\na\r\n", .writeReset 1, .client .gone, .writeErr 1 b!"$1\r\na\r\n", .expired, .closeWon 0, .farewell 0] s ∧
    s.out = [.part b!"$1\r", .farewell] :=
  ⟨_, .cons (.writeCall 1 _ (by decide) rfl rfl) (.cons (.writeReset 1 _ rfl rfl) (.cons (.client .gone reads_ne') (.cons (.writePart 1 _ b!"$1\r" rfl rfl (by decide))
    (.cons (.expire rfl) (.cons (.closeWon 0 rfl rfl) (.one (.farewell 0 rfl rfl (by decide)))))))), rfl⟩

/-- C45: the winner always goes on to the end, unless the client has stopped reading. -/
theorem C45_progress {tr : List Conn.Ev} {s : Conn.Sys} (h : Exec Conn.Step Conn.new tr s) {i : Nat} (hi : Conn.closing (s.pcs i) = true)
    (hc : s.client ≠ .stalled) : ∃ e s', Conn.Step s e s' ∧ (e = .farewell i ∨ e = .sockClosed i ∨ e = .closed i) := by
  have inv := connInv h
  cases hp : s.pcs i <;> simp [hp, Conn.closing] at hi
  · exact ⟨_, _, .farewell i hp (inv.said i hp).1 hc, .inl rfl⟩
  · exact ⟨_, _, .sockClose i hp, .inr (.inl rfl)⟩
  · exact ⟨_, _, .chanClose i hp (inv.left i hp).1, .inr (.inr rfl)⟩

/-- Two closers and the expire worker. -/
example : ∃ s, Exec Conn.Step Conn.new
    [.closeCall 2, .closeCall 3, .closeWon 3, .closeLost 2, .expired, .farewell 3, .closeLost 0, .sockClosed 3, .closed 3] s :=
  ⟨_, .cons (.closeCall 2 (by decide) rfl) (.cons (.closeCall 3 (by decide) rfl) (.cons (.closeWon 3 rfl rfl) (.cons (.closeLost 2 rfl rfl)
    (.cons (.expire rfl) (.cons (.farewell 3 rfl rfl reads_ne) (.cons (.closeLost 0 rfl rfl) (.cons (.sockClose 3 rfl) (.one (.chanClose 3 rfl rfl)))))))))⟩

/-- C45: the farewell need not come last; a reply under way can follow it. -/
theorem C45_not_last (m : Bytes) : ∃ tr s, Exec Conn.Step Conn.new tr s ∧ s.out = [.farewell, .reply m] :=
  ⟨_, _, .cons (.writeCall 1 m (by decide) rfl rfl) (.cons (.writeReset 1 m rfl rfl) (.cons (.closeCall 2 (by decide) rfl) (.cons (.closeWon 2 rfl rfl)
    (.cons (.farewell 2 rfl rfl reads_ne) (.one (.wrote 1 m rfl rfl reads_ne)))))), rfl⟩

/-- How far goroutine `i` has come in its call. -/
def ConnCourse (i : Nat) : Conn.Pc → List Conn.Ev → Prop
  | .idle, l => l = []
  | .readReset, l => l = [.readCall i]
  | .reading, l => l = [.readCall i, .readReset i]
  | .writeReset m, l => l = [.writeCall i m]
  | .writing m, l => l = [.writeCall i m, .writeReset i]
  | .closeStart, l => ∃ c, (c = .closeCall i ∨ i = 0 ∧ c = .expired) ∧ l = [c]
  | .farewell, l => ∃ c, (c = .closeCall i ∨ i = 0 ∧ c = .expired) ∧ l = [c, .closeWon i]
  | .sockClose, l => ∃ c f, (c = .closeCall i ∨ i = 0 ∧ c = .expired) ∧ (f = .farewell i ∨ f = .farewellErr i) ∧ l = [c, .closeWon i, f]
  | .chanClose, l => ∃ c f, (c = .closeCall i ∨ i = 0 ∧ c = .expired) ∧ (f = .farewell i ∨ f = .farewellErr i) ∧
      l = [c, .closeWon i, f, .sockClosed i]

/-- Goroutine `i` has made whole calls, and is at `pc`. -/
abbrev ConnCalls (i : Nat) (tr : List Conn.Ev) (pc : Conn.Pc) : Prop := CallsAt (fun i e => decide (Conn.actor e = some i)) WholeCall ConnCourse i tr pc

theorem actor_eq {e : Conn.Ev} {j : Nat} (h : Conn.actor e = some j) (k : Nat) : decide (Conn.actor e = some k) = decide (k = j) := by
  rw [h]
  simp [eq_comm]

theorem connCalls {tr : List Conn.Ev} {s : Conn.Sys} (h : Exec Conn.Step Conn.new tr s) (i : Nat) : ConnCalls i tr (s.pcs i) := by
  have h0 : ConnCalls i tr (s.pcs i) ∧ (s.worker = .selecting → s.pcs 0 = .idle) := by
    refine h.inv (P := fun tr s => ConnCalls i tr (s.pcs i) ∧ (s.worker = .selecting → s.pcs 0 = .idle))
      ⟨.nil (by exact rfl), fun _ => rfl⟩ ?_
    intro tr s l s' _ ih hs
    refine ⟨?_, by cases hs <;> grind [upd]⟩
    obtain ⟨ih, hw⟩ := ih
    cases hs with
    | readCall j hj hp => exact ih.goes j (actor_eq rfl) (by rw [hp]; rintro rest rfl; rfl)
    | readReset j hp _ => exact ih.goes j (actor_eq rfl) (by rw [hp]; rintro rest rfl; rfl)
    | read j hp => exact ih.ends j (actor_eq rfl) rfl (by rw [hp]; rintro rest rfl; exact .read)
    | readErr j hp => exact ih.ends j (actor_eq rfl) rfl (by rw [hp]; rintro rest rfl; exact .readErr)
    | writeClosed j m hj hp _ =>
      exact ih.single j (actor_eq rfl) (by rw [hp]; exact fun _ h => h) (.refused m)
    | writeCall j m hj hp _ => exact ih.goes j (actor_eq rfl) (by rw [hp]; rintro rest rfl; rfl)
    | writeReset j m hp _ => exact ih.goes j (actor_eq rfl) (by rw [hp]; rintro rest rfl; rfl)
    | wrote j m hp _ _ => exact ih.ends j (actor_eq rfl) rfl (by rw [hp]; rintro rest rfl; exact .wrote m)
    | writeErr j m hp _ | writePart j m _ hp _ _ => exact ih.ends j (actor_eq rfl) rfl (by rw [hp]; rintro rest rfl; exact .writeErr m)
    | closeCall j hj hp => exact ih.goes j (actor_eq rfl) (by rw [hp]; rintro rest rfl; exact ⟨_, .inl rfl, rfl⟩)
    | closeWon j hp _ => exact ih.goes j (actor_eq rfl) (by rw [hp]; rintro rest ⟨c, hc, rfl⟩; exact ⟨c, hc, rfl⟩)
    | closeLost j hp _ => exact ih.ends j (actor_eq rfl) rfl (by rw [hp]; rintro rest ⟨c, hc, rfl⟩; exact .lost c hc)
    | farewell j hp _ _ => exact ih.goes j (actor_eq rfl) (by rw [hp]; rintro rest ⟨c, hc, rfl⟩; exact ⟨c, _, hc, .inl rfl, rfl⟩)
    | farewellErr j hp _ | farewellPart j _ hp _ _ => exact ih.goes j (actor_eq rfl) (by rw [hp]; rintro rest ⟨c, hc, rfl⟩; exact ⟨c, _, hc, .inr rfl, rfl⟩)
    | sockClose j hp => exact ih.goes j (actor_eq rfl) (by rw [hp]; rintro rest ⟨c, f, hc, hf, rfl⟩; exact ⟨c, f, hc, hf, rfl⟩)
    | chanClose j hp _ => exact ih.ends j (actor_eq rfl) rfl (by rw [hp]; rintro rest ⟨c, f, hc, hf, rfl⟩; exact .closed c f hc hf)
    | crash j _ _ => exact ih.other (by simp [Conn.actor])
    | expire hx => exact ih.goes 0 (actor_eq rfl) (by rw [hw hx]; rintro rest rfl; exact ⟨_, .inr ⟨rfl, rfl⟩, rfl⟩)
    | workerLeft _ _ => exact ih.other (by simp [Conn.actor])
    | client c _ => exact ih.other (by simp [Conn.actor])
  exact h0.1

/-- C45: whatever the others do, what one goroutine does to a connection is a sequence of whole calls, the last one possibly under way: a
`Read` resets the timer and then reads, a `Write` is refused or resets the timer and then writes, a `Close` loses or sends the farewell, closes
the socket and then tells the expire worker. A goroutine that is not in a call has finished all its calls. -/
theorem C45_calls {tr : List Conn.Ev} {s : Conn.Sys} (h : Exec Conn.Step Conn.new tr s) (i : Nat) :
    InCalls (fun e => decide (Conn.actor e = some i)) (WholeCall i) tr (s.pcs i = .idle) := by
  obtain ⟨rest, h1, h3⟩ := connCalls h i
  refine ⟨rest, h1, ?_⟩
  cases hp : s.pcs i <;> rw [hp] at h3 <;> simp only [ConnCourse] at h3
  · exact .inl ⟨rfl, h3⟩
  · subst h3; exact .inr ⟨by simp, by simp, _, by simp, .read⟩
  · subst h3; exact .inr ⟨by simp, by simp, _, by simp, .read⟩
  · subst h3; exact .inr ⟨by simp, by simp, _, by simp, .wrote _⟩
  · subst h3; exact .inr ⟨by simp, by simp, _, by simp, .wrote _⟩
  · obtain ⟨c, hc, rfl⟩ := h3; exact .inr ⟨by simp, by simp, _, by simp, .lost c hc⟩
  · obtain ⟨c, hc, rfl⟩ := h3; exact .inr ⟨by simp, by simp, _, by simp, .closed c _ hc (.inl rfl)⟩
  · obtain ⟨c, f, hc, hf, rfl⟩ := h3; exact .inr ⟨by simp, by simp, [.sockClosed i, .closed i], by simp, .closed c f hc hf⟩
  · obtain ⟨c, f, hc, hf, rfl⟩ := h3; exact .inr ⟨by simp, by simp, [.closed i], by simp, .closed c f hc hf⟩

/-- A read that finds the connection at an end, between the steps of a `Close` by the same client. -/
example : ∃ s, Exec Conn.Step Conn.new [.readCall 3, .closeCall 2, .readReset 3, .closeWon 2, .readErr 3] s ∧
    [.readCall 3, .closeCall 2, .readReset 3, .closeWon 2, .readErr 3].filter (fun e => decide (Conn.actor e = some 3)) = [.readCall 3, .readReset 3, .readErr 3] :=
  ⟨_, .cons (.readCall 3 (by decide) rfl) (.cons (.closeCall 2 (by decide) rfl) (.cons (.readReset 3 rfl rfl) (.cons (.closeWon 2 rfl rfl)
    (.one (.readErr 3 rfl))))), by decide⟩

/-! ## C44 -/

/-- The full claim: a `Write` never waits for ever, as long as the client does not. -/
def WriteReturns : Prop := ∀ (tr : List Conn.Ev) (s : Conn.Sys) (i : Nat), Exec Conn.Step Conn.new tr s → s.client ≠ .stalled → s.pcs i ≠ .idle →
  ¬ Forever Conn.Step (fun _ => True) s fun s' => s'.pcs i = s.pcs i

theorem forever_of_inv {S L : Type} {step : S → L → S → Prop} {may : L → Prop} {s : S} {P : S → Prop} (Q : S → Prop) (h0 : Q s)
    (hs : ∀ s l s', Q s → may l → step s l s' → Q s') (hp : ∀ s, Q s → P s) : Forever step may s P := by
  intro tr s' h hm
  refine hp s' ?_
  induction h with
  | nil => exact h0
  | snoc _ hst ih => exact hs _ _ _ (ih fun l hl => hm l (by simp [hl])) (hm _ (by simp)) hst

/-- Once the worker has left, a goroutine waiting to reset the timer waits for ever. -/
theorem stuck_reset {s : Conn.Sys} {i : Nat} {m : Bytes} (hw : s.worker = .gone) (hp : s.pcs i = .writeReset m ∨ s.pcs i = .readReset) (hi : i ≠ 0) :
    Forever Conn.Step (fun _ => True) s fun s' => s'.pcs i = s.pcs i := by
  refine forever_of_inv (fun s' => s'.worker = .gone ∧ s'.pcs i = s.pcs i) ⟨hw, rfl⟩ ?_ fun _ h => h.2
  rintro s1 l s2 ⟨h1, h2⟩ - hst
  rw [← h2] at hp ⊢
  cases hst <;> grind [upd]

/-- C44 is false: between the check for a closed connection and the reset of the timer, the connection is closed and the worker leaves; the
writer then waits for ever. -/
theorem C44_false (m : Bytes) : ∃ tr s, Exec Conn.Step Conn.new tr s ∧ s.client ≠ .stalled ∧ s.pcs 1 = .writeReset m ∧
    Forever Conn.Step (fun _ => True) s fun s' => s'.pcs 1 = .writeReset m := by
  refine ⟨[.writeCall 1 m, .closeCall 2, .closeWon 2, .farewell 2, .sockClosed 2, .closed 2, .workerLeft], _,
    .cons (.writeCall 1 m (by decide) rfl rfl) (.cons (.closeCall 2 (by decide) rfl) (.cons (.closeWon 2 rfl rfl)
    (.cons (.farewell 2 rfl rfl reads_ne) (.cons (.sockClose 2 rfl) (.cons (.chanClose 2 rfl rfl) (.one (.workerLeft rfl rfl))))))), reads_ne, rfl, ?_⟩
  exact stuck_reset (m := m) rfl (.inl rfl) (by decide)

theorem C44_not_returns : ¬ WriteReturns := by
  intro hc
  obtain ⟨tr, s, h, hcl, hp, hf⟩ := C44_false []
  refine hc tr s 1 h hcl (by simp [hp]) ?_
  simpa [hp] using hf

/-- C44 is false for readers too: `Read` on a closed connection never returns. -/
theorem C44_reader : ∃ tr s, Exec Conn.Step Conn.new tr s ∧ s.client ≠ .stalled ∧ .closed 2 ∈ tr ∧
    Forever Conn.Step (fun _ => True) s fun s' => s'.pcs 3 = .readReset := by
  refine ⟨[.closeCall 2, .closeWon 2, .farewell 2, .sockClosed 2, .closed 2, .workerLeft, .readCall 3], _,
    .cons (.closeCall 2 (by decide) rfl) (.cons (.closeWon 2 rfl rfl)
    (.cons (.farewell 2 rfl rfl reads_ne) (.cons (.sockClose 2 rfl) (.cons (.chanClose 2 rfl rfl) (.cons (.workerLeft rfl rfl)
      (.one (.readCall 3 (by decide) rfl))))))), reads_ne, by simp, ?_⟩
  exact stuck_reset (m := []) rfl (.inr rfl) (by decide)

/-- C44 is false for a client that stops reading: the writer waits as long as the client does, and neither the expiry nor any other `Close`
ends it, since `Close` first writes to the same socket. -/
theorem C44_stalled (m : Bytes) : ∃ tr s, Exec Conn.Step Conn.new tr s ∧ s.pcs 1 = .writing m ∧
    Forever Conn.Step (fun e => ∀ c, e ≠ .client c) s fun s' => s'.pcs 1 = .writing m ∧ s'.sock = false := by
  refine ⟨[.writeCall 1 m, .writeReset 1, .client .stalled], _, .cons (.writeCall 1 m (by decide) rfl rfl) (.cons (.writeReset 1 m rfl rfl)
    (.one (.client .stalled reads_ne'))), rfl, ?_⟩
  refine forever_of_inv (fun s' => s'.client = .stalled ∧ s'.sock = false ∧ s'.pcs 1 = .writing m ∧ ∀ i, s'.pcs i ≠ .sockClose) ⟨rfl, rfl, rfl, ?_⟩ ?_
    fun _ h => ⟨h.2.2.1, h.2.1⟩
  · intro i
    by_cases e : i = 1
    · subst e; simp [upd]
    · simp [upd, e, Conn.new]
  · rintro s1 l s2 ⟨h1, h2, h3, h4⟩ hm hst
    cases hst <;> grind [upd]

/-- C44: the expiry itself is enough. Once the timer has fired, every goroutine that waits to reset it, to read or to write, waits for ever. -/
theorem C44_expired {tr : List Conn.Ev} {s : Conn.Sys} (h : Exec Conn.Step Conn.new tr s) (he : .expired ∈ tr) {i : Nat} {m : Bytes}
    (hp : s.pcs i = .writeReset m ∨ s.pcs i = .readReset) : Forever Conn.Step (fun _ => True) s fun s' => s'.pcs i = s.pcs i := by
  have inv : (.expired ∈ tr → s.worker ≠ .selecting) ∧ (s.worker ≠ .selecting ∨ s.pcs 0 = .idle) ∧ s.pcs 0 ≠ .readReset ∧ ∀ m, s.pcs 0 ≠ .writeReset m := by
    refine h.inv (P := fun tr s => (.expired ∈ tr → s.worker ≠ .selecting) ∧ (s.worker ≠ .selecting ∨ s.pcs 0 = .idle) ∧ s.pcs 0 ≠ .readReset ∧
      ∀ m, s.pcs 0 ≠ .writeReset m) (by simp [Conn.new]) ?_
    rintro tr s l s' - ⟨h1, h2, h3, h4⟩ hst
    cases hst <;> grind [upd]
  have hi : i ≠ 0 := by
    rintro rfl
    rcases hp with hp | hp
    · exact inv.2.2.2 _ hp
    · exact inv.2.2.1 hp
  refine forever_of_inv (fun s' => s'.worker ≠ .selecting ∧ s'.pcs i = s.pcs i) ⟨inv.1 he, rfl⟩ ?_ fun _ h => h.2
  rintro s1 l s2 ⟨h1, h2⟩ - hst
  rw [← h2] at hp ⊢
  cases hst <;> grind [upd]

/-- The timer fires between the check and the reset of a `Write`; nobody else closes the connection. -/
example (m : Bytes) : ∃ s, Exec Conn.Step Conn.new [.writeCall 1 m, .expired, .closeWon 0, .farewell 0] s ∧ s.pcs 1 = .writeReset m :=
  ⟨_, .cons (.writeCall 1 m (by decide) rfl rfl) (.cons (.expire rfl) (.cons (.closeWon 0 rfl rfl) (.one (.farewell 0 rfl rfl reads_ne)))), rfl⟩

theorem conn_open {tr : List Conn.Ev} {s : Conn.Sys} (h : Exec Conn.Step Conn.new tr s) (hw : .expired ∉ tr) (hf : ∀ i, .closeWon i ∉ tr) :
    s.sock = false ∧ s.worker = .selecting := by
  have inv := connInv h
  have hflag : s.flag = false := by
    cases hx : s.flag with
    | false => rfl
    | true => obtain ⟨j, hj⟩ := inv.flag.1 hx; exact absurd hj (hf j)
  obtain ⟨h1, h2, -⟩ := inv.fresh hflag
  refine ⟨h2, ?_⟩
  have : s.worker ≠ .expired := by
    intro he
    refine hw (h.inv (P := fun tr s => s.worker = .expired → .expired ∈ tr) (by simp [Conn.new]) ?_ he)
    intro tr s l s' _ ih hst
    cases hst <;> simp_all
  cases hx : s.worker with
  | selecting => rfl
  | expired => exact absurd hx this
  | gone => rw [inv.worker hx] at h1; cases h1

/-- C44 (partial): while the timer has not fired and nobody has begun to close, a `Write` under way to a client that reads can be completed by its
own steps, whatever the other goroutines are doing: they need not move.
Missing: closing connections and stalled clients, where it is false (`C44_false`, `C44_stalled`). -/
theorem C44_partial {tr : List Conn.Ev} {s : Conn.Sys} (h : Exec Conn.Step Conn.new tr s) (hw : .expired ∉ tr) (hf : ∀ i, .closeWon i ∉ tr)
    (hc : s.client ≠ .stalled) {i : Nat} {m : Bytes} (hp : s.pcs i = .writeReset m ∨ s.pcs i = .writing m) :
    ∃ tr' s', Exec Conn.Step s tr' s' ∧ (tr' = [.writeReset i, .wrote i m] ∨ tr' = [.wrote i m]) ∧ s'.pcs i = .idle ∧
      s'.out = s.out ++ [.reply m] := by
  obtain ⟨h2, hwk⟩ := conn_open h hw hf
  rcases hp with hp | hp
  · exact ⟨_, _, .cons (.writeReset i m hp hwk) (.one (.wrote i m (by simp [Fut.upd]) h2 hc)), .inl rfl, by simp [Fut.upd], rfl⟩
  · exact ⟨_, _, .one (.wrote i m hp h2 hc), .inr rfl, by simp [Fut.upd], rfl⟩

/-- C44 (partial), for reading: while the timer has not fired and nobody has begun to close, a `Read` under way can return with a request, by its own
steps. -/
theorem C44_read_partial {tr : List Conn.Ev} {s : Conn.Sys} (h : Exec Conn.Step Conn.new tr s) (hw : .expired ∉ tr) (hf : ∀ i, .closeWon i ∉ tr)
    {i : Nat} (hp : s.pcs i = .readReset ∨ s.pcs i = .reading) :
    ∃ tr' s', Exec Conn.Step s tr' s' ∧ (tr' = [.readReset i, .read i] ∨ tr' = [.read i]) ∧ s'.pcs i = .idle := by
  obtain ⟨-, hwk⟩ := conn_open h hw hf
  rcases hp with hp | hp
  · exact ⟨_, _, .cons (.readReset i hp hwk) (.one (.read i (by simp [Fut.upd]))), .inl rfl, by simp [Fut.upd]⟩
  · exact ⟨_, _, .one (.read i hp), .inr rfl, by simp [Fut.upd]⟩

example : ∃ s, Exec Conn.Step Conn.new [.readCall 2] s ∧ s.pcs 2 = .readReset := ⟨_, .one (.readCall 2 (by decide) rfl), rfl⟩

example (m : Bytes) : ∃ s, Exec Conn.Step Conn.new [.readCall 2, .readReset 2, .writeCall 1 m] s ∧ s.client ≠ .stalled ∧ s.pcs 1 = .writeReset m :=
  ⟨_, .cons (.readCall 2 (by decide) rfl) (.cons (.readReset 2 rfl rfl) (.one (.writeCall 1 m (by decide) rfl rfl))), reads_ne, rfl⟩

/-- C44 for the server: one connection closing at the wrong moment stops the responses to all clients for ever. -/
theorem C44_server (m : Bytes) : ∃ tr s, Exec Pool.Step Pool.new tr s ∧ (∀ c, (s.conns c).client ≠ .stalled) ∧
    Forever Pool.Step (fun _ => True) s (fun s' => s'.busy = some 0) ∧
    ∀ tr' s', Exec Pool.Step s tr' s' → ∀ c m', .turn c m' ∉ tr' ∧ .conn c (.wrote 1 m') ∉ tr' := by
  have hx : ∃ s, Exec Pool.Step Pool.new [.turn 0 m, .conn 0 (.closeCall 2), .conn 0 (.closeWon 2), .conn 0 (.farewell 2), .conn 0 (.sockClosed 2),
      .conn 0 (.closed 2), .conn 0 .workerLeft] s ∧ (∀ c, (s.conns c).client ≠ .stalled) ∧
      (s.busy = some 0 ∧ (s.conns 0).worker = .gone ∧ (s.conns 0).pcs 1 = .writeReset m ∧ ∀ c, c ≠ 0 → (s.conns c).pcs 1 = .idle) := by
    refine ⟨_, .cons (.turn 0 m _ rfl (.writeCall 1 m (by decide) rfl rfl)) (.cons (.conn 0 _ _ rfl (.closeCall 2 (by decide) rfl))
      (.cons (.conn 0 _ _ rfl (.closeWon 2 rfl rfl)) (.cons (.conn 0 _ _ rfl (.farewell 2 rfl rfl reads_ne))
        (.cons (.conn 0 _ _ rfl (.sockClose 2 rfl)) (.cons (.conn 0 _ _ rfl (.chanClose 2 rfl rfl)) (.one (.conn 0 _ _ rfl (.workerLeft rfl rfl)))))))),
      ?_, rfl, rfl, rfl, ?_⟩
    · intro c
      by_cases e : c = 0
      · subst e; exact reads_ne
      · simp [upd, e, Pool.new, Conn.new]
    · intro c e
      simp [upd, e, Pool.new, Conn.new]
  obtain ⟨s, h, hcl, hq⟩ := hx
  have keep : ∀ (s : Pool.Sys) (l : Pool.Ev) (s' : Pool.Sys),
      (s.busy = some 0 ∧ (s.conns 0).worker = .gone ∧ (s.conns 0).pcs 1 = .writeReset m ∧ ∀ c, c ≠ 0 → (s.conns c).pcs 1 = .idle) →
      Pool.Step s l s' → (s'.busy = some 0 ∧ (s'.conns 0).worker = .gone ∧ (s'.conns 0).pcs 1 = .writeReset m ∧
        ∀ c, c ≠ 0 → (s'.conns c).pcs 1 = .idle) ∧ ∀ c m', l ≠ .turn c m' ∧ l ≠ .conn c (.wrote 1 m') := by
    rintro s l s' ⟨h1, h2, h3, h4⟩ hst
    cases hst with
    | turn c m x hb _ => rw [h1] at hb; cases hb
    | dropped c m x hb _ => rw [h1] at hb; cases hb
    | done c hb hi => rw [h1] at hb; cases hb; rw [h3] at hi; cases hi
    | conn c e x hw hst =>
      by_cases ec : c = 0
      · subst ec
        have : x.worker = .gone ∧ x.pcs 1 = .writeReset m ∧ ∀ m', e ≠ .wrote 1 m' := by
          cases hst <;> grind [upd]
        refine ⟨⟨h1, by simp [upd, this], by simp [upd, this], fun c hc => by simp [upd, hc, h4 c hc]⟩, ?_⟩
        intro c m'
        refine ⟨by simp, ?_⟩
        simp only [ne_eq, Pool.Ev.conn.injEq, not_and]
        exact fun _ => this.2.2 m'
      · have hi := h4 c ec
        have : x.pcs 1 = .idle ∧ ∀ m', e ≠ .wrote 1 m' := by
          cases hst <;> grind [upd, Pool.workers]
        refine ⟨⟨h1, by simp [upd, Ne.symm ec, h2], by simp [upd, Ne.symm ec, h3], fun c' hc => ?_⟩, ?_⟩
        · by_cases e' : c' = c
          · simp [upd, e', this]
          · simp [upd, e', h4 c' hc]
        · intro c m'
          refine ⟨by simp, ?_⟩
          simp only [ne_eq, Pool.Ev.conn.injEq, not_and]
          exact fun _ => this.2 m'
  refine ⟨_, s, h, hcl, forever_of_inv _ hq (fun s l s' hs _ hst => (keep s l s' hs hst).1) (fun _ h => h.1), ?_⟩
  intro tr' s' hx
  have : (s'.busy = some 0 ∧ (s'.conns 0).worker = .gone ∧ (s'.conns 0).pcs 1 = .writeReset m ∧ ∀ c, c ≠ 0 → (s'.conns c).pcs 1 = .idle) ∧
      ∀ c m', .turn c m' ∉ tr' ∧ .conn c (.wrote 1 m') ∉ tr' := by
    induction hx with
    | nil => exact ⟨hq, by simp⟩
    | snoc _ hst ih =>
      obtain ⟨k1, k2⟩ := keep _ _ _ ih.1 hst
      refine ⟨k1, fun c m' => ?_⟩
      have := ih.2 c m'
      have := k2 c m'
      simp only [List.mem_append, List.mem_singleton]
      grind
  exact this.2

end Verif.Props
