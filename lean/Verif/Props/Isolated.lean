import Verif.Props.Full
import Verif.Props.Fate

/-! What the other clients notice when a connection goes wrong. -/

namespace Verif.Props

open Verif.Spec
open Fut (upd)

variable {ω : Nat → Nat} {d : Bytes} {st : State} {tr : List Full.Ev} {s s' : Full.Sys}

theorem expired_pc {tr : List Conn.Ev} {x : Conn.Sys} (h : Exec Conn.Step Conn.new tr x) : x.worker = .expired → x.flag = true ∨ x.pcs 0 = .closeStart := by
  refine h.inv (P := fun _ x => x.worker = .expired → x.flag = true ∨ x.pcs 0 = .closeStart) (by simp [Conn.new]) ?_
  intro tr x e y _ ih hs
  cases hs <;> grind [upd]

/-- While the response worker waits for the expire worker, nobody is answered. -/
theorem waiting_step {n c : Nat} {b : Bytes} {e : Full.Ev} (hw : s.whole.hub.worker = .writing n c b) (hp : (s.lines c).pcs 1 = .writeReset b)
    (hs : Full.Step ω s e s') (hr : .writeReset 1 ∉ lineOf c [e]) :
    s'.whole.hub.worker = .writing n c b ∧ (s'.lines c).pcs 1 = .writeReset b ∧ (∀ c', answersTo c' (seenIn [e]) = []) ∧
      ((s.lines c).worker ≠ .selecting → (s'.lines c).worker ≠ .selecting) := by
  have line : ∀ c' l x, Conn.Step (s.lines c') l x → (c' = c → l ≠ .writeReset 1) → (upd s.lines c' x c).pcs 1 = .writeReset b ∧
      ((s.lines c).worker ≠ .selecting → (upd s.lines c' x c).worker ≠ .selecting) := by
    intro c' l x h1 h2
    by_cases hc : c = c'
    · subst hc
      rw [upd_same]
      have := h2 rfl
      clear hw hr hs h2
      cases h1 <;> grind [upd]
    · rw [upd_other _ _ hc]; exact ⟨hp, id⟩
  cases hs with
  | whole e w h1 h2 => exact ⟨(whole_apart h2 h1).2 _ _ _ hw, hp, fun c' => (apart_quiet h1 c').1, id⟩
  | send c' f w h1 h2 h3 h4 =>
    obtain ⟨-, x, -, k, -⟩ := whole_feed h4
    exact ⟨by rw [k]; exact hw, hp, fun _ => rfl, id⟩
  | kill c' w h1 h2 =>
    obtain ⟨-, x, -, k, -⟩ := whole_feed h2
    exact ⟨by rw [k]; exact hw, hp, fun _ => rfl, id⟩
  | readCall c' x _ _ _ _ h =>
    have := line c' _ x h (by nofun)
    exact ⟨hw, this.1, fun _ => rfl, this.2⟩
  | writeCall _ c' _ x _ _ h =>
    have := line c' _ x h (by nofun)
    exact ⟨hw, this.1, fun _ => rfl, this.2⟩
  | closeCall c' x _ h1 _ h =>
    have := line c' _ x h (by nofun)
    exact ⟨hw, this.1, fun _ => rfl, this.2⟩
  | cut c' x _ _ h =>
    have := line c' _ x h (by nofun)
    exact ⟨hw, this.1, fun _ => rfl, this.2⟩
  | own c' e x _ _ h0 h =>
    have := line c' _ x h (by rintro rfl rfl; simp [lineOf] at hr)
    exact ⟨hw, this.1, fun _ => rfl, this.2⟩
  | finish c' f w x _ h4 h =>
    have := line c' _ x h (by nofun)
    obtain ⟨-, y, -, k, -⟩ := whole_feed h4
    exact ⟨by rw [k]; exact hw, this.1, fun _ => rfl, this.2⟩
  | read c' k o w x h4 h =>
    have := line c' _ x h (by nofun)
    obtain ⟨y, hub, -, k2, rfl⟩ := whole_read h4
    refine ⟨?_, this.1, fun _ => rfl, this.2⟩
    show hub.worker = _
    cases k2
    exact hw
  | wrote n' c' b' w x h4 h =>
    exfalso
    have := (whole_wrote h4).1
    rw [hw] at this
    cases this
    cases h
    simp_all
  | refuse n' c' b' w x h1 h4 h =>
    exfalso
    rw [hw] at h1
    cases h1
    cases h
    simp_all
  | fail n' c' b' w x h4 h =>
    exfalso
    obtain ⟨b'', this⟩ := (whole_refused h4).1
    rw [hw] at this
    cases this
    cases h <;> simp_all

theorem answersTo_seen (c : Nat) (a b : List Full.Ev) : answersTo c (seenIn (a ++ b)) = answersTo c (seenIn a) ++ answersTo c (seenIn b) := by
  rw [seenIn_append, answersTo_append]

/-- Once the expire worker has gone, it stays like this. -/
theorem silenced_step (h : Exec (Full.Step ω) (Full.new d st) tr s) (hq : Silenced s) {after : List Full.Ev} (hx : Exec (Full.Step ω) s after s') :
    Silenced s' ∧ ∀ c, answersTo c (seenIn after) = [] := by
  obtain ⟨c, b, hp, hl⟩ := hq
  obtain ⟨n, hw⟩ : ∃ n, s.whole.hub.worker = .writing n c b := by
    rcases (lineInv h c).writer with h1 | ⟨b', n, h1 | h1, h2⟩
    · rw [hp] at h1; cases h1
    · rw [hp] at h1; cases h1; exact ⟨n, h2⟩
    · rw [hp] at h1; cases h1
  have last := hx.inv (P := fun tr s => s.whole.hub.worker = .writing n c b ∧ (s.lines c).pcs 1 = .writeReset b ∧ (s.lines c).worker ≠ .selecting ∧
    ∀ c', answersTo c' (seenIn tr) = []) ⟨hw, hp, hl, fun _ => rfl⟩ (by
      rintro tr s e s' - ⟨i1, i2, i3, i4⟩ hs
      obtain ⟨g1, g2, g3, g4⟩ := waiting_step i1 i2 hs (by
        intro hm
        have hl := (full_step hs).2 c
        have : lineOf c [e] = [.writeReset 1] := by
          rcases mem_lineOf.1 hm with h | ⟨w, h⟩ <;> simp only [List.mem_singleton] at h <;> subst h <;> simp [lineOf]
        rw [this] at hl
        have := exec_single hl
        generalize s'.lines c = y at this
        cases this
        exact i3 (by assumption))
      exact ⟨g1, g2, g4 i3, fun c' => by rw [answersTo_seen, i4, g3]; rfl⟩)
  exact ⟨⟨c, b, last.2.1, last.2.2.1⟩, last.2.2.2⟩

/-- C83: when the expire worker of a connection goes while the response worker is about to write to it, no client is ever answered again. -/
theorem C83_silenced {before mid after : List Full.Ev} {c : Nat} {b : Bytes} {e : Conn.Ev} (he : e = .expired ∨ e = .workerLeft)
    (h : Exec (Full.Step ω) (Full.new d st) (before ++ .line c (.writeCall 1 b) :: mid ++ .line c e :: after) s) (hm : .writeReset 1 ∉ lineOf c mid) :
    Silenced s ∧ ∀ c', answersTo c' (seenIn (mid ++ .line c e :: after)) = [] := by
  rw [show before ++ .line c (.writeCall 1 b) :: mid ++ .line c e :: after = ((before ++ [.line c (.writeCall 1 b)]) ++ mid) ++ (.line c e :: after) by simp] at h
  obtain ⟨s3, h3, hx⟩ := h.split
  obtain ⟨s2, h2, hm3⟩ := h3.split
  obtain ⟨s1, h1, hs⟩ := h2.split_snoc
  obtain ⟨n, hw, hp⟩ : ∃ n, s2.whole.hub.worker = .writing n c b ∧ (s2.lines c).pcs 1 = .writeReset b := by
    cases hs with
    | writeCall n _ _ x _ hw hc =>
      refine ⟨n, hw, ?_⟩
      cases hc
      simp [upd]
    | own _ _ _ _ _ h0 => cases h0
  have walk : ∀ {s s' tr}, Exec (Full.Step ω) s tr s' → s.whole.hub.worker = .writing n c b → (s.lines c).pcs 1 = .writeReset b → .writeReset 1 ∉ lineOf c tr →
      s'.whole.hub.worker = .writing n c b ∧ (s'.lines c).pcs 1 = .writeReset b ∧ ∀ c', answersTo c' (seenIn tr) = [] := by
    intro s s' tr hx hw hp hm
    revert hm
    refine hx.inv (P := fun tr s' => .writeReset 1 ∉ lineOf c tr → s'.whole.hub.worker = .writing n c b ∧ (s'.lines c).pcs 1 = .writeReset b ∧
      ∀ c', answersTo c' (seenIn tr) = []) (fun _ => ⟨hw, hp, fun _ => rfl⟩) ?_
    intro tr s e s' _ ih hs hm
    rw [lineOf_append, List.mem_append, not_or] at hm
    obtain ⟨i1, i2, i3⟩ := ih hm.1
    obtain ⟨g1, g2, g3, -⟩ := waiting_step i1 i2 hs hm.2
    exact ⟨g1, g2, fun c' => by rw [answersTo_seen, i3, g3]; rfl⟩
  obtain ⟨w1, w2, w3⟩ := walk hm3 hw hp hm
  have hx' := hx
  rw [show Full.Ev.line c e :: after = [.line c e] ++ after from rfl] at hx'
  obtain ⟨s4, h4, hx5⟩ := hx'.split
  have h4 := exec_single h4
  obtain ⟨k1, k2, k3, -⟩ := waiting_step w1 w2 h4 (by rcases he with rfl | rfl <;> simp [lineOf])
  have hne : (s4.lines c).worker ≠ .selecting := by
    have := (full_step h4).2 c
    rw [show lineOf c [.line c e] = [e] by simp [lineOf]] at this
    have := exec_single this
    generalize s4.lines c = x at this ⊢
    rcases he with rfl | rfl <;> cases this <;> simp
  have last := silenced_step (h3.snoc h4) ⟨c, b, k2, hne⟩ hx5
  refine ⟨last.1, fun c' => ?_⟩
  rw [show mid ++ Full.Ev.line c e :: after = mid ++ ([.line c e] ++ after) from rfl, answersTo_seen, answersTo_seen, w3, k3, last.2]
  rfl

/-- C83: while the client the response worker is writing to does not read, no client is answered, even if the connection expires. -/
theorem C83_stalled (h : Exec (Full.Step ω) (Full.new d st) tr s) {n c : Nat} {b : Bytes} (hw : s.whole.hub.worker = .writing n c b)
    (hp : (s.lines c).pcs 1 = .writing b) (hf : (s.lines c).flag = false) (hc : (s.lines c).client = .stalled) {after : List Full.Ev}
    (hx : Exec (Full.Step ω) s after s') (ha : ∀ x, .client x ∉ lineOf c after) (c' : Nat) : answersTo c' (seenIn after) = [] := by
  have hi := connInv ((full_exec h).2 c)
  suffices s'.whole.hub.worker = .writing n c b ∧ ((s'.lines c).pcs 1 = .writing b ∧ (s'.lines c).client = .stalled ∧ (s'.lines c).sock = false ∧
    ∀ i, (s'.lines c).pcs i ≠ .sockClose) ∧ ∀ c', answersTo c' (seenIn after) = [] from this.2.2 c'
  revert ha
  refine hx.inv (P := fun after s' => (∀ x, .client x ∉ lineOf c after) → s'.whole.hub.worker = .writing n c b ∧ ((s'.lines c).pcs 1 = .writing b ∧
    (s'.lines c).client = .stalled ∧ (s'.lines c).sock = false ∧ ∀ i, (s'.lines c).pcs i ≠ .sockClose) ∧ ∀ c', answersTo c' (seenIn after) = [])
    (fun _ => ⟨hw, ⟨hp, hc, (hi.fresh hf).2.1, fun i hx => ?_⟩, fun _ => rfl⟩) ?_
  · have := hi.closing i (by rw [hx]; rfl)
    rw [hf] at this
    cases this
  clear hw hp hf hc hi hx h
  intro tr s e s' _ ih hs ha
  simp only [lineOf_append, List.mem_append, not_or] at ha
  obtain ⟨hw, hl, hn⟩ := ih fun x => (ha x).1
  have ha := fun x => (ha x).2
  suffices s'.whole.hub.worker = .writing n c b ∧ ((s'.lines c).pcs 1 = .writing b ∧ (s'.lines c).client = .stalled ∧ (s'.lines c).sock = false ∧
    ∀ i, (s'.lines c).pcs i ≠ .sockClose) ∧ ∀ c', answersTo c' (seenIn [e]) = [] from
    ⟨this.1, this.2.1, fun c' => by rw [answersTo_seen, hn, this.2.2]; rfl⟩
  clear ih hn
  have line : ∀ c' l x, Conn.Step (s.lines c') l x → (c' = c → ∀ x, l ≠ .client x) → (upd s.lines c' x c).pcs 1 = .writing b ∧
      (upd s.lines c' x c).client = .stalled ∧ (upd s.lines c' x c).sock = false ∧ ∀ i, (upd s.lines c' x c).pcs i ≠ .sockClose := by
    intro c' l x h1 h2
    by_cases hc : c = c'
    · subst hc
      rw [upd_same]
      have := h2 rfl
      clear hw ha hs h2
      cases h1 <;> grind [upd]
    · rw [upd_other _ _ hc]; exact hl
  cases hs with
  | whole e w h1 h2 => exact ⟨(whole_apart h2 h1).2 _ _ _ hw, hl, fun c' => (apart_quiet h1 c').1⟩
  | send c' f w h1 h2 h3 h4 =>
    obtain ⟨-, x, -, k, -⟩ := whole_feed h4
    exact ⟨by rw [k]; exact hw, hl, fun _ => rfl⟩
  | kill c' w h1 h2 =>
    obtain ⟨-, x, -, k, -⟩ := whole_feed h2
    exact ⟨by rw [k]; exact hw, hl, fun _ => rfl⟩
  | readCall c' x _ _ _ _ h | writeCall _ c' _ x _ _ h => exact ⟨hw, line c' _ x h (by nofun), fun _ => rfl⟩
  | closeCall c' x _ h1 _ h => exact ⟨hw, line c' _ x h (by nofun), fun _ => rfl⟩
  | cut c' x _ _ h => exact ⟨hw, line c' _ x h (by nofun), fun _ => rfl⟩
  | own c' e x _ _ h0 h => exact ⟨hw, line c' _ x h (by rintro rfl x rfl; exact ha x (by simp [lineOf])), fun _ => rfl⟩
  | finish c' f w x _ h4 h =>
    obtain ⟨-, y, -, k, -⟩ := whole_feed h4
    exact ⟨by rw [k]; exact hw, line c' _ x h (by nofun), fun _ => rfl⟩
  | read c' k o w x h4 h =>
    obtain ⟨y, hub, -, k2, rfl⟩ := whole_read h4
    refine ⟨?_, line c' _ x h (by nofun), fun _ => rfl⟩
    show hub.worker = _
    cases k2
    exact hw
  | wrote n' c' b' w x h4 h =>
    exfalso
    have := (whole_wrote h4).1
    rw [hw] at this
    cases this
    cases h
    simp_all
  | refuse n' c' b' w x h1 h4 h =>
    exfalso
    rw [hw] at h1
    cases h1
    cases h
    simp_all
  | fail n' c' b' w x h4 h =>
    exfalso
    obtain ⟨b'', this⟩ := (whole_refused h4).1
    rw [hw] at this
    cases this
    cases h <;> simp_all

/-- The response worker is through with the reply `n`. -/
structure Rid (ω : Nat → Nat) (n c : Nat) (b : Bytes) (s : Full.Sys) (es : List Full.Ev) (s' : Full.Sys) (e : Pipe.Ev) : Prop where
  exec : Exec (Full.Step ω) s es s'
  whole : wholeOf es = [.net (.pipe e)]
  event : e = .wrote c n b ∨ e = .refused c n
  others : ∀ c', c' ≠ c → s'.lines c' = s.lines c'
  idle : (s'.lines c).pcs 1 = .idle
  fine : Open (s.lines c) → (s.lines c).sock = false → Open (s'.lines c) ∧ e = .wrote c n b

theorem Rid.after {n c : Nat} {b : Bytes} {s1 : Full.Sys} {es1 es : List Full.Ev} {e : Pipe.Ev} (hx : Exec (Full.Step ω) s es1 s1) (hw : wholeOf es1 = [])
    (hl : ∀ c', c' ≠ c → s1.lines c' = s.lines c') (ho : Open (s.lines c) → Open (s1.lines c)) (hs : (s1.lines c).sock = (s.lines c).sock)
    (h : Rid ω n c b s1 es s' e) : Rid ω n c b s (es1 ++ es) s' e :=
  ⟨hx.append h.exec, by rw [wholeOf_append, hw, h.whole]; rfl, h.event, fun c' hc => by rw [h.others c' hc, hl c' hc], h.idle,
    fun h1 h2 => h.fine (ho h1) (by rw [hs, h2])⟩

theorem rid_writing {n c : Nat} {b : Bytes} (hu : s.up) (hw : s.whole.hub.worker = .writing n c b) (hc : s.whole.hub.conns c ≠ none)
    (hp : (s.lines c).pcs 1 = .writing b) : ∃ es s' e, Rid ω n c b s es s' e := by
  have wrote : ∀ s : Full.Sys, s.up → s.whole.hub.worker = .writing n c b → (s.lines c).pcs 1 = .writing b → (s.lines c).sock = false →
      (s.lines c).client ≠ .stalled → ∃ es s' e, Rid ω n c b s es s' e := fun s hu hw hp h1 h2 =>
    ⟨_, _, _, .one (.wrote n c b _ _ (.pass _ _ hu.1 rfl (.write n c b hu.2 hw)) (.wrote 1 b hp h1 h2)), rfl, .inl rfl, fun c' h' => upd_other _ _ h',
      by simp [upd], fun ho _ => ⟨open_same ho (by simp [upd]) (by simp [upd]) (by simp [upd]), rfl⟩⟩
  cases hs : (s.lines c).sock with
  | true =>
    exact ⟨_, _, _, .one (.fail n c b _ _ (.pass _ _ hu.1 rfl (.refuse n c b hu.2 hw)) (.writeErr 1 b hp hs)), rfl, .inr rfl, fun c' h' => upd_other _ _ h',
      by simp [upd], fun _ h => by rw [hs] at h; cases h⟩
  | false =>
    by_cases hst : (s.lines c).client = .stalled
    · obtain ⟨es, s', e, h⟩ := wrote { s with lines := upd s.lines c { s.lines c with client := .reads } } hu hw (by simpa [upd] using hp) (by simpa [upd] using hs)
        (by simp [upd])
      refine ⟨_, _, _, Rid.after (.one (.own c (.client .reads) _ hu hc rfl (.client .reads (by rw [hst]; decide)))) rfl (fun c' h' => upd_other _ _ h') ?_ ?_ h⟩
      · intro ho; rw [ho.client] at hst; cases hst
      · simp [upd]
    · exact wrote s hu hw hp hs hst

theorem rid_reset {n c : Nat} {b : Bytes} (hu : s.up) (hw : s.whole.hub.worker = .writing n c b) (hc : s.whole.hub.conns c ≠ none)
    (hp : (s.lines c).pcs 1 = .writeReset b) (hl : (s.lines c).worker = .selecting) : ∃ es s' e, Rid ω n c b s es s' e := by
  obtain ⟨es, s', e, h⟩ := rid_writing (ω := ω) (s := { s with lines := upd s.lines c { s.lines c with pcs := upd (s.lines c).pcs 1 (.writing b) } }) hu hw hc
    (by simp [upd])
  exact ⟨_, _, _, Rid.after (.one (.own c (.writeReset 1) _ hu hc rfl (.writeReset 1 b hp hl))) rfl (fun c' h' => upd_other _ _ h')
    (fun ho => open_same ho (by simp [upd]) (by simp [upd]) (by simp [upd])) (by simp [upd]) h⟩

theorem rid_closed {n c : Nat} {b : Bytes} (hu : s.up) (hw : s.whole.hub.worker = .writing n c b) (hp : (s.lines c).pcs 1 = .idle)
    (hf : (s.lines c).flag = true) : ∃ es s' e, Rid ω n c b s es s' e :=
  ⟨_, _, _, .one (.refuse n c b _ _ hw (.pass _ _ hu.1 rfl (.refuse n c b hu.2 hw)) (.writeClosed 1 b (by decide) hp hf)), rfl, .inr rfl,
    fun c' h' => upd_other _ _ h', by simpa [upd] using hp, fun ho => by rw [ho.flag] at hf; cases hf⟩

/-- The response worker gets rid of the reply it is writing, unless it is stuck. -/
theorem finish_write (h : Exec (Full.Step ω) (Full.new d st) tr s) (hu : s.up) {n c : Nat} {b : Bytes} (hw : s.whole.hub.worker = .writing n c b)
    (hq : ¬ Silenced s) : ∃ es s' e, Rid ω n c b s es s' e := by
  have hc := writing_conn h hw
  have hi := connInv ((full_exec h).2 c)
  rcases (lineInv h c).writer with hp | ⟨b', n', hp, hw'⟩
  · by_cases hf : (s.lines c).flag = true
    · exact rid_closed hu hw hp hf
    have hf : (s.lines c).flag = false := by simpa using hf
    cases hl : (s.lines c).worker with
    | gone =>
      have h1 := (hi.fresh hf).1
      rw [hi.worker hl] at h1
      cases h1
    | selecting =>
      obtain ⟨es, s', e, h⟩ := rid_reset (ω := ω) (s := { s with lines := upd s.lines c { s.lines c with pcs := upd (s.lines c).pcs 1 (.writeReset b) } }) hu hw hc
        (by simp [upd]) (by simpa [upd] using hl)
      exact ⟨_, _, _, Rid.after (.one (.writeCall n c b _ hu hw (.writeCall 1 b (by decide) hp hf))) rfl (fun c' h' => upd_other _ _ h')
        (fun ho => open_same ho (by simp [upd]) (by simp [upd]) (by simp [upd])) (by simp [upd]) h⟩
    | expired =>
      have h0 : (s.lines c).pcs 0 = .closeStart := by
        rcases expired_pc ((full_exec h).2 c) hl with h1 | h1
        · rw [hf] at h1; cases h1
        · exact h1
      obtain ⟨es, s', e, h⟩ := rid_closed (ω := ω) (s := { s with lines := upd s.lines c { s.lines c with flag := true, pcs := upd (s.lines c).pcs 0 .farewell } })
        (b := b) (n := n) (c := c) hu hw (by simpa [upd] using hp) (by simp [upd])
      exact ⟨_, _, _, Rid.after (.one (.own c (.closeWon 0) _ hu hc rfl (.closeWon 0 h0 hf))) rfl (fun c' h' => upd_other _ _ h')
        (fun ho => by rw [ho.worker] at hl; cases hl) (by simp [upd]) h⟩
  · rw [hw] at hw'
    cases hw'
    rcases hp with hp | hp
    · exact rid_reset hu hw hc hp (by by_contra hne; exact hq ⟨c, b, hp, hne⟩)
    · exact rid_writing hu hw hc hp

theorem silenced_lines (h : ∀ c, s'.lines c = s.lines c) : Silenced s' → Silenced s := by
  rintro ⟨c, b, h1, h2⟩
  rw [h] at h1 h2
  exact ⟨c, b, h1, h2⟩

/-- The replies on their way are dealt with one after the other. -/
theorem deliver (h : Exec (Full.Step ω) (Full.new d st) tr s) {n : Net.Sys} (hn : Seen st s.whole n) (hu : s.up) (hq : ¬ Silenced s) {c : Nat}
    (ho : Open (s.lines c)) {ls : List Pipe.Ev} {p : Pipe.Sys} (hx : Exec Pipe.Step n.pipe ls p) (hd : ∀ e ∈ ls, Delivers e) :
    ∃ es s' n', Exec (Full.Step ω) s es s' ∧ Seen st s'.whole n' ∧ n'.pipe = p ∧ s'.up ∧ ¬ Silenced s' ∧ Open (s'.lines c) ∧
      ∀ k b, .wrote c k b ∈ ls → .pipe (.wrote c k b) ∈ seenIn es := by
  revert hd
  refine hx.inv (P := fun ls p => (∀ e ∈ ls, Delivers e) → ∃ es s' n', Exec (Full.Step ω) s es s' ∧ Seen st s'.whole n' ∧ n'.pipe = p ∧ s'.up ∧ ¬ Silenced s' ∧
    Open (s'.lines c) ∧ ∀ k b, .wrote c k b ∈ ls → .pipe (.wrote c k b) ∈ seenIn es) (fun _ => ⟨[], s, n, .nil, hn, rfl, hu, hq, ho, by simp⟩) ?_
  intro ls p e p' _ ih hs hd
  obtain ⟨es, s1, n1, i1, i2, rfl, i4, i5, i6, i7⟩ := ih fun e he => hd e (List.mem_append_left _ he)
  have hde := hd e (by simp)
  have h1 := h.append i1
  have hdead : n1.dead = false := by rw [i2.dead, i4.1]
  have hnet : Net.Step n1 (.pipe e) { n1 with pipe := p', out := Net.grow n1.out e } := .pipe e p' hdead (by cases e <;> first | rfl | cases hde) hs
  have hup : ∀ {w : Whole.Sys} {n2 : Net.Sys}, Seen st w n2 → n2.dead = false → n2.pipe = p' → w.dead = false ∧ w.hub.crashed = false := by
    intro w n2 k1 k2 k3
    refine ⟨by rw [← k1.dead, k2], ?_⟩
    rw [← k1.sim.crashed, k3]
    have : n1.pipe.crashed = false := by rw [i2.sim.crashed, i4.2]
    cases hs <;> first | exact this | cases hde
  obtain ⟨lw, w', b1, b2, -, b4⟩ := seen_back (ω := ω) i2 hnet
  have quiet : (∀ c k b, e ≠ .wrote c k b) → ∃ es s' n', Exec (Full.Step ω) s es s' ∧ Seen st s'.whole n' ∧ n'.pipe = p' ∧ s'.up ∧ ¬ Silenced s' ∧
      Open (s'.lines c) ∧ ∀ k b, .wrote c k b ∈ ls ++ [e] → .pipe (.wrote c k b) ∈ seenIn es := by
    intro hne
    obtain ⟨es2, s2, g1, g2, rfl, g4⟩ := lift_apart h1 b1 (by
      intro x hx
      cases x with
      | net y =>
        have : y ∈ netOf lw := mem_netOf.2 hx
        rw [b2, List.mem_singleton] at this
        subst this
        cases e <;> first | rfl | exact absurd rfl (hne _ _ _) | cases hde
      | _ => rfl)
    refine ⟨es ++ es2, s2, _, i1.append g1, b4, rfl, hup b4 hdead rfl, fun hq => i5 (silenced_lines g4 hq), by rw [g4]; exact i6, ?_⟩
    intro k b hm
    rw [seenIn_append]
    rcases List.mem_append.1 hm with hm | hm
    · exact List.mem_append_left _ (i7 k b hm)
    · exact absurd (List.mem_singleton.1 hm).symm (hne _ _ _)
  cases e with
  | wrote c' k b =>
    clear quiet
    obtain ⟨a, rest, rfl, ha⟩ := netOf_cut b2
    obtain ⟨w1, c1, c2⟩ := b1.split
    obtain ⟨w2, c2, -⟩ := Exec.split (before := [Whole.Ev.net (.pipe (.wrote c' k b))]) c2
    have c2 := exec_single c2
    have hw1 := (whole_wrote c2).1
    obtain ⟨es2, s2, g1, g2, rfl, g4⟩ := lift_apart h1 c1 (by
      intro x hx
      cases x with
      | net y =>
        have : y ∈ netOf a := mem_netOf.2 hx
        rw [ha] at this
        cases this
      | _ => rfl)
    obtain ⟨n2, k1, k2⟩ := seen_exec i2 c1
    rw [ha] at k1
    have := exec_none k1
    subst this
    have hu2 : s2.up := by exact whole_up c2
    obtain ⟨es3, s3, e, r⟩ := finish_write (h1.append g1) hu2 hw1 (fun hq => i5 (silenced_lines g4 hq))
    have hx3 := (full_exec r.exec).1
    rw [r.whole] at hx3
    obtain ⟨n3, m1, m2⟩ := seen_exec k2 hx3
    have m1 := exec_single m1
    obtain ⟨m3, m4⟩ : n3.pipe = p' ∧ n3.dead = false := by
      rcases r.event with rfl | rfl
      · cases m1 with | pipe _ q q1 q2 q3 => exact ⟨by cases q3; cases hs; rfl, q1⟩
      · cases m1 with | pipe _ q q1 q2 q3 => exact ⟨by cases q3; cases hs; rfl, q1⟩
    refine ⟨es ++ (es2 ++ es3), s3, n3, i1.append (g1.append r.exec), m2, m3, hup m2 m4 m3, ?_, ?_, ?_⟩
    · rintro ⟨c2, b2, q1, q2⟩
      by_cases hc : c2 = c'
      · subst hc; rw [r.idle] at q1; cases q1
      · rw [r.others _ hc, g4] at q1 q2
        exact i5 ⟨c2, b2, q1, q2⟩
    · by_cases hc : c = c'
      · subst hc
        have : Open (s2.lines c) := by rw [g4]; exact i6
        exact (r.fine this (open_sock (h1.append g1) this).1).1
      · rw [r.others _ hc, g4]; exact i6
    · intro k' b' hm
      rw [seenIn_append, seenIn_append]
      rcases List.mem_append.1 hm with hm | hm
      · exact List.mem_append_left _ (i7 _ _ hm)
      · rw [List.mem_singleton] at hm
        cases hm
        have : Open (s2.lines c) := by rw [g4]; exact i6
        have := (r.fine this (open_sock (h1.append g1) this).1).2
        refine List.mem_append_right _ (List.mem_append_right _ ?_)
        rw [seenIn, r.whole, this]
        simp [netOf]
  | _ => exact quiet (by nofun)

theorem mem_answers {c n : Nat} {b : Bytes} {tr : List Net.Ev} : (n, b) ∈ answersTo c tr ↔ .pipe (.wrote c n b) ∈ tr := by
  induction tr with
  | nil => simp [answersTo]
  | cons e tr ih =>
    cases e with
    | pipe e => cases e <;> simp only [answersTo, List.mem_cons, ih] <;> grind
    | _ => simp [answersTo, ih]

/-- C83: a reply that is outstanding to a client that stays connected and reads can still be written, whatever has become of the other connections,
except if the response worker waits for an expire worker that has gone. -/
theorem C83_answers_partial (h : Exec (Full.Step ω) (Full.new d st) tr s) (hu : s.up) {n c : Nat} {r : Resp} (hr : Outstanding tr n c r)
    (ho : Open (s.lines c)) : CanAnswer ω s n c r ↔ ¬ Silenced s := by
  obtain ⟨⟨o, ha⟩, ⟨env, hdn⟩, hf⟩ := hr
  constructor
  · rintro ⟨after, s', hx, hm⟩ hq
    have := (silenced_step h hq hx).2 c
    rw [List.eq_nil_iff_forall_not_mem] at this
    exact this (n, r.encode) (mem_answers.2 hm)
  intro hq
  obtain ⟨m, k1, k2⟩ := whole_net (full_exec h).1
  obtain ⟨-, k3, -, -, k5⟩ := net_split k1
  obtain ⟨ls, p, c', o', g1, g2, g3, g4⟩ := C67_deliverable k3 (by rw [k2.sim.crashed, hu.2]) (by rw [← doneIn_eq]; exact hdn) hf
  have h1 := (mem_askedBy k5).1 ha
  have := List.inj_on_of_nodup_map (C46_once k3).1 h1 g3 rfl
  simp only [Prod.mk.injEq, true_and] at this
  rw [← this.1] at g4
  obtain ⟨es, s', -, q1, -, -, -, -, -, q2⟩ := deliver h k2 hu hq ho g1 g2
  exact ⟨es, s', q1, q2 _ _ g4⟩

theorem mem_ignored {tr : List Pipe.Ev} {n : Nat} (h : .ignored n ∈ tr) : (n, .ignored) ∈ fatesOf tr := by
  induction tr with
  | nil => cases h
  | cons e tr ih =>
    rcases List.mem_cons.1 h with rfl | h
    · simp [fatesOf]
    · have := ih h
      cases e <;> simp [fatesOf, this]

theorem mem_executed {tr : List Pipe.Ev} {n : Nat} {env : Env} {r : Resp} (h : .executed n env r ∈ tr) : (n, env, r) ∈ executedOf tr := by
  induction tr with
  | nil => cases h
  | cons e tr ih =>
    rcases List.mem_cons.1 h with rfl | h
    · simp [executedOf]
    · have := ih h
      cases e <;> simp [executedOf, this]

/-- The engine is between two requests when every request it took has been dealt with. -/
theorem engine_idle {tr : List Pipe.Ev} {p : Pipe.Sys} (h : Exec Pipe.Step (Pipe.new st) tr p)
    (hi : ∀ n, .taken n ∈ tr → .ignored n ∈ tr ∨ ∃ env r, .executed n env r ∈ tr) : p.engine = none := by
  cases he : p.engine with
  | none => rfl
  | some x =>
    obtain ⟨n, m⟩ := x
    have ht := h.inv (P := fun tr p => ∀ n m, p.engine = some (n, m) → .taken n ∈ tr) (by simp [Pipe.new]) (by
      intro tr p e p' _ ih hs
      cases hs <;> grind) n m he
    have h1 := fate_count h n
    have h2 := (pipeInv h).one n
    have h3 := (pipeInv h).reads n
    rw [he] at h1 h2
    have h4 : 0 < cnt (Option.toList (some (n, m))) n := cnt_pos.2 ⟨m, by simp⟩
    rcases hi n ht with h5 | ⟨env, r, h5⟩
    · have : 0 < cnt (fatesOf tr) n := cnt_pos.2 ⟨.ignored, mem_ignored h5⟩
      omega
    · have : 0 < cnt (executedOf tr) n := cnt_pos.2 ⟨(env, r), mem_executed h5⟩
      omega

/-- What has been so from the beginning where no connection has been made. -/
theorem unconnected {tr : List Net.Ev} {n : Net.Sys} (h : Exec Net.Step (Net.new st) tr n) {c : Nat} (hc : .pipe (.connected c) ∉ tr) :
    n.pipe.conns c = none ∧ n.feeds c = Feed.new ∧ ∃ id, ∀ c', n.pipe.conns c' ≠ some id := by
  suffices (.pipe (.connected c) ∉ tr → n.pipe.conns c = none ∧ n.feeds c = Feed.new) ∧ ∃ k, ∀ c' id, n.pipe.conns c' = some id → id.length < k by
    obtain ⟨h1, k, h2⟩ := this
    exact ⟨(h1 hc).1, (h1 hc).2, List.replicate k 0, fun c' h' => by simpa using h2 c' _ h'⟩
  refine h.inv (P := fun tr n => (.pipe (.connected c) ∉ tr → n.pipe.conns c = none ∧ n.feeds c = Feed.new) ∧
    ∃ k, ∀ c' id, n.pipe.conns c' = some id → id.length < k) ⟨fun _ => ⟨rfl, rfl⟩, 0, by simp [Net.new, Pipe.new]⟩ ?_
  rintro tr n e n' - ⟨ih1, k, ih2⟩ hs
  constructor
  · intro hm
    rw [List.mem_append, not_or] at hm
    obtain ⟨i1, i2⟩ := ih1 hm.1
    have hm := hm.2
    cases hs with
    | feed c' e x h1 h2 h3 h4 h5 => exact ⟨i1, by rw [← i2]; exact upd_other _ _ (by rintro rfl; exact h3 i1)⟩
    | crash c' x h1 h2 h3 h4 => exact ⟨i1, by rw [← i2]; exact upd_other _ _ (by rintro rfl; exact h3 i1)⟩
    | read c' k o x p h1 h2 h3 =>
      cases h3 with
      | read _ id _ h4 h5 =>
        refine ⟨i1, ?_⟩
        rw [← i2]
        exact upd_other _ _ (by rintro rfl; rw [i1] at h5; cases h5)
    | pipe e p h1 h2 h3 =>
      refine ⟨?_, i2⟩
      show p.conns c = none
      cases h3 with
      | connect c' id _ _ _ => rw [← i1]; exact upd_other _ _ (by rintro rfl; simp at hm)
      | _ => exact i1
  · cases hs with
    | feed | crash => exact ⟨k, ih2⟩
    | read _ _ o x p h1 h2 h3 => cases h3 with | read => exact ⟨k, ih2⟩
    | pipe e p h1 h2 h3 =>
      cases h3 with
      | connect c' id _ _ _ =>
        refine ⟨k + id.length + 1, fun c1 id1 h1 => ?_⟩
        simp only [upd] at h1
        split at h1
        · cases h1; omega
        · have := ih2 _ _ h1; omega
      | _ => exact ⟨k, ih2⟩

theorem unconnected_line (h : Exec (Full.Step ω) (Full.new d st) tr s) {c : Nat} (hc : .pipe (.connected c) ∉ seenIn tr) : s.lines c = Conn.new := by
  revert hc
  refine h.inv (P := fun tr s => .pipe (.connected c) ∉ seenIn tr → s.lines c = Conn.new) (fun _ => rfl) ?_
  intro tr s e s' hx ih hs hc
  rw [seenIn_append, List.mem_append, not_or] at hc
  have ih := ih hc.1
  obtain ⟨m, k1, k2⟩ := whole_net (full_exec hx).1
  obtain ⟨u1, u2, -⟩ := unconnected k1 hc.1
  rw [k2.sim.conns] at u1
  rw [k2.feeds] at u2
  have other : ∀ c' x, c ≠ c' → upd s.lines c' x c = Conn.new := fun c' x h => by rw [upd_other _ _ h, ih]
  cases hs with
  | whole | send | kill => exact ih
  | readCall c' x _ h1 | own c' _ x _ h1 => exact other _ _ (by rintro rfl; exact h1 u1)
  | writeCall n c' b x _ h1 => exact other _ _ (by rintro rfl; exact writing_conn hx h1 u1)
  | closeCall c' x _ h1 => exact other _ _ (by rintro rfl; rw [u2] at h1; cases h1)
  | cut c' x _ _ h1 | finish c' _ _ x _ _ h1 => exact other _ _ (by rintro rfl; rw [ih] at h1; generalize Full.Ev.line c _ = q at *; cases h1; simp_all [Conn.new])
  | read c' _ _ _ x _ h1 | wrote _ c' _ _ x _ h1 | fail _ c' _ _ x _ h1 => exact other _ _ (by rintro rfl; rw [ih] at h1; cases h1 <;> simp_all [Conn.new])
  | refuse _ c' _ _ x _ _ h1 => exact other _ _ (by rintro rfl; rw [ih] at h1; cases h1; simp_all [Conn.new])

theorem mem_pipeOf {e : Pipe.Ev} {tr : List Net.Ev} (h : ∀ c n o, e ≠ .read c n o) : e ∈ pipeOf tr ↔ .pipe e ∈ tr := by
  induction tr with
  | nil => simp [pipeOf]
  | cons x tr ih =>
    cases x with
    | read => simp [pipeOf, ih, h]
    | _ => simp [pipeOf, ih]

/-- C83: whatever has become of the connections, as long as the process lives and the engine is between two requests, someone can connect and have a
request executed. -/
theorem C83_newcomer (h : Exec (Full.Step ω) (Full.new d st) tr s) (hu : s.up)
    (hi : ∀ n, .pipe (.taken n) ∈ seenIn tr → .pipe (.ignored n) ∈ seenIn tr ∨ ∃ env r, .pipe (.executed n env r) ∈ seenIn tr)
    {c : Nat} (hc : .pipe (.connected c) ∉ seenIn tr) {objs : List Resp} {b : Bytes} (ht : Taken (.array objs) b) {env : Env} {db : State} {r : Resp}
    (hh : handle env s.whole.hub.db objs = .ok (db, r)) :
    ∃ after s' k, Exec (Full.Step ω) s after s' ∧ s'.whole.hub.db = db ∧ seenIn after =
      [.pipe (.connected c), .feed c (.arrived b), .read c k (.array objs), .pipe (.taken k), .pipe (.executed k env r)] := by
  obtain ⟨m, k1, k2⟩ := whole_net (full_exec h).1
  obtain ⟨u1, u2, id, u3⟩ := unconnected k1 hc
  obtain ⟨-, k3, -⟩ := net_split k1
  have he := engine_idle k3 (by
    intro n hn
    rw [mem_pipeOf (by nofun)] at hn
    rcases hi n hn with h1 | ⟨env, r, h1⟩
    · exact .inl ((mem_pipeOf (by nofun)).2 h1)
    · exact .inr ⟨env, r, (mem_pipeOf (by nofun)).2 h1⟩)
  have hd : m.dead = false := by rw [k2.dead, hu.1]
  have hcr : m.pipe.crashed = false := by rw [k2.sim.crashed, hu.2]
  have hp : parse b = .ok (.array objs) [] := (C62_read _ _ _).2 ⟨b, by simp, ht⟩
  have run : ∃ m', Exec Net.Step m [.pipe (.connected c), .feed c (.arrived b), .read c m.pipe.next (.array objs), .pipe (.taken m.pipe.next),
      .pipe (.executed m.pipe.next env r)] m' ∧ m'.pipe.db = db := by
    refine ⟨_, .cons (.pipe _ _ hd rfl (.connect c id hcr u1 u3)) (.cons (.feed c _ _ hd hcr (by simp [upd]) rfl (.arrive b (by rw [u2]; rfl)))
      (.cons (.read c _ _ _ _ hd (.read _ [] (by simp [upd, u2, Feed.new]) (by simpa [upd, u2, Feed.new] using hp)) (.read c id _ hcr (by simp [upd])))
      (.cons (.pipe _ _ hd rfl (.take _ _ [] _ hcr rfl he))
      (.one (.pipe _ _ hd rfl (.execute _ _ id objs env db r hcr rfl (by rw [parseRequest_requestMap]; rfl) (by rw [← k2.sim.db] at hh; exact hh))))))), rfl⟩
  obtain ⟨m', r1, r2⟩ := run
  have hl := unconnected_line h hc
  obtain ⟨es, s', g1, g2, g3, -⟩ := net_lift h k2 r1 (by simp) (by
    intro e hm c' ht
    simp only [List.mem_cons, List.not_mem_nil, or_false] at hm
    have : c' = c := by rcases hm with rfl | rfl | rfl | rfl | rfl <;> simp [touches] at ht <;> exact ht.symm
    rw [this, hl]
    exact ⟨rfl, rfl, rfl⟩)
  exact ⟨es, s', _, g1, by rw [← g3.sim.db, r2], g2⟩

/-- Then the connection of client 7 expires. -/
theorem silenced_sample (ω : Nat → Nat) (d : Bytes) : ∃ before s, Exec (Full.Step ω) (Full.new d State.empty)
      (before ++ .line 7 (.writeCall 1 b!"$-1\r\n") :: [] ++ .line 7 .expired :: []) s ∧ s.up ∧ Open (s.lines 8) ∧ seenIn before = twoAsked ++ [.pipe (.answering 0)] ∧
      s.whole.hub.db = State.empty := by
  obtain ⟨tr, s, h1, h2, h3, h4, h5, h6, h7, h8, h9⟩ := about_to_write ω d
  have s1 := Full.Step.writeCall (ω := ω) 0 7 _ _ h3 h4 (.writeCall 1 b!"$-1\r\n" (by decide) h7 h5.flag)
  have s2 := Full.Step.own (ω := ω) (s := { s with lines := upd s.lines 7 { s.lines 7 with pcs := upd (s.lines 7).pcs 1 (.writeReset b!"$-1\r\n") } }) 7 .expired _ h3 h9 rfl
    (.expire (by simpa [upd] using h5.worker))
  exact ⟨tr, _, (h1.snoc s1).snoc s2, h3, by simpa [upd] using h6, h2, h8⟩

/-- C83: a client that stays connected and reads may never be answered. -/
theorem C83_false : ¬ Isolated := by
  intro h
  obtain ⟨before, s, hx, hu, ho, hs, -⟩ := silenced_sample (fun _ => 0) []
  have hq := (C83_silenced (.inl rfl) hx (by simp [lineOf])).1
  have hs' : seenIn (before ++ .line 7 (.writeCall 1 b!"$-1\r\n") :: [] ++ .line 7 .expired :: []) = twoAsked ++ [.pipe (.answering 0)] := by
    rw [seenIn_append, seenIn_append, hs]; rfl
  have hr : Outstanding (before ++ .line 7 (.writeCall 1 b!"$-1\r\n") :: [] ++ .line 7 .expired :: []) 1 8 .nullBulk := by
    refine ⟨⟨.array (req [b!"get", b!"k"]), ?_⟩, ⟨env0, ?_⟩, ?_⟩ <;> rw [hs'] <;> simp [askedBy, doneIn, pipeOf, fatesOf]
  exact (C83_answers_partial hx hu hr ho).1 (h _ _ _ _ _ hx hu 1 8 .nullBulk hr ho) hq

/-- The hypotheses of `C83_silenced`, `C83_answers_partial` and `C83_newcomer` can be met all at once: client 8 is never answered, and client 9, who comes
then, is heard. -/
example (ω : Nat → Nat) (d : Bytes) : ∃ before s, Exec (Full.Step ω) (Full.new d State.empty)
      (before ++ .line 7 (.writeCall 1 b!"$-1\r\n") :: [] ++ .line 7 .expired :: []) s ∧ s.up ∧ Open (s.lines 8) ∧ Silenced s ∧
      (∀ n, .pipe (.taken n) ∈ seenIn before → .pipe (.ignored n) ∈ seenIn before ∨ ∃ env r, .pipe (.executed n env r) ∈ seenIn before) ∧
      .pipe (.connected 9) ∉ seenIn before ∧ Taken (.array (req [b!"get", b!"k"])) getBytes ∧
      handle env0 s.whole.hub.db (req [b!"get", b!"k"]) = .ok (State.empty, .nullBulk) := by
  obtain ⟨before, s, hx, hu, ho, hs, hd⟩ := silenced_sample ω d
  obtain ⟨b, e, ht⟩ := (C62_read getBytes (.array (req [b!"get", b!"k"])) []).1 (by rfl)
  rw [List.append_nil] at e
  refine ⟨before, s, hx, hu, ho, (C83_silenced (.inl rfl) hx (by simp [lineOf])).1, ?_, ?_, e ▸ ht, by rw [hd]; rfl⟩
  · rw [hs]
    intro n hn
    simp at hn
    rcases hn with rfl | rfl <;> exact .inr ⟨env0, .nullBulk, by simp⟩
  · rw [hs]; simp

/-- Those of `C83_stalled` can be met. -/
example (ω : Nat → Nat) (d : Bytes) : ∃ tr s, Exec (Full.Step ω) (Full.new d State.empty) tr s ∧ s.whole.hub.worker = .writing 0 7 b!"$-1\r\n" ∧
    (s.lines 7).pcs 1 = .writing b!"$-1\r\n" ∧ (s.lines 7).flag = false ∧ (s.lines 7).client = .stalled ∧ Open (s.lines 8) := by
  obtain ⟨tr, s, h1, h2, h3, h4, h5, h6, h7, h8, h9⟩ := about_to_write ω d
  obtain ⟨es, g1, -, -⟩ := to_write h1 h5 h3 h4
  have s2 := Full.Step.own (ω := ω) (s := { s with lines := upd s.lines 7 { s.lines 7 with pcs := upd (s.lines 7).pcs 1 (.writing b!"$-1\r\n") } }) 7 (.client .stalled) _ h3 h9
    rfl (.client _ (by simp [upd, h5.client]))
  exact ⟨_, _, (h1.append g1).snoc s2, h4, by simp [upd], by simpa [upd] using h5.flag, by simp [upd], by simpa [upd] using h6⟩

end Verif.Props
