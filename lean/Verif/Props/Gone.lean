import Verif.Spec.Gone
import Verif.Props.Proc
import Verif.Props.Stop
import Verif.Props.Fair

/-! # C91 – a process told to stop is gone in the end -/

namespace Verif.Props

open Spec
open Fut (upd)

variable {m : Bool} {ω : Nat → Nat} {d : Bytes} {st : State} {s s' : Proc.Sys}

/-! ### the response worker on both sides -/

/-- Where the response worker is, and how many responses wait for it. -/
structure Phased (s : Proc.Sys) : Prop where
  worker : s.stop.worker = phase s.full.whole.hub.worker ∨ s.stop.worker = .left ∧ phase s.full.whole.hub.worker ≠ .handling
  queue : s.stop.queue.count false = waiting s.full.whole.hub

theorem whole_turn {w w' : Whole.Sys} {e : Whole.Ev} (hs : Whole.Step ω w e w') : w'.hub = w.hub ∨ Turn e w.hub w'.hub := by
  rcases whole_outer hs with ⟨x, h, rfl⟩ | ⟨h, -⟩
  · exact .inr (hub_turn h)
  · exact .inl h

/-- What stopping makes of where the response worker is, and of what waits for it. -/
theorem stop_keeps {cfg : Stop.Config} {t t' : Stop.Sys} {x : Stop.Ev} (hs : Stop.Step cfg ω t x t') :
    (t'.worker = t.worker ∨ (x = .workerLeft ∧ t'.worker = .left ∧ (t.worker = .top ∨ t.worker = .receiving)) ∨ (x = .workerWaits ∧ t.worker = .top ∧ t'.worker = .receiving) ∨
      (x = .workerGot ∧ t.worker = .receiving ∧ t'.worker = .handling) ∨ (x = .workerDone ∧ t.worker = .handling ∧ t'.worker = .top)) ∧
    (t'.queue.count false = t.queue.count false ∨ (x = .response ∧ t'.queue.count false = t.queue.count false + 1) ∨
      (x = .workerGot ∧ t.queue.count false = t'.queue.count false + 1)) := by
  obtain ⟨-, -, hr⟩ := hs
  cases hr <;> simp_all

theorem phased_step (hs : Proc.Step m ω s e s') (hp : Phased s) : Phased s' := by
  obtain ⟨h1, h2⟩ := hp
  cases hs with
  | full e f _ ha hs =>
    rcases full_within hs with ⟨w, g1, g2⟩ | ⟨g1, g2⟩
    · have hn := (ha w g1).2
      rcases whole_turn g2 with h | h
      · exact ⟨by simpa only [h] using h1, by simpa only [h] using h2⟩
      · cases h with
        | other _ k1 k2 => exact ⟨by simpa only [k1] using h1, by simpa only [k2] using h2⟩
        | connected c => exact absurd (.accepted c) (hn _)
        | queued n => exact absurd (.queued n) (hn _)
        | waits => exact absurd .waits (hn _)
        | answering n => exact absurd (.answering n) (hn _)
        | wrote c n b => exact absurd (.wrote c n b) (hn _)
        | refused c n => exact absurd (.refused c n) (hn _)
        | nobody n => exact absurd (.nobody n) (hn _)
    · exact ⟨by simpa only [g2] using h1, by simpa only [g2] using h2⟩
  | both e x w f t _ hw hx _ hs ht =>
    have g : Whole.Step ω s.full.whole w f.whole := by
      rcases full_within hs with ⟨w', g1, g2⟩ | ⟨g1, -⟩
      · rw [hw] at g1; cases g1; exact g2
      · rw [hw] at g1; cases g1
    obtain ⟨-, -, hr⟩ := ht
    have tn : (f.whole.hub = s.full.whole.hub ∧ ((∃ q, w = .recorded q) ∨ w = .flushed)) ∨ Turn w s.full.whole.hub f.whole.hub := by
      rcases whole_outer g with ⟨y, h, rfl⟩ | ⟨h, ⟨c, y, rfl⟩ | ⟨q, rfl⟩ | ⟨q, rfl⟩ | rfl⟩
      · exact .inr (hub_turn h)
      · cases hx
      · cases hx
      · exact .inl ⟨h, .inl ⟨_, rfl⟩⟩
      · exact .inl ⟨h, .inr rfl⟩
    show Phased { s with full := f, stop := t }
    rcases tn with ⟨hh, hw'⟩ | tn
    · have : t.worker = s.stop.worker ∧ t.queue = s.stop.queue := by
        cases hx <;> first | (rcases hw' with ⟨q, h⟩ | h <;> cases h; done) | (cases hr <;> exact ⟨rfl, rfl⟩)
      exact ⟨by simpa only [hh, this.1] using h1, by simpa only [hh, this.2] using h2⟩
    · cases tn with
      | other hn => exact absurd hx (hn _)
      | connected c k1 k2 => cases hx; cases hr; exact ⟨by simpa only [k1] using h1, by simpa only [k2] using h2⟩
      | queued n k1 k2 =>
        cases hx
        cases hr
        exact ⟨by simpa only [k1] using h1, by show List.count false (s.stop.queue ++ [false]) = _; rw [k2, List.count_append, h2]; rfl⟩
      | waits k1 k2 k3 => cases hx; cases hr; exact ⟨.inl k2.symm, by simpa only [k3] using h2⟩
      | answering n k1 k2 k3 =>
        cases hx
        cases hr with
        | workerGot q _ hq => exact ⟨.inl k2.symm, by show List.count false q = _; rw [hq, k3] at h2; simpa using h2⟩
      | wrote c n b k1 k2 k3 => cases hx; cases hr; exact ⟨.inl k2.symm, by simpa only [k3] using h2⟩
      | refused c n k1 k2 k3 => cases hx; cases hr; exact ⟨.inl k2.symm, by simpa only [k3] using h2⟩
      | nobody n k1 k2 k3 => cases hx; cases hr; exact ⟨.inl k2.symm, by simpa only [k3] using h2⟩
  | stop x t _ ho ht =>
    have k := stop_keeps ht
    constructor
    · show t.worker = _ ∨ t.worker = _ ∧ _
      rcases k.1 with k | ⟨-, k, k'⟩ | ⟨rfl, -⟩ | ⟨rfl, -⟩ | ⟨rfl, -⟩
      · rw [k]; exact h1
      · refine .inr ⟨k, ?_⟩
        rcases h1 with h1 | h1
        · rw [← h1]; rcases k' with k' | k' <;> rw [k'] <;> simp
        · exact h1.2
      all_goals cases ho
    · rcases k.2 with k | ⟨rfl, -⟩ | ⟨rfl, -⟩
      · exact k.trans h2
      all_goals cases ho
  | told i t _ _ _ ht =>
    have k := stop_keeps ht
    simp at k
    exact ⟨by simpa only [k.1] using h1, by simpa only [k.2] using h2⟩
  | engineLeft => exact ⟨h1, h2⟩

theorem phased (h : Exec (Proc.Step m ω) (Proc.new d st) tr s) : Phased s := by
  refine h.inv (P := fun _ s => Phased s) ⟨.inl rfl, rfl⟩ ?_
  rintro tr s e s' - ih hs
  exact phased_step hs ih

/-! ### stopping -/

/-- What is so while the server is stopped. -/
structure StopSense (tr : List Stop.Ev) (t : Stop.Sys) : Prop where
  none : t.shutdown = false → t.shut = false ∧ t.listening = true ∧ true ∉ t.queue ∧ t.worker ≠ .left ∧ t.acceptor = true ∧ ∀ i, t.pcs i = .idle ∨ t.pcs i = .called ∧ i ≠ 0
  main : t.pcs 0 = .idle ∨ t.worker = .left ∧ (t.pcs 0 = .called ∨ t.pcs 0 = .returning)
  exited : t.exited = true → t.worker = .left
  shut : t.shut = true → t.listening = false
  closing : ∀ i, t.pcs i = .doing .closeShut → t.listening = false
  called : (∀ i, i ≠ 0 → .call i ∉ tr) → t.shutdown = false ∧ ∀ i, t.pcs i = .idle

set_option maxHeartbeats 4000000 in
theorem stopSense {cfg : Stop.Config} {tr : List Stop.Ev} {t : Stop.Sys} (h : Exec (Stop.Step cfg ω) (Stop.new d) tr t) : StopSense tr t := by
  refine h.inv (P := fun tr t => StopSense tr t) ?_ ?_
  · constructor <;> simp [Stop.new]
  · rintro tr t x t' - ⟨h1, h2, h3, h4, h5, h6⟩ ⟨-, -, hr⟩
    cases hr <;> constructor <;> grind [upd]

/-- Who is closing the server. -/
theorem who_closes {cfg : Stop.Config} {tr : List Stop.Ev} {t : Stop.Sys} (h : Exec (Stop.Step cfg ω) (Stop.new d) tr t) (hs : t.shutdown = true) (hn : t.shut = false) :
    ∃ i, t.pcs i = .doing .removeRequest ∨ t.pcs i = .doing .removeResponse ∨ t.pcs i = .doing .closeListener ∨ t.pcs i = .doing .closeShut := by
  have hi := stopInv h
  have hc : Stop.Act.closeShut ∉ shutdownOf tr := fun hm => by rw [hi.shut.2 hm] at hn; cases hn
  by_cases hb : ∃ i l, (t.pcs i).before = some l
  · obtain ⟨i, l, hl⟩ := hb
    have hp := hi.pos i l hl
    refine ⟨i, ?_⟩
    cases hq : t.pcs i with
    | doing a => cases a <;> simp_all [Stop.Pc.before] <;> subst hl <;> simp at hc
    | inMaster => simp_all [Stop.Pc.before]; subst hl; simp at hc
    | _ => simp [hq, Stop.Pc.before] at hl
  · refine absurd ?_ hc
    rw [hi.fin hs fun i => by
      cases hq : (t.pcs i).before with
      | none => rfl
      | some l => exact absurd ⟨i, l, hq⟩ hb]
    simp [shutdownSequence]

/-! ### in the course of time -/

/-- The part stopping has in what happens. -/
theorem stop_part {e : Proc.Ev} (hs : Proc.Step m ω s e s') : (s'.stop = s.stop ∧ ∃ e', e = .full e' ∨ e = .engineLeft) ∨
    ∃ x, Stop.Run ⟨m, true⟩ ω s.stop x s'.stop ∧ (e = .stop x ∨ ∃ e', e = .both e' x) := by
  cases hs with
  | full e f => exact .inl ⟨rfl, e, .inl rfl⟩
  | both e x w f t _ _ _ _ _ ht => exact .inr ⟨x, ht.2.2, .inr ⟨e, rfl⟩⟩
  | stop x t _ _ ht => exact .inr ⟨x, ht.2.2, .inl rfl⟩
  | told i t _ _ _ ht => exact .inr ⟨_, ht.2.2, .inl rfl⟩
  | engineLeft => exact .inl ⟨rfl, .line 0 .expired, .inr rfl⟩

variable {r : Run (Proc.Step m ω) (Proc.new d st)}

theorem stop_run (r : Run (Proc.Step m ω) (Proc.new d st)) (j : Nat) : Exec (Stop.Step ⟨m, true⟩ ω) (Stop.new d) (stopOf (r.until j)) (r.state j).stop :=
  (proc_exec (run_exec r j)).2.1

/-- As `leads`, for what only has to do with stopping. -/
theorem stop_leads (hu : ∀ j, (r.state j).up) {g : StopPart} (hg : g ≠ .worker) (hf : r.Fair (PartOf g)) (P Q : Stop.Sys → Prop) {i : Nat} (hi : P (r.state i).stop)
    (keep : ∀ t x t', P t → Stop.Run ⟨m, true⟩ ω t x t' → P t' ∨ Q t')
    (can : ∀ j, i ≤ j → P (r.state j).stop → ∃ x t', PartOf g (.stop x) ∧ Proc.own x = true ∧ Stop.Run ⟨m, true⟩ ω (r.state j).stop x t')
    (does : ∀ t x t', P t → Stop.Run ⟨m, true⟩ ω t x t' → (PartOf g (.stop x) ∨ ∃ e, PartOf g (.both e x)) → Q t') : ∃ j, i ≤ j ∧ Q (r.state j).stop := by
  refine leads r hf (fun s => P s.stop) (fun j => Q (r.state j).stop) hi ?_ ?_ ?_
  · intro j l _ hp hl
    rcases stop_part (run_step r hl) with ⟨h, -⟩ | ⟨x, h, -⟩
    · exact .inl (by simpa only [h] using hp)
    · exact keep _ _ _ hp h
  · intro j hj hp
    obtain ⟨x, t', h1, h2, h3⟩ := can j hj hp
    exact ⟨_, _, h1, .stop x t' (hu j) h2 ⟨(hu j).2.1, (hu j).2.2, h3⟩⟩
  · intro j l _ hp hl ha
    rcases stop_part (run_step r hl) with ⟨-, e', rfl | rfl⟩ | ⟨x, h, rfl | ⟨e', rfl⟩⟩
    · cases ha; exact absurd rfl hg
    · cases ha
    · exact does _ _ _ hp h (.inl ha)
    · exact does _ _ _ hp h (.inr ⟨e', ha⟩)

/-- What stopping does not undo. -/
theorem stop_lasts (P : Stop.Sys → Prop) {i : Nat} (hi : P (r.state i).stop) (keep : ∀ t x t', P t → Stop.Run ⟨m, true⟩ ω t x t' → P t') {j : Nat} (hj : i ≤ j) :
    P (r.state j).stop := by
  refine lasts r (fun s => P s.stop) hi ?_ hj
  intro j l _ hp hl
  rcases stop_part (run_step r hl) with ⟨h, -⟩ | ⟨x, h, -⟩
  · simpa only [h] using hp
  · exact keep _ _ _ hp h

/-- What a caller does. -/
theorem caller_does {i : Nat} {x : Stop.Ev} (h : PartOf (.caller i) (.stop x) ∨ ∃ e, PartOf (.caller i) (.both e x)) :
    (x = .call 0 ∧ i = 0) ∨ x = .won i ∨ x = .lost i ∨ (∃ a, x = .did i a) ∨ x = .masterLeft i ∨ x = .returned i ∨ (x = .exit ∧ i = 0) := by
  rcases h with h | ⟨e, h⟩ <;> cases h <;> simp

theorem called_shutdown (hf : r.FairToStop) (hu : ∀ j, (r.state j).up) {i k : Nat} (h : (r.state i).stop.pcs k = .called) :
    ∃ j, i ≤ j ∧ (r.state j).stop.shutdown = true := by
  refine stop_leads hu (by simp) (hf (.caller k)) (fun t => t.pcs k = .called) (fun t => t.shutdown = true) h ?_ ?_ ?_
  · intro t x t' hp hr
    cases hr <;> grind [upd]
  · intro j _ hp
    cases hs : (r.state j).stop.shutdown with
    | false => exact ⟨_, _, .won k, rfl, .won k hp hs⟩
    | true => exact ⟨_, _, .lost k, rfl, .lost k hp hs⟩
  · intro t x t' hp hr ha
    rcases caller_does ha with ⟨rfl, rfl⟩ | rfl | rfl | ⟨a, rfl⟩ | rfl | rfl | ⟨rfl, rfl⟩ <;> cases hr <;> simp_all

/-- The one who closes goes on. -/
theorem closing_moves (hf : r.FairToStop) (hu : ∀ j, (r.state j).up) {i k : Nat} {a b : Stop.Act}
    (hab : (a = .removeRequest ∧ b = .removeResponse) ∨ (a = .removeResponse ∧ b = .closeListener) ∨ (a = .closeListener ∧ b = .closeShut))
    (h : (r.state i).stop.pcs k = .doing a) : ∃ j, i ≤ j ∧ (r.state j).stop.pcs k = .doing b := by
  refine stop_leads hu (by simp) (hf (.caller k)) (fun t => t.pcs k = .doing a) (fun t => t.pcs k = .doing b) h ?_ ?_ ?_
  · intro t x t' hp hr
    cases hr <;> grind [upd]
  · intro j _ hp
    rcases hab with ⟨rfl, rfl⟩ | ⟨rfl, rfl⟩ | ⟨rfl, rfl⟩
    · exact ⟨_, _, .did k _, rfl, .removeRequest k hp⟩
    · exact ⟨_, _, .did k _, rfl, .removeResponseExpired k hp⟩
    · exact ⟨_, _, .did k _, rfl, .closeListener k hp⟩
  · intro t x t' hp hr ha
    rcases caller_does ha with ⟨rfl, rfl⟩ | rfl | rfl | ⟨a, rfl⟩ | rfl | rfl | ⟨rfl, rfl⟩ <;> cases hr <;> grind [upd]

theorem closing_shut (hf : r.FairToStop) (hu : ∀ j, (r.state j).up) {i k : Nat} (h : (r.state i).stop.pcs k = .doing .closeShut) :
    ∃ j, i ≤ j ∧ (r.state j).stop.shut = true := by
  refine stop_leads hu (by simp) (hf (.caller k)) (fun t => t.pcs k = .doing .closeShut) (fun t => t.shut = true) h ?_ ?_ ?_
  · intro t x t' hp hr
    cases hr <;> grind [upd]
  · intro j _ hp
    have hi := stopInv (stop_run r j)
    refine ⟨_, _, .did k _, rfl, .closeShut k hp ?_⟩
    cases hs : (r.state j).stop.shut with
    | false => rfl
    | true =>
      have h1 := hi.shut.1 hs
      rw [hi.pos k _ (by rw [hp]; rfl)] at h1
      simp at h1
  · intro t x t' hp hr ha
    rcases caller_does ha with ⟨rfl, rfl⟩ | rfl | rfl | ⟨a, rfl⟩ | rfl | rfl | ⟨rfl, rfl⟩ <;> cases hr <;> simp_all

/-- Whoever wins closes the listener and tells everybody. -/
theorem shutdown_shut (hf : r.FairToStop) (hu : ∀ j, (r.state j).up) {i : Nat} (h : (r.state i).stop.shutdown = true) :
    ∃ j, i ≤ j ∧ (r.state j).stop.shut = true := by
  cases hs : (r.state i).stop.shut with
  | true => exact ⟨i, Nat.le_refl i, hs⟩
  | false =>
    have c4 : ∀ i k, (r.state i).stop.pcs k = .doing .closeShut → ∃ j, i ≤ j ∧ (r.state j).stop.shut = true := fun i k => closing_shut hf hu
    have c3 : ∀ i k, (r.state i).stop.pcs k = .doing .closeListener → ∃ j, i ≤ j ∧ (r.state j).stop.shut = true := fun i k hk => by
      obtain ⟨j, h1, h2⟩ := closing_moves hf hu (.inr (.inr ⟨rfl, rfl⟩)) hk
      obtain ⟨l, h3, h4⟩ := c4 j k h2
      exact ⟨l, by omega, h4⟩
    have c2 : ∀ i k, (r.state i).stop.pcs k = .doing .removeResponse → ∃ j, i ≤ j ∧ (r.state j).stop.shut = true := fun i k hk => by
      obtain ⟨j, h1, h2⟩ := closing_moves hf hu (.inr (.inl ⟨rfl, rfl⟩)) hk
      obtain ⟨l, h3, h4⟩ := c3 j k h2
      exact ⟨l, by omega, h4⟩
    obtain ⟨k, hk | hk | hk | hk⟩ := who_closes (stop_run r i) h hs
    · obtain ⟨j, h1, h2⟩ := closing_moves hf hu (.inl ⟨rfl, rfl⟩) hk
      obtain ⟨l, h3, h4⟩ := c2 j k h2
      exact ⟨l, by omega, h4⟩
    · exact c2 i k hk
    · exact c3 i k hk
    · exact c4 i k hk

/-- The goroutine that accepts leaves. -/
theorem acceptor_leaves (hf : r.FairToStop) (hu : ∀ j, (r.state j).up) {i : Nat} (h : (r.state i).stop.shut = true) : ∃ j, i ≤ j ∧ (r.state j).stop.acceptor = false := by
  cases ha : (r.state i).stop.acceptor with
  | false => exact ⟨i, Nat.le_refl i, ha⟩
  | true =>
    refine stop_leads hu (by simp) (hf .acceptor) (fun t => t.acceptor = true ∧ t.listening = false) (fun t => t.acceptor = false)
      ⟨ha, (stopSense (stop_run r i)).shut h⟩ ?_ ?_ ?_
    · intro t x t' hp hr
      cases hr <;> grind
    · intro j _ hp
      exact ⟨_, _, .acceptorLeft, rfl, .acceptorErr hp.1 hp.2⟩
    · intro t x t' hp hr ha
      rcases ha with ha | ⟨e, ha⟩ <;> cases ha <;> cases hr <;> simp_all

/-- When those two have left, `main` returns. -/
theorem main_returns (hf : r.FairToStop) (hu : ∀ j, (r.state j).up) {i : Nat} (h1 : (r.state i).stop.acceptor = false) (h2 : (r.state i).stop.worker = .left) : False := by
  have sd : ∀ j, i ≤ j → (r.state j).stop.acceptor = false ∧ (r.state j).stop.worker = .left ∧ (r.state j).stop.shutdown = true := by
    intro j hj
    obtain ⟨g1, g2⟩ := stop_lasts (r := r) (fun t => t.acceptor = false ∧ t.worker = .left) ⟨h1, h2⟩
      (by rintro t x t' ⟨g1, g2⟩ hr; cases hr <;> simp_all) hj
    refine ⟨g1, g2, ?_⟩
    by_contra hn
    have := (stopSense (stop_run r j)).none (by simpa using hn)
    exact this.2.2.2.1 g2
  have c3 : ∀ j, i ≤ j → (r.state j).stop.pcs 0 = .returning → False := by
    intro j hj hp
    obtain ⟨k, -, hk⟩ := stop_leads hu (by simp) (hf (.caller 0)) (fun t => t.pcs 0 = .returning) (fun t => t.exited = true) hp
      (by intro t x t' hp hr; cases hr <;> grind [upd])
      (fun j _ hp => ⟨_, _, .exit, rfl, .exit hp⟩)
      (by
        intro t x t' hp hr ha
        rcases caller_does ha with ⟨rfl, -⟩ | rfl | rfl | ⟨a, rfl⟩ | rfl | rfl | ⟨rfl, -⟩ <;> cases hr <;> simp_all)
    rw [(hu k).2.2] at hk
    cases hk
  have c2 : ∀ j, i ≤ j → (r.state j).stop.pcs 0 = .called → False := by
    intro j hj hp
    obtain ⟨k, h3, hk⟩ := stop_leads hu (by simp) (hf (.caller 0)) (fun t => t.pcs 0 = .called ∧ t.shutdown = true) (fun t => t.pcs 0 = .returning) ⟨hp, (sd j hj).2.2⟩
      (by intro t x t' hp hr; cases hr <;> grind [upd])
      (fun j _ hp => ⟨_, _, .lost 0, rfl, .lost 0 hp.1 hp.2⟩)
      (by
        intro t x t' hp hr ha
        rcases caller_does ha with ⟨rfl, -⟩ | rfl | rfl | ⟨a, rfl⟩ | rfl | rfl | ⟨rfl, -⟩ <;> cases hr <;> simp_all [upd])
    exact c3 k (by omega) hk
  rcases (stopSense (stop_run r i)).main with hp | ⟨-, hp | hp⟩
  · obtain ⟨k, h3, hk⟩ := stop_leads hu (by simp) (hf (.caller 0)) (fun t => t.pcs 0 = .idle ∧ t.acceptor = false ∧ t.worker = .left) (fun t => t.pcs 0 = .called) ⟨hp, h1, h2⟩
      (by intro t x t' hp hr; cases hr <;> grind [upd])
      (fun j _ hp => ⟨_, _, .main, rfl, .mainCall hp.1 hp.2.1 hp.2.2⟩)
      (by
        intro t x t' hp hr ha
        rcases caller_does ha with ⟨rfl, -⟩ | rfl | rfl | ⟨a, rfl⟩ | rfl | rfl | ⟨rfl, -⟩ <;> cases hr <;> simp_all [upd])
    exact c2 k h3 hk
  · exact c2 i (Nat.le_refl i) hp
  · exact c3 i (Nat.le_refl i) hp

/-! ### the response worker -/

theorem proc_at (r : Run (Proc.Step m ω) (Proc.new d st)) (j : Nat) : At st (fullOf (r.until j)) (r.state j).full := at_exec (proc_exec (run_exec r j)).1

theorem proc_only {e : Proc.Ev} (hi : ∀ c, LineInv s.full c) (hs : Proc.Step m ω s e s') :
    PartOf .worker e ∨ (s'.full.whole.hub.worker = s.full.whole.hub.worker ∧ ∀ c, ((s'.full.lines c).pcs 1) = ((s.full.lines c).pcs 1)) := by
  cases hs with
  | full e f _ _ h =>
    rcases worker_only hi h with h | h
    · exact .inl (.works e h)
    · exact .inr h
  | both e x w f t _ _ _ _ h =>
    rcases worker_only hi h with h | h
    · exact .inl (.moves e x h)
    · exact .inr h
  | stop | told | engineLeft => exact .inr ⟨rfl, fun _ => rfl⟩

theorem proc_does {e : Proc.Ev} (hi : ∀ c, LineInv s.full c) (hs : Proc.Step m ω s e s') (hd : PartOf .worker e) :
    Turns s.full s'.full ∨ (s'.full = s.full ∧ s'.stop.worker = .left ∧ (s.stop.worker = .top ∨ s.stop.worker = .receiving)) := by
  cases hd with
  | workerLeft =>
    cases hs with
    | stop _ t _ _ ht =>
      obtain ⟨-, -, hr⟩ := ht
      cases hr with
      | workerShut j h => exact .inr ⟨rfl, rfl, .inl h⟩
      | workerRemoved q h => exact .inr ⟨rfl, rfl, .inr h⟩
  | works e hd => cases hs with | full _ f _ _ h => exact .inl (worker_does hi h hd)
  | moves e x hd => cases hs with | both _ _ w f t _ _ _ _ h => exact .inl (worker_does hi h hd)

/-- What the response worker does in the server can happen in the process. -/
theorem alone_possible {e : Full.Ev} {f : Full.Sys} (hu : s.up) (hd : DoneBy .worker e) (hs : Full.Step ω s.full e f)
    (hw : ∀ w, Proc.within e = some w → ∀ x, ¬ Proc.Pair w x) : Possible (Proc.Step m ω) (PartOf .worker) s := by
  refine ⟨_, _, .works e hd, .full e f hu (fun w h => ⟨?_, hw w h⟩) hs⟩
  cases hd <;> simp [Proc.within, onTheWay, inTopic] at h <;> subst h <;> exact ⟨by simp [Proc.requestMoves], by simp [Proc.responseMoves], by simp [Proc.engineWaits], by simp [Proc.engineTakes]⟩

theorem both_possible {e : Full.Ev} {f : Full.Sys} {w : Whole.Ev} {x : Stop.Ev} {t : Stop.Sys} (hu : s.up) (hd : DoneBy .worker e) (hs : Full.Step ω s.full e f)
    (hw : Proc.within e = some w) (hx : Proc.Pair w x) (ht : Stop.Run ⟨m, true⟩ ω s.stop x t) : Possible (Proc.Step m ω) (PartOf .worker) s := by
  refine ⟨_, _, .moves e x hd, .both e x w f t hu hw hx ?_ hs ⟨hu.2.1, hu.2.2, ht⟩⟩
  cases hd <;> simp [Proc.within, onTheWay, inTopic] at hw <;> subst hw <;> exact ⟨by simp [Proc.requestMoves], by simp [Proc.responseMoves], by simp [Proc.engineWaits], by simp [Proc.engineTakes]⟩

theorem run_phased (r : Run (Proc.Step m ω) (Proc.new d st)) (j : Nat) : Phased (r.state j) := phased (run_exec r j)

theorem is_handling {j : Nat} (h : phase (r.state j).full.whole.hub.worker = .handling) : (r.state j).stop.worker = .handling := by
  rcases (run_phased r j).worker with g | ⟨-, g⟩
  · rw [g, h]
  · exact absurd h g

theorem gone_writing (hf : r.FairToStop) (hu : ∀ j, (r.state j).up) (hh : ¬ r.WritesForever) {n c : Nat} {b : Bytes} {i : Nat}
    (hw : (r.state i).full.whole.hub.worker = .writing n c b) (hp : ((r.state i).full.lines c).pcs 1 = .writing b) :
    ∃ j, i ≤ j ∧ (r.state j).full.whole.hub.worker = .away := by
  by_contra hn
  have hn : ∀ j, i ≤ j → (r.state j).full.whole.hub.worker ≠ .away := fun j hj h => hn ⟨j, hj, h⟩
  have all : ∀ j, i ≤ j → (r.state j).full.whole.hub.worker = .writing n c b ∧ ((r.state j).full.lines c).pcs 1 = .writing b := by
    intro j hj
    refine lasts r (fun s => s.full.whole.hub.worker = .writing n c b ∧ (s.full.lines c).pcs 1 = .writing b) ⟨hw, hp⟩ ?_ hj
    rintro j l hj ⟨h1, h2⟩ he
    rcases proc_only (proc_at r j).line (run_step r he) with h | ⟨h, h'⟩
    · have := hn (j + 1) (by omega)
      rcases proc_does (proc_at r j).line (run_step r he) h with h | ⟨h, -⟩
      · cases h <;> simp_all
      · rw [h]; exact ⟨h1, h2⟩
    · exact ⟨h.trans h1, (h' c).trans h2⟩
  obtain ⟨k, hk, hs⟩ : ∃ k, i ≤ k ∧ ∀ j, k ≤ j → ((r.state j).full.lines c).client ≠ .stalled := by
    by_contra hs
    refine hh ⟨i, c, b, .inr ⟨fun j hj => (all j hj).2, fun j hj => ?_⟩⟩
    by_contra hj'
    exact hs ⟨j, hj, fun k hk h => hj' ⟨k, hk, h⟩⟩
  obtain ⟨j, l, h1, h2, h3⟩ := hf .worker k fun j hj => by
    obtain ⟨g1, g2⟩ := all j (by omega)
    obtain ⟨u1, u2⟩ := (hu j).1
    have hd := is_handling (r := r) (j := j) (by rw [g1]; rfl)
    cases hs' : ((r.state j).full.lines c).sock with
    | false =>
      exact both_possible (hu j) (.wrote c n b) (.wrote n c b _ _ (.pass _ _ u1 rfl (.write n c b u2 g1)) (.wrote 1 b g2 hs' (hs j hj))) rfl (.wrote c n b) (.workerDone hd)
    | true => exact both_possible (hu j) (.fail c n b) (.fail n c b _ _ (.pass _ _ u1 rfl (.refuse n c b u2 g1)) (.writeErr 1 b g2 hs')) rfl (.refused c n) (.workerDone hd)
  obtain ⟨g1, g2⟩ := all j (by omega)
  have hd := is_handling (r := r) (j := j) (by rw [g1]; rfl)
  have := hn (j + 1) (by omega)
  have := all (j + 1) (by omega)
  rcases proc_does (proc_at r j).line (run_step r h2) h3 with h | ⟨-, -, h⟩
  · cases h <;> simp_all
  · rw [hd] at h; simp at h

theorem select_never {e : Proc.Ev} (hs : Proc.Step m ω s e s') (c : Nat) (h : (s.full.lines c).worker ≠ .selecting) : (s'.full.lines c).worker ≠ .selecting := by
  cases hs with
  | full e f _ _ hs => exact never_select hs c h
  | both e x w f t _ _ _ _ hs => exact never_select hs c h
  | stop | told | engineLeft => exact h

theorem gone_reset (hf : r.FairToStop) (hu : ∀ j, (r.state j).up) (hh : ¬ r.WritesForever) {n c : Nat} {b : Bytes} {i : Nat}
    (hw : (r.state i).full.whole.hub.worker = .writing n c b) (hp : ((r.state i).full.lines c).pcs 1 = .writeReset b) :
    ∃ j, i ≤ j ∧ (r.state j).full.whole.hub.worker = .writing n c b ∧ ((r.state j).full.lines c).pcs 1 = .writing b := by
  by_contra hn
  have hn : ∀ j, i ≤ j → ¬ ((r.state j).full.whole.hub.worker = .writing n c b ∧ ((r.state j).full.lines c).pcs 1 = .writing b) := fun j hj h => hn ⟨j, hj, h⟩
  have all : ∀ j, i ≤ j → (r.state j).full.whole.hub.worker = .writing n c b ∧ ((r.state j).full.lines c).pcs 1 = .writeReset b := by
    intro j hj
    refine lasts r (fun s => s.full.whole.hub.worker = .writing n c b ∧ (s.full.lines c).pcs 1 = .writeReset b) ⟨hw, hp⟩ ?_ hj
    rintro j l hj ⟨h1, h2⟩ he
    rcases proc_only (proc_at r j).line (run_step r he) with h | ⟨h, h'⟩
    · have := hn (j + 1) (by omega)
      rcases proc_does (proc_at r j).line (run_step r he) h with h | ⟨h, -⟩
      · cases h <;> simp_all
      · rw [h]; exact ⟨h1, h2⟩
    · exact ⟨h.trans h1, (h' c).trans h2⟩
  have sel : ∀ j, i ≤ j → ((r.state j).full.lines c).worker = .selecting := by
    intro j hj
    by_contra hs
    refine hh ⟨j, c, b, .inl fun k hk => ⟨(all k (by omega)).2, ?_⟩⟩
    exact lasts r (fun s => (s.full.lines c).worker ≠ .selecting) hs (fun j l _ h he => select_never (run_step r he) c h) hk
  obtain ⟨j, l, h1, h2, h3⟩ := hf .worker i fun j hj => by
    obtain ⟨g1, g2⟩ := all j hj
    exact alone_possible (hu j) (.writeReset c) (.own c _ _ (hu j).1 ((proc_at r j).conn n c b g1) rfl (.writeReset 1 b g2 (sel j hj))) (by simp [Proc.within])
  obtain ⟨g1, g2⟩ := all j (by omega)
  have hd := is_handling (r := r) (j := j) (by rw [g1]; rfl)
  have := hn (j + 1) (by omega)
  have := all (j + 1) (by omega)
  rcases proc_does (proc_at r j).line (run_step r h2) h3 with h | ⟨-, -, h⟩
  · cases h <;> simp_all
  · rw [hd] at h; simp at h

/-- The response worker gets away from any connection. -/
theorem gone_away (hf : r.FairToStop) (hu : ∀ j, (r.state j).up) (hh : ¬ r.WritesForever) {n c : Nat} {b : Bytes} {i : Nat}
    (hw : (r.state i).full.whole.hub.worker = .writing n c b) : ∃ j, i ≤ j ∧ (r.state j).full.whole.hub.worker = .away := by
  have reset : ∀ i, (r.state i).full.whole.hub.worker = .writing n c b → ((r.state i).full.lines c).pcs 1 = .writeReset b →
      ∃ j, i ≤ j ∧ (r.state j).full.whole.hub.worker = .away := by
    intro i hw hp
    obtain ⟨j, h1, h2, h3⟩ := gone_reset hf hu hh hw hp
    obtain ⟨k, h4, h5⟩ := gone_writing hf hu hh h2 h3
    exact ⟨k, by omega, h5⟩
  rcases ((proc_at r i).line c).writer with hp | ⟨b', n', hp, hw'⟩
  · obtain ⟨j, hj, h⟩ := leads r (hf .worker) (fun s => s.full.whole.hub.worker = .writing n c b ∧ (s.full.lines c).pcs 1 = .idle)
      (fun j => (r.state j).full.whole.hub.worker = .away ∨ (r.state j).full.whole.hub.worker = .writing n c b ∧ ((r.state j).full.lines c).pcs 1 = .writeReset b) ⟨hw, hp⟩
      (fun j l _ ⟨h1, h2⟩ he => by
        rcases proc_only (proc_at r j).line (run_step r he) with h | ⟨h, h'⟩
        · rcases proc_does (proc_at r j).line (run_step r he) h with h | ⟨h, -⟩
          · refine .inr ?_
            cases h <;> simp_all
          · exact .inl (by rw [h]; exact ⟨h1, h2⟩)
        · exact .inl ⟨h.trans h1, (h' c).trans h2⟩)
      (fun j _ ⟨h1, h2⟩ => by
        obtain ⟨u1, u2⟩ := (hu j).1
        cases hfl : ((r.state j).full.lines c).flag with
        | false => exact alone_possible (hu j) (.writeCall c b) (.writeCall n c b _ (hu j).1 h1 (.writeCall 1 b (by decide) h2 hfl)) (by simp [Proc.within])
        | true =>
          exact both_possible (hu j) (.refuse c n b) (.refuse n c b _ _ h1 (.pass _ _ u1 rfl (.refuse n c b u2 h1)) (.writeClosed 1 b (by decide) h2 hfl)) rfl (.refused c n)
            (.workerDone (is_handling (by rw [h1]; rfl))))
      (fun j l _ ⟨h1, h2⟩ he h => by
        have hd := is_handling (r := r) (j := j) (by rw [h1]; rfl)
        rcases proc_does (proc_at r j).line (run_step r he) h with h | ⟨-, -, h⟩
        · cases h <;> simp_all
        · rw [hd] at h; simp at h)
    rcases h with h | ⟨h1, h2⟩
    · exact ⟨j, hj, h⟩
    · obtain ⟨k, h3, h4⟩ := reset j h1 h2
      exact ⟨k, by omega, h4⟩
  · rw [hw] at hw'
    cases hw'
    rcases hp with hp | hp
    · exact reset i hw hp
    · exact gone_writing hf hu hh hw hp

/-- The response worker gets through with any response. -/
theorem gone_handled (hf : r.FairToStop) (hu : ∀ j, (r.state j).up) (hh : ¬ r.WritesForever) {i : Nat} (hw : (r.state i).stop.worker = .handling) :
    ∃ j, i ≤ j ∧ ((r.state j).stop.worker = .top ∨ (r.state j).stop.worker = .left) := by
  have away : ∀ j, (r.state j).full.whole.hub.worker = .away → (r.state j).stop.worker = .top ∨ (r.state j).stop.worker = .left := by
    intro j hj
    rcases (run_phased r j).worker with g | ⟨g, -⟩
    · rw [g, hj]; exact .inl rfl
    · exact .inr g
  have hph : phase (r.state i).full.whole.hub.worker = .handling := by
    rcases (run_phased r i).worker with g | ⟨g, -⟩
    · rw [← g, hw]
    · rw [hw] at g; cases g
  cases hk : (r.state i).full.whole.hub.worker with
  | away => rw [hk] at hph; cases hph
  | waiting => rw [hk] at hph; cases hph
  | writing n c b =>
    obtain ⟨j, h1, h2⟩ := gone_away hf hu hh hk
    exact ⟨j, h1, away j h2⟩
  | has k =>
    obtain ⟨j, hj, h⟩ := leads r (hf .worker) (fun s => s.full.whole.hub.worker = .has k)
      (fun j => (r.state j).full.whole.hub.worker = .away ∨ ∃ n c b, (r.state j).full.whole.hub.worker = .writing n c b) hk
      (fun j l _ h1 he => by
        rcases proc_only (proc_at r j).line (run_step r he) with h | ⟨h, h'⟩
        · rcases proc_does (proc_at r j).line (run_step r he) h with h | ⟨h, -⟩
          · refine .inr ?_
            cases h <;> simp_all
          · exact .inl (by rw [h]; exact h1)
        · exact .inl (h.trans h1))
      (fun j _ h1 => by
        obtain ⟨u1, u2⟩ := (hu j).1
        obtain ⟨n, k⟩ := k
        by_cases hp : ∃ id o c, Pipe.parseResponse k = some (id, o) ∧ (r.state j).full.whole.hub.clients.get id = some c
        · obtain ⟨id, o, c, g1, g2⟩ := hp
          exact alone_possible (hu j) .look (.whole _ _ rfl (.bus _ _ u1 rfl (.look n k id o c u2 h1 g1 g2))) (by simp [Proc.within]; rintro x ⟨⟩)
        · refine both_possible (hu j) (.nobody n) (.whole _ _ rfl (.pass _ _ u1 rfl (.nobody n k u2 h1 fun id o g => ?_))) rfl (.nobody n) (.workerDone (is_handling (by rw [h1]; rfl)))
          cases hg : (r.state j).full.whole.hub.clients.get id with
          | none => rfl
          | some c => exact absurd ⟨id, o, c, g, hg⟩ hp)
      (fun j l _ h1 he h => by
        have hd := is_handling (r := r) (j := j) (by rw [h1]; rfl)
        rcases proc_does (proc_at r j).line (run_step r he) h with h | ⟨-, -, h⟩
        · cases h <;> simp_all
        · rw [hd] at h; simp at h)
    rcases h with h | ⟨n, c, b, h⟩
    · exact ⟨j, hj, away j h⟩
    · obtain ⟨k, h3, h4⟩ := gone_away hf hu hh h
      exact ⟨k, by omega, away k h4⟩

/-- At the top of its loop the response worker leaves. -/
theorem top_leaves (hf : r.FairToStop) (hu : ∀ j, (r.state j).up) {i : Nat} (hs : (r.state i).stop.shut = true) (hw : (r.state i).stop.worker = .top) :
    ∃ j, i ≤ j ∧ (r.state j).stop.worker = .left := by
  have keep : ∀ j l, (r.state j).stop.worker = .top ∧ (r.state j).stop.shut = true → r.ev j = some l →
      ((r.state (j + 1)).stop.worker = .top ∧ (r.state (j + 1)).stop.shut = true) ∨ (r.state (j + 1)).stop.worker = .left := by
    intro j l hp hl
    rcases stop_part (run_step r hl) with ⟨h, -⟩ | ⟨x, h, -⟩
    · exact .inl (by rw [h]; exact hp)
    · have : ∀ t t', t.worker = .top ∧ t.shut = true → Stop.Run ⟨m, true⟩ ω t x t' → (t'.worker = .top ∧ t'.shut = true) ∨ t'.worker = .left := by
        intro t t' hp hr
        cases hr <;> simp_all
      exact this _ _ hp h
  refine leads r (hf .worker) (fun s => s.stop.worker = .top ∧ s.stop.shut = true) (fun j => (r.state j).stop.worker = .left) ⟨hw, hs⟩ (fun j l _ => keep j l) ?_ ?_
  · rintro j - ⟨h1, h2⟩
    obtain ⟨n, hn⟩ := stop_idle (stop_run r j)
    exact ⟨_, _, .workerLeft, .stop _ _ (hu j) rfl ⟨(hu j).2.1, (hu j).2.2, .workerShut (n + 1) h1 h2 (by omega) (hn _ (by omega))⟩⟩
  · intro j l _ hp hl ha
    rcases keep j l hp hl with h | h
    · have h0 : (r.state j).full.whole.hub.worker = .away := by
        rcases (run_phased r j).worker with g | ⟨g, -⟩
        · rw [hp.1] at g
          cases hk : (r.state j).full.whole.hub.worker <;> rw [hk] at g <;> simp [phase] at g
        · rw [hp.1] at g; cases g
      rcases proc_does (proc_at r j).line (run_step r hl) ha with g | ⟨-, g, -⟩
      · have h1 : (r.state (j + 1)).full.whole.hub.worker = .waiting := by cases g <;> simp_all
        rcases (run_phased r (j + 1)).worker with g | ⟨g, -⟩
        · rw [h.1, h1] at g; cases g
        · exact g
      · exact g
    · exact h

/-- In `Receive` the response worker does not stay where something comes. -/
theorem receive_leaves (hf : r.FairToStop) (hu : ∀ j, (r.state j).up) (hh : ¬ r.WaitsForever) (i : Nat) : ∃ j, i ≤ j ∧ (r.state j).stop.worker ≠ .receiving := by
  by_contra hn
  have all : ∀ j, i ≤ j → (r.state j).stop.worker = .receiving := fun j hj => by
    by_contra h
    exact hn ⟨j, hj, h⟩
  obtain ⟨k, hk, hq⟩ : ∃ k, i ≤ k ∧ (r.state k).stop.queue ≠ [] := by
    by_contra hq
    refine hh ⟨i, fun j hj => ⟨all j hj, ?_⟩⟩
    by_contra h
    exact hq ⟨j, hj, h⟩
  obtain ⟨j, h1, h2⟩ := leads r (hf .worker) (fun s => s.stop.worker = .receiving ∧ s.stop.queue ≠ []) (fun j => (r.state j).stop.worker ≠ .receiving) ⟨all k hk, hq⟩
    (fun j l _ hp hl => by
      rcases stop_part (run_step r hl) with ⟨h, -⟩ | ⟨x, h, -⟩
      · exact .inl (by rw [h]; exact hp)
      · have : ∀ t t', t.worker = .receiving ∧ t.queue ≠ [] → Stop.Run ⟨m, true⟩ ω t x t' → (t'.worker = .receiving ∧ t'.queue ≠ []) ∨ t'.worker ≠ .receiving := by
          intro t t' hp hr
          cases hr <;> simp_all
        exact this _ _ hp h)
    (fun j _ ⟨h1, h2⟩ => by
      cases hb : (r.state j).stop.queue with
      | nil => exact absurd hb h2
      | cons x q =>
        cases x with
        | true => exact ⟨_, _, .workerLeft, .stop _ _ (hu j) rfl ⟨(hu j).2.1, (hu j).2.2, .workerRemoved q h1 hb⟩⟩
        | false =>
          have hc := (run_phased r j).queue
          rw [hb] at hc
          have hw : (r.state j).full.whole.hub.worker = .waiting := by
            rcases (run_phased r j).worker with g | ⟨g, -⟩
            · rw [h1] at g
              cases hk : (r.state j).full.whole.hub.worker <;> rw [hk] at g <;> simp [phase] at g
            · rw [h1] at g; cases g
          obtain ⟨u1, u2⟩ := (hu j).1
          obtain ⟨tr, hi⟩ := (proc_at r j).inv
          cases hbuf : ((r.state j).full.whole.hub.resp.chans 0).buf with
          | nil => simp [waiting, hbuf] at hc
          | cons y rest =>
            obtain ⟨y, my⟩ := y
            exact both_possible (hu j) (.answer y) (.whole _ _ rfl (.pass _ _ u1 rfl (.receive y my _ u2 hw (.received 0 0 _ _ (by rw [hi.resp.made]; decide)
              (.received 0 _ rest hi.resp.up (hi.eyes.2 hw) hbuf))))) rfl (.answering y) (.workerGot q h1 hb))
    (fun j l _ ⟨h1, h2⟩ hl ha => by
      have hw : (r.state j).full.whole.hub.worker = .waiting := by
        rcases (run_phased r j).worker with g | ⟨g, -⟩
        · rw [h1] at g
          cases hk : (r.state j).full.whole.hub.worker <;> rw [hk] at g <;> simp [phase] at g
        · rw [h1] at g; cases g
      rcases proc_does (proc_at r j).line (run_step r hl) ha with g | ⟨-, g, -⟩
      · obtain ⟨y, hy⟩ : ∃ y, (r.state (j + 1)).full.whole.hub.worker = .has y := by cases g <;> simp_all
        rw [is_handling (r := r) (j := j + 1) (by rw [hy]; rfl)]
        simp
      · rw [g]; simp)
  exact h2 (all j (by omega))

/-- The response worker leaves. -/
theorem worker_leaves (hf : r.FairToStop) (hu : ∀ j, (r.state j).up) (hh : ¬ r.WritesForever) (hq : ¬ r.WaitsForever) {i : Nat} (hs : (r.state i).stop.shut = true) :
    ∃ j, i ≤ j ∧ (r.state j).stop.worker = .left := by
  have shut : ∀ j, i ≤ j → (r.state j).stop.shut = true := fun j hj =>
    stop_lasts (r := r) (fun t => t.shut = true) hs (by intro t x t' h hr; cases hr <;> simp_all) hj
  have top : ∀ j, i ≤ j → (r.state j).stop.worker = .top → ∃ k, i ≤ k ∧ (r.state k).stop.worker = .left := by
    intro j hj hw
    obtain ⟨k, h1, h2⟩ := top_leaves hf hu (shut j hj) hw
    exact ⟨k, by omega, h2⟩
  obtain ⟨j, hj, hn⟩ := receive_leaves hf hu hq i
  cases hw : (r.state j).stop.worker with
  | receiving => exact absurd hw hn
  | left => exact ⟨j, hj, hw⟩
  | top => exact top j hj hw
  | handling =>
    obtain ⟨k, h1, h2 | h2⟩ := gone_handled hf hu hh hw
    · exact top k (by omega) h2
    · exact ⟨k, by omega, h2⟩

/-- C91: a process that is told to stop is gone in the end, if none of those who have a part in it is forgotten, unless the response worker stays in
`Receive`, where nothing is, or in one call of `Write`. -/
theorem C91_gone_partial (hf : r.FairToStop) (hc : r.Called) (hw : ¬ r.WritesForever) (hq : ¬ r.WaitsForever) : r.Gone := by
  by_contra hn
  have hu : ∀ j, (r.state j).up := fun j => by
    by_contra h
    exact hn ⟨j, h⟩
  obtain ⟨j, k, hk, hj⟩ := hc
  have h1 : (r.state (j + 1)).stop.pcs k = .called := by
    have := run_step r hj
    generalize r.state (j + 1) = s' at *
    cases this with
    | stop _ t _ _ ht =>
      obtain ⟨-, -, hr⟩ := ht
      cases hr with
      | call => simp [upd]
      | mainCall => exact absurd rfl hk
  obtain ⟨a, a1, a2⟩ := called_shutdown hf hu h1
  obtain ⟨b, b1, b2⟩ := shutdown_shut hf hu a2
  obtain ⟨c, c1, c2⟩ := acceptor_leaves hf hu b2
  obtain ⟨e, e1, e2⟩ := worker_leaves hf hu hw hq b2
  rcases Nat.le_total c e with h | h
  · exact main_returns hf hu (i := e) (stop_lasts (r := r) (fun t => t.acceptor = false) c2 (by intro t x t' h hr; cases hr <;> simp_all) h) e2
  · exact main_returns hf hu (i := c) c2 (stop_lasts (r := r) (fun t => t.worker = .left) e2 (by intro t x t' h hr; cases hr <;> simp_all) h)

/-- What the response worker is told stays there until it is gone. -/
theorem told_once (hq : true ∈ (r.state i).stop.queue) : ¬ r.WaitsForever := by
  rintro ⟨k, hk⟩
  have := stop_lasts (r := r) (fun t => true ∈ t.queue ∨ t.worker = .left) (.inl hq) (j := max i k) (by
    intro t x t' h hr
    cases hr <;> grind) (by omega)
  have h := hk (max i k) (by omega)
  rcases this with g | g
  · rw [h.2] at g; cases g
  · rw [h.1] at g; cases g

/-- C91: so it is gone when the response worker could be told that its topic is gone, and is not kept by a client. -/
theorem C91_told (hf : r.FairToStop) (hc : r.Called) (hw : ¬ r.WritesForever) {i : Nat} (hq : true ∈ (r.state i).stop.queue) : r.Gone :=
  C91_gone_partial hf hc hw (told_once hq)

/-- C91: and if it stays in either, `main` does not return. -/
theorem C91_stays (h : r.WritesForever ∨ r.WaitsForever) : ¬ r.Exits := by
  rintro ⟨k, hk⟩
  have left : ∀ j, k ≤ j → (r.state j).stop.worker = .left := fun j hj =>
    stop_lasts (r := r) (fun t => t.worker = .left) ((stopSense (stop_run r k)).exited hk) (by intro t x t' h hr; cases hr <;> simp_all) hj
  rcases h with ⟨i, c, b, h⟩ | ⟨i, h⟩
  · have hl := left (max i k) (by omega)
    have hp : ((r.state (max i k)).full.lines c).pcs 1 ≠ .idle := by
      rcases h with h | ⟨h, -⟩
      · rw [(h (max i k) (by omega)).1]; simp
      · rw [h (max i k) (by omega)]; simp
    rcases ((proc_at r (max i k)).line c).writer with g | ⟨b', n, -, g⟩
    · exact hp g
    · rw [is_handling (r := r) (by rw [g]; rfl)] at hl
      cases hl
  · have hl := left (max i k) (by omega)
    rw [(h (max i k) (by omega)).1] at hl
    cases hl

/-- C91: exactly then does `main` return, in a process that nothing kills. -/
theorem C91_exact (hf : r.FairToStop) (hu : r.Unkilled) : r.Exits ↔ r.Called ∧ ¬ r.WritesForever ∧ ¬ r.WaitsForever := by
  constructor
  · intro h
    refine ⟨?_, fun g => C91_stays (.inl g) h, fun g => C91_stays (.inr g) h⟩
    obtain ⟨k, hk⟩ := h
    have hs := stopSense (stop_run r k)
    by_contra hn
    have := hs.called fun i hi hm => by
      obtain ⟨e, he, hx⟩ := mem_stopOf.1 hm
      obtain ⟨j, -, hj⟩ := List.mem_filterMap.1 he
      rcases hx with rfl | ⟨f, rfl⟩
      · exact hn ⟨j, i, hi, hj⟩
      · have := run_step r hj
        generalize r.state (j + 1) = s' at *
        cases this with | both _ _ w f t _ _ hp => cases hp
    exact (hs.none this.1).2.2.2.1 (hs.exited hk)
  · rintro ⟨h1, h2, h3⟩
    obtain ⟨j, hj⟩ := C91_gone_partial hf h1 h2 h3
    refine ⟨j, ?_⟩
    by_contra hx
    exact hj ⟨(hu j).1, (hu j).2, by simpa using hx⟩

/-! ### processes that are told to stop and stay -/

/-- When nobody who matters can do anything any more, nothing need happen. -/
theorem still_run {S L G : Type} {step : S → L → S → Prop} {s0 s : S} {tr : List L} (h : Exec step s0 tr s) (acts : G → L → Prop) (hn : ∀ g, ¬ Possible step (acts g) s) :
    ∃ r : Run step s0, r.until tr.length = tr ∧ (∀ j, tr.length ≤ j → r.state j = s) ∧ ∀ g, r.Fair (acts g) := by
  obtain ⟨r, h1, h2⟩ := run_after h (⟨fun _ => s, fun _ => none, rfl, fun _ => .inr ⟨rfl, rfl⟩⟩ : Run step s)
  have h3 : ∀ j, tr.length ≤ j → r.state j = s := fun j hj => by
    have := (h2 (j - tr.length)).1
    rwa [Nat.add_sub_cancel' hj] at this
  refine ⟨r, h1, h3, fun g i hi => ?_⟩
  have := hi (tr.length + i) (by omega)
  rw [h3 _ (by omega)] at this
  exact absurd this (hn g)

/-- The server is stopped while the response worker stays where it is, and cannot be told. -/
theorem stop_through (hv : Unstopped s) (hu : s.full.up) : ∃ ls s', Exec (Proc.Step true ω) s ls s' ∧ .stop (.call 1) ∈ ls ∧ s'.up ∧ s'.full.lines = s.full.lines ∧
    s'.full.whole.hub = s.full.whole.hub ∧ (∀ i, s'.stop.pcs i = .idle) ∧ s'.stop.acceptor = false ∧ s'.stop.worker = s.stop.worker ∧ s'.stop.queue = s.stop.queue ∧
    shutdownOf (stopOf ls) = shutdownSequence := by
  obtain ⟨cl, hc⟩ := hv.stop
  obtain ⟨t1, h1, g1, g2, g3, g4, g5, g6, g7, g8, g9⟩ : ∃ t, Exec (Stop.Step ⟨true, true⟩ ω) s.stop [.call 1, .won 1, .did 1 .removeRequest, .did 1 .removeResponse, .did 1 .closeListener,
      .did 1 .closeShut, .did 1 .stopMaster, .masterLeft 1, .acceptorLeft] t ∧ t.pcs 1 = .doing .flush ∧ (∀ i, i ≠ 1 → t.pcs i = .idle) ∧ t.acceptor = false ∧ t.worker = s.stop.worker ∧
      t.queue = s.stop.queue ∧ t.engineShut = false ∧ t.crashed = false ∧ t.exited = false ∧ t.shutdown = true := by
    rw [hc]
    refine ⟨_, .cons ⟨rfl, rfl, .call 1 (by decide) rfl⟩ (.cons ⟨rfl, rfl, .won 1 rfl rfl⟩
      (.cons ⟨rfl, rfl, .removeRequest 1 rfl⟩ (.cons ⟨rfl, rfl, .removeResponseExpired 1 rfl⟩ (.cons ⟨rfl, rfl, .closeListener 1 rfl⟩
      (.cons ⟨rfl, rfl, .closeShut 1 rfl rfl⟩ (.cons ⟨rfl, rfl, .stopMaster 1 rfl rfl⟩ (.cons ⟨rfl, rfl, .masterLeft 1 rfl⟩ (.one ⟨rfl, rfl, .acceptorErr rfl rfl⟩)))))))),
      by simp [upd], fun i hi => by simp [upd, hi, Stop.new], rfl, rfl, rfl, rfl, rfl, rfl, rfl⟩
  have x1 := stop_lift (m := true) (ω := ω) (s := s) hu h1 (by simp [Proc.own])
  have x2 : Proc.Step true ω { s with stop := t1 } (.both (.whole .flushed) (.did 1 .flush)) _ :=
    .both _ _ _ _ _ ⟨hu, g7, g8⟩ rfl (.flush 1) ⟨by simp [Proc.requestMoves], by simp [Proc.responseMoves], by simp [Proc.engineWaits], by simp [Proc.engineTakes]⟩
      (.whole _ _ rfl (.flush hu.1 hu.2)) ⟨g7, g8, .flush 1 g1 rfl⟩
  have h3 : Exec (Stop.Step ⟨true, true⟩ ω) { t1 with log := t1.log.flush ω, pcs := upd t1.pcs 1 (.doing .closeEngine) } [.did 1 .closeEngine, .did 1 .closeClients, .returned 1] _ :=
    .cons ⟨g7, g8, .closeEngine 1 (by simp [upd]) g6⟩ (.cons ⟨g7, g8, .closeClients 1 (by simp [upd])⟩ (.one ⟨g7, g8, .returned 1 (by decide) (by simp [upd])⟩))
  have x3 := stop_lift (m := true) (ω := ω) (s := { s with full := { s.full with whole := { s.full.whole with file := s.full.whole.file.flush ω } }, stop := { t1 with log := t1.log.flush ω, pcs := upd t1.pcs 1 (.doing .closeEngine) } }) hu h3 (by simp [Proc.own])
  refine ⟨_, _, (x1.snoc x2).append x3, by simp, ⟨hu, g7, g8⟩, rfl, rfl, fun i => ?_, g3, g4, g5, rfl⟩
  by_cases hi : i = 1
  · simp [upd, hi]
  · simpa [upd, hi] using g2 i hi

/-- Nobody but the response worker has anything to do then. -/
theorem nobody_else (h1 : ∀ i, s.stop.pcs i = .idle) (h2 : s.stop.acceptor = false) (h3 : s.stop.worker ≠ .left) {g : StopPart} (hg : g ≠ .worker) :
    ¬ Possible (Proc.Step m ω) (PartOf g) s := by
  rintro ⟨e, s', ha, hs⟩
  rcases stop_part hs with ⟨-, e', rfl | rfl⟩ | ⟨x, hr, he⟩
  · cases ha; exact hg rfl
  · cases ha
  · generalize s'.stop = t' at hr
    cases g with
    | worker => exact hg rfl
    | caller i =>
      have := caller_does (i := i) (x := x) (by
        rcases he with rfl | ⟨e', rfl⟩
        · exact .inl ha
        · exact .inr ⟨e', ha⟩)
      rcases this with ⟨rfl, rfl⟩ | rfl | rfl | ⟨a, rfl⟩ | rfl | rfl | ⟨rfl, rfl⟩ <;> cases hr <;> simp_all
    | acceptor => rcases he with rfl | ⟨e', rfl⟩ <;> cases ha <;> cases hr <;> simp_all

/-- The full claim: a process that is told to stop is gone in the end if nobody who has a part in it is forgotten. -/
def GoneInTheEnd : Prop := ∀ (m : Bool) (ω : Nat → Nat) (d : Bytes) (st : State) (r : Run (Proc.Step m ω) (Proc.new d st)), r.FairToStop → r.Called → r.Gone

theorem called_of {tr : List Proc.Ev} {i k : Nat} (hr : r.until k = tr) (h : .stop (.call i) ∈ tr) (hi : i ≠ 0) : r.Called := by
  rw [← hr] at h
  obtain ⟨j, -, hj⟩ := List.mem_filterMap.1 h
  exact ⟨j, i, hi, hj⟩

/-- What is up in the end has been so all the time. -/
theorem up_ever {k : Nat} (h : ∀ j, k ≤ j → (r.state j).up) (j : Nat) : (r.state j).up := by
  by_contra hj
  have := lasts r (fun s => ¬ s.up) hj (fun j l _ h he => absurd (by
    have := run_step r he
    generalize r.state (j + 1) = s'' at *
    cases this <;> assumption) h) (show j ≤ k + j by omega)
  exact this (h _ (by omega))

/-- C91: the response worker waits for a response when the server is stopped, and telling it that its topic is gone takes too long: everything that is to be
done in stopping is done, and the process is there for ever. -/
theorem C91_waits (ω : Nat → Nat) (d : Bytes) (st : State) : ∃ r : Run (Proc.Step true ω) (Proc.new d st), r.FairToStop ∧ r.Called ∧ r.WaitsForever ∧ (∀ j, (r.state j).up) ∧
    ∃ i, shutdownOf (stopOf (r.until i)) = shutdownSequence := by
  have h0 : Exec (Full.Step ω) (Full.new d st) [inTopic true (.chan 0 (.recvCall 0))] _ :=
    .one (.whole _ _ rfl (.bus _ _ rfl rfl (.await _ rfl rfl (.recvCall 0 0 _ (Nat.zero_lt_succ 0) (.recvCall 0 rfl rfl rfl)))))
  obtain ⟨tr, s, h1, h2, h3, h4⟩ := serve_exec (m := true) h0 (.inl rfl)
  have hu : s.full.up := by rw [h3]; exact ⟨rfl, rfl⟩
  obtain ⟨ls, s', x1, x2, x3, x4, x5, x6, x7, x8, x9, x10⟩ := stop_through (ω := ω) h4 hu
  have hwk : s.full.whole.hub.worker = .waiting := by rw [h3]
  have hbuf : (s.full.whole.hub.resp.chans 0).buf = [] := by rw [h3]; rfl
  obtain ⟨cl, hc⟩ := h4.stop
  have hsw : s.stop.worker = .receiving := by rw [hc, hwk]; rfl
  have hsq : s.stop.queue = [] := by rw [hc]; simp [waiting, hbuf]
  have hx := h1.append x1
  obtain ⟨r, r1, r2, r3⟩ := still_run hx PartOf (by
    intro g
    by_cases hg : g = .worker
    · subst hg
      rintro ⟨e, s2, ha, hs⟩
      rcases proc_does (at_exec (proc_exec hx).1).line hs ha with g | ⟨-, g1, g2⟩
      · cases g <;> simp_all
      · have := stop_part hs
        rcases this with ⟨g3, -⟩ | ⟨x, hr, -⟩
        · rw [g3, x8, hsw] at g1; cases g1
        · generalize s2.stop = t2 at hr g1
          cases hr <;> simp_all
    · exact nobody_else x6 x7 (by rw [x8, hsw]; simp) hg)
  have up := up_ever (r := r) (k := (tr ++ ls).length) fun j hj => by rw [r2 j hj]; exact x3
  refine ⟨r, r3, called_of r1 (List.mem_append_right _ x2) (by decide), ⟨(tr ++ ls).length, fun j hj => ?_⟩, up, (tr ++ ls).length, ?_⟩
  · rw [r2 j hj]; exact ⟨by rw [x8, hsw], by rw [x9, hsq]⟩
  · rw [r1, stopOf_append, shutdownOf_append, x10]
    have : shutdownOf (stopOf tr) = [] := ((stopInv (proc_exec h1).2.1).none (by rw [hc]; rfl)).1
    rw [this]; rfl

/-- C91: so not every process that is told to stop is gone in the end. -/
theorem C91_false : ¬ GoneInTheEnd := by
  intro h
  obtain ⟨r, h1, h2, -, h3, -⟩ := C91_waits (fun _ => 0) [] State.empty
  obtain ⟨j, hj⟩ := h _ _ _ _ r h1 h2
  exact hj (h3 j)

/-- C91: one client that does not read while its reply is written is enough, too, while every expire worker is there. -/
theorem C91_stalled (ω : Nat → Nat) (d : Bytes) : ∃ r : Run (Proc.Step true ω) (Proc.new d State.empty), r.FairToStop ∧ r.Called ∧ r.WritesForever ∧ (∀ j, (r.state j).up) ∧
    (∀ j c, ((r.state j).full.lines c).worker = .selecting) ∧ ∃ i, shutdownOf (stopOf (r.until i)) = shutdownSequence := by
  obtain ⟨tr0, f, h0, hu, hseen, k1, k2, k3, k4⟩ := stalled_sample ω d
  obtain ⟨tr, s, h1, h2, rfl, h4⟩ := serve_exec (m := true) h0 (.inl rfl)
  obtain ⟨ls, s', x1, x2, x3, x4, x5, x6, x7, x8, x9, x10⟩ := stop_through (ω := ω) h4 hu
  have hx := h1.append x1
  have hi := (at_exec (proc_exec hx).1).line
  obtain ⟨b, n, -, hwk⟩ : ∃ b n, True ∧ s'.full.whole.hub.worker = .writing n 7 b := by
    rcases (hi 7).writer with g | ⟨b, n, -, g⟩
    · rw [x4, k1] at g; cases g
    · exact ⟨b, n, trivial, g⟩
  have hsw : s'.stop.worker = .handling := by
    rcases (phased hx).worker with g | ⟨-, g⟩
    · rw [g, hwk]; rfl
    · rw [hwk] at g; exact absurd rfl g
  rw [← x4] at k1 k2 k3 k4
  obtain ⟨r, r1, r2, r3⟩ := still_run hx PartOf (by
    intro g
    by_cases hg : g = .worker
    · subst hg
      rintro ⟨e, s2, ha, hs⟩
      have no : ∀ e f, DoneBy .worker e → Full.Step ω s'.full e f → False := by
        intro e f hd hs
        have hp := (done_line hs hd 7).2.2.2 _ k1 k2 k3
        have hw : f.whole.hub.worker ≠ .away := by
          rcases ((at_exec ((proc_exec hx).1.snoc hs)).line 7).writer with g | ⟨b', n', -, g⟩
          · rw [hp] at g; cases g
          · rw [g]; simp
        cases worker_does hi hs hd <;> simp_all
      cases ha with
      | workerLeft => cases hs with | stop _ t _ _ ht => obtain ⟨-, -, hr⟩ := ht; clear x8; cases hr <;> simp_all
      | works e hd => cases hs with | full _ f _ _ h => exact no _ _ hd h
      | moves e x hd => cases hs with | both _ _ w f t _ _ _ _ h => exact no _ _ hd h
    · exact nobody_else x6 x7 (by rw [hsw]; simp) hg)
  have up := up_ever (r := r) (k := (tr ++ ls).length) fun j hj => by rw [r2 j hj]; exact x3
  refine ⟨r, r3, called_of r1 (List.mem_append_right _ x2) (by decide), ⟨(tr ++ ls).length, 7, _, .inr ⟨fun j hj => by rw [r2 j hj]; exact k1, fun j hj => ⟨j, Nat.le_refl j, by rw [r2 j hj]; exact k2⟩⟩⟩, up,
    fun j c => ?_, (tr ++ ls).length, ?_⟩
  · by_contra hj
    have := lasts r (fun s => (s.full.lines c).worker ≠ .selecting) hj (fun j l _ h he => select_never (run_step r he) c h) (show j ≤ (tr ++ ls).length + j by omega)
    rw [r2 _ (by omega)] at this
    exact this (k4 c)
  · rw [r1, stopOf_append, shutdownOf_append, x10]
    obtain ⟨cl, hc⟩ := h4.stop
    have : shutdownOf (stopOf tr) = [] := ((stopInv (proc_exec h1).2.1).none (by rw [hc]; rfl)).1
    rw [this]; rfl

/-- No goroutine is forgotten if none is after some time. -/
theorem fair_after {S L : Type} {step : S → L → S → Prop} {s0 s1 : S} {r : Run step s0} {r' : Run step s1} {n : Nat} (h : ∀ i, r.state (n + i) = r'.state i ∧ r.ev (n + i) = r'.ev i)
    {acts : L → Prop} (hf : r'.Fair acts) : r.Fair acts := by
  intro i hi
  obtain ⟨j, l, h1, h2, h3⟩ := hf i fun j hj => by
    have := hi (n + j) (by omega)
    rwa [(h j).1] at this
  exact ⟨n + j, l, by omega, by rw [(h j).2]; exact h2, h3⟩

/-- The hypotheses of `C91_gone_partial`, `C91_told` and `C91_exact` can be met: a client has set a key, and then the process is told to stop. -/
example (ω : Nat → Nat) (d : Bytes) : ∃ (r : Run (Proc.Step true ω) (Proc.new d State.empty)) (i : Nat), r.FairToStop ∧ r.Unkilled ∧ r.Called ∧ ¬ r.WritesForever ∧ ¬ r.WaitsForever ∧
    true ∈ (r.state i).stop.queue ∧ seenOver (r.until i) = setTrace ∧ r.Exits := by
  obtain ⟨tr, s, h1, h2, h3, hu, -, h4, h5, -, h6, h7, -⟩ := one_proc (m := true) (ω := ω) (d := d) (st := State.empty) setBytes_parse rfl
  obtain ⟨cl, hc⟩ := h3.stop
  have hw : s.stop.worker = .top ∨ s.stop.worker = .receiving := by rw [hc]; rcases h6 with h6 | h6 <;> rw [h6] <;> simp [phase]
  have hq : s.stop.queue = [] := by rw [hc, h7]; rfl
  obtain ⟨t1, a1, b1, b2, b3, b4, b5, b6, b7, b8, b9, b10⟩ : ∃ t, Exec (Stop.Step ⟨true, true⟩ ω) s.stop [.call 1, .won 1, .did 1 .removeRequest, .did 1 .removeResponse] t ∧ t.pcs 1 = .doing .closeListener ∧
      (∀ i, i ≠ 1 → t.pcs i = .idle) ∧ t.acceptor = true ∧ t.worker = s.stop.worker ∧ t.queue = [true] ∧ t.shut = false ∧ t.crashed = false ∧ t.exited = false ∧ t.shutdown = true ∧ t.listening = true := by
    rw [hc]
    refine ⟨_, .cons ⟨rfl, rfl, .call 1 (by decide) rfl⟩ (.cons ⟨rfl, rfl, .won 1 rfl rfl⟩ (.cons ⟨rfl, rfl, .removeRequest 1 rfl⟩
      (.one ⟨rfl, rfl, .removeResponse 1 rfl (by show List.length (List.replicate _ _) < 100; rw [h7]; decide)⟩))),
      by simp [upd], fun i hi => by simp [upd, hi, Stop.new], rfl, rfl, by show List.replicate _ _ ++ _ = _; rw [h7]; rfl, rfl, rfl, rfl, rfl, rfl⟩
  obtain ⟨ls, t2, a2, c1, c2, c3⟩ : ∃ ls t, Exec (Stop.Step ⟨true, true⟩ ω) t1 (ls ++ [.exit]) t ∧ (∀ x ∈ ls ++ [.exit], Proc.own x = true) ∧ t.exited = true ∧ t.crashed = false := by
    have b0 := b2 0 (by decide)
    have b22 := b2 2 (by decide)
    rw [← b4] at hw
    rcases hw with hw | hw
    · exact ⟨[.did 1 .closeListener, .did 1 .closeShut, .acceptorLeft, .workerLeft, .call 0, .lost 0], _,
        .cons ⟨b7, b8, (.closeListener 1 b1)⟩ (.cons ⟨b7, b8, (.closeShut 1 (by simp [upd]) b6)⟩ (.cons ⟨b7, b8, (.acceptorErr b3 rfl)⟩
        (.cons ⟨b7, b8, (.workerShut 2 hw rfl (by decide) (by simp [upd, b22]))⟩ (.cons ⟨b7, b8, (.mainCall (by simp [upd, b0]) rfl rfl)⟩
        (.cons ⟨b7, b8, (.lost 0 (by simp [upd]) b9)⟩ (.one ⟨b7, b8, (.exit (by simp [upd]))⟩)))))), by simp [Proc.own], rfl, b7⟩
    · exact ⟨[.did 1 .closeListener, .did 1 .closeShut, .acceptorLeft, .workerLeft, .call 0, .lost 0], _,
        .cons ⟨b7, b8, (.closeListener 1 b1)⟩ (.cons ⟨b7, b8, (.closeShut 1 (by simp [upd]) b6)⟩ (.cons ⟨b7, b8, (.acceptorErr b3 rfl)⟩
        (.cons ⟨b7, b8, (.workerRemoved [] hw b5)⟩ (.cons ⟨b7, b8, (.mainCall (by simp [upd, b0]) rfl rfl)⟩
        (.cons ⟨b7, b8, (.lost 0 (by simp [upd]) b9)⟩ (.one ⟨b7, b8, (.exit (by simp [upd]))⟩)))))), by simp [Proc.own], rfl, b7⟩
  have x1 := h1.append (stop_lift hu.1 a1 (by simp [Proc.own]))
  have x2 := stop_lift (s := { s with stop := t1 }) hu.1 a2 c1
  obtain ⟨r', r1, r2, r3⟩ := still_run x2 PartOf (by
    rintro g ⟨e, s2, -, hs⟩
    have : ({ s with stop := t2 } : Proc.Sys).up := by cases hs <;> assumption
    rw [this.2.2] at c2
    cases c2)
  obtain ⟨r, n, q1, q2⟩ : ∃ (r : Run (Proc.Step true ω) (Proc.new d State.empty)) (n : Nat), r.until n = tr ++ [Stop.Ev.call 1, .won 1, .did 1 .removeRequest, .did 1 .removeResponse].map Proc.Ev.stop ∧
      ∀ i, r.state (n + i) = r'.state i ∧ r.ev (n + i) = r'.ev i := by
    obtain ⟨r, q1, q2⟩ := run_after x1 r'
    exact ⟨r, _, q1, q2⟩
  have hx : r.Exits := ⟨_, by rw [(q2 _).1, r2 _ (Nat.le_refl _)]; exact c2⟩
  refine ⟨r, n, fun g => fair_after q2 (r3 g), fun j => ?_, called_of q1 (i := 1) (by simp) (by decide), fun h => C91_stays (.inl h) hx, fun h => C91_stays (.inr h) hx, ?_, ?_, hx⟩
  · by_contra hj
    have := lasts r (fun s => ¬ (s.full.up ∧ s.stop.crashed = false)) hj (fun j l _ h he => absurd (by
      have := run_step r he
      generalize r.state (j + 1) = s'' at *
      have hu : (r.state j).up := by cases this <;> assumption
      exact ⟨hu.1, hu.2.1⟩) h) (show j ≤ n + ((ls ++ [Stop.Ev.exit]).length + j) by omega)
    rw [(q2 _).1, r2 _ (by simp)] at this
    exact this ⟨hu.1, c3⟩
  · have := (q2 0).1
    rw [Nat.add_zero, r'.start] at this
    rw [this]
    show true ∈ t1.queue
    rw [b5]; simp
  · rw [q1, seenOver_append, h2]; rfl

end Verif.Props
