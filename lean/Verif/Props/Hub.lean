import Verif.Spec.Hub
import Verif.Props.Pipe
import Verif.Props.Wired

/-! # C80 – the event bus of the server -/

namespace Verif.Props

open Spec
open Fut (upd)

abbrev Msg := GoMap Pipe.Val

/-- A topic whose only subscriber is `nm`. -/
structure Lone (nm : Bytes) (size : Nat) (w : Wired.Sys Msg) : Prop where
  subs : ∀ y ∈ w.topic.subscribers, y = (nm, 0)
  window : ∀ d x, w.topic.dists d = some x → ∀ y ∈ x.window, y = (nm, 0)
  sending : ∀ d x n id, w.topic.dists d = some x → x.snd n = .sending id → n = nm ∧ id = 0
  visited : ∀ d x n, w.topic.dists d = some x → n ∉ x.visited → x.snd n = .none
  sender : ∀ d m, (w.chans 0).senders d = some m → m.1 = d ∧ w.event d = some m.2
  cap : (w.chans 0).cap = size
  unborn : ∀ d, w.topic.dists d = none → w.event d = none

/-- The subscriber has not yet taken or missed event `d`. -/
def Undecided (nm : Bytes) (w : Wired.Sys Msg) (d : Nat) : Prop := ∃ x, w.topic.dists d = some x ∧ (x.snd nm = .none ∨ x.snd nm = .sending 0)

/-- Events still on their way to the subscriber. -/
def Pending (nm : Bytes) (w : Wired.Sys Msg) (d : Nat) (m : Msg) : Prop := w.event d = some m ∧ Undecided nm w d

theorem lone_new (nm : Bytes) (size : Nat) : Lone nm size (Hub.subscribed nm size) := by
  constructor <;> simp [Hub.subscribed, Topic.new, DataChan.new]

theorem mem_erased {α : Type} {k : Bytes} {m : GoMap α} {y : Bytes × α} (h : y ∈ GoMap.erase m k) : y ∈ m := by
  induction m with
  | nil => simp [GoMap.erase] at h
  | cons x m ih => simp only [GoMap.erase] at h; grind

variable {nm : Bytes} {size : Nat} {w w' : Wired.Sys Msg} {st : State}

/-- What happens within one run. -/
theorem lone_own {e : Topic.DEv} {x x' : Topic.Dist} {subs : GoMap Nat} {closed : Nat → Bool} (hsub : ∀ y ∈ subs, y = (nm, 0))
    (hw : ∀ y ∈ x.window, y = (nm, 0)) (hn : ∀ n id, x.snd n = .sending id → n = nm ∧ id = 0) (hv : ∀ n, n ∉ x.visited → x.snd n = .none) (h : Topic.DStep subs closed x e x') :
    (∀ y ∈ x'.window, y = (nm, 0)) ∧ (∀ n id, x'.snd n = .sending id → n = nm ∧ id = 0) ∧
      ∀ n, n ∉ x'.visited → x'.snd n = .none := by
  cases h <;> refine ⟨?_, ?_, ?_⟩ <;> grind [Topic.put]

theorem lone_undecided {e : Topic.DEv} {x x' : Topic.Dist} {subs : GoMap Nat} {closed : Nat → Bool}
    (hw : ∀ y ∈ x.window, y = (nm, 0)) (hn : ∀ n id, x.snd n = .sending id → n = nm ∧ id = 0) (hv : ∀ n, n ∉ x.visited → x.snd n = .none) (h : Topic.DStep subs closed x e x') :
    ((∀ n id r, e ≠ .tried n id r) → ((x'.snd nm = .none ∨ x'.snd nm = .sending 0) ↔ (x.snd nm = .none ∨ x.snd nm = .sending 0))) ∧
    ((∃ n id r, e = .tried n id r) → (x.snd nm = .sending 0 ∧ ¬ (x'.snd nm = .none ∨ x'.snd nm = .sending 0))) := by
  cases h <;> refine ⟨?_, ?_⟩ <;> grind [Topic.put]

/-- The steps a topic of the server makes keep it `Lone`, and only the return of `Send` decides an event. -/
theorem lone_topic {x : Topic.Ev} {t : Topic.Sys} (h : Lone nm size w) (hx : (∃ d e, x = .own d e) ∨ ∃ d n, x = .deleted d n) (hs : Topic.Step w.topic x t)
    (hc : ∀ i, (w'.chans i).cap = (w.chans i).cap) (ht : w'.topic = t) (he : w'.event = w.event)
    (hm : ∀ d m, (w'.chans 0).senders d = some m → m.1 = d ∧ w.event d = some m.2) :
    Lone nm size w' ∧ (∀ d, (∀ n id r, x ≠ .own d (.tried n id r)) → (Undecided nm w' d ↔ Undecided nm w d)) ∧
      ∀ d n id r, x = .own d (.tried n id r) → Undecided nm w d ∧ ¬ Undecided nm w' d := by
  have hd : ∀ d y', t.dists d = some y' → ∃ y, w.topic.dists d = some y ∧ ((y'.snd = y.snd ∧ y'.visited = y.visited ∧ y'.window = y.window ∧
      ∀ n id r, x ≠ .own d (.tried n id r)) ∨ ∃ e, x = .own d e ∧ Topic.DStep w.topic.subscribers w.topic.closed y e y') := by
    intro d y' hy
    cases hs <;> simp at hx
    case own d' z z' e hz hst =>
      simp only [upd] at hy
      split at hy
      · rename_i e'
        subst e'
        cases hy
        exact ⟨z, hz, .inr ⟨e, rfl, hst⟩⟩
      · rename_i e'
        exact ⟨y', hy, .inl ⟨rfl, rfl, rfl, by rintro n id r ⟨⟩; exact e' rfl⟩⟩
    case delete d' z name rest hz hp =>
      simp only [Option.map_eq_some_iff, upd] at hy
      obtain ⟨y, hy, rfl⟩ := hy
      split at hy
      · rename_i e'
        subst e'
        cases hy
        exact ⟨z, hz, .inl ⟨rfl, rfl, rfl, by simp⟩⟩
      · exact ⟨y, hy, .inl ⟨rfl, rfl, rfl, by simp⟩⟩
  have hb : ∀ d y, w.topic.dists d = some y → ∃ y', t.dists d = some y' := by
    intro d y hy
    cases hs <;> simp at hx
    case own d' z z' e hz hst => simp only [upd]; split <;> simp [hy]
    case delete d' z name rest hz hp => simp only [upd]; split <;> simp [hy]
  have hi : ∀ d y', t.dists d = some y' → (∀ z ∈ y'.window, z = (nm, 0)) ∧ (∀ n id, y'.snd n = .sending id → n = nm ∧ id = 0) ∧
      ∀ n, n ∉ y'.visited → y'.snd n = .none := by
    intro d y' hy
    obtain ⟨y, g1, ⟨g2, g3, g4, -⟩ | ⟨e, -, g2⟩⟩ := hd d y' hy
    · rw [g2, g3, g4]
      exact ⟨h.window d y g1, fun n id => h.sending d y n id g1, fun n => h.visited d y n g1⟩
    · exact lone_own h.subs (h.window d y g1) (fun n id => h.sending d y n id g1) (fun n => h.visited d y n g1) g2
  have hsub : ∀ y ∈ t.subscribers, y ∈ w.topic.subscribers := by
    intro y hy
    cases hs <;> simp at hx
    case own => exact hy
    case delete => exact mem_erased hy
  have hl : ∀ d n id r, x = .own d (.tried n id r) → ∃ y y', w.topic.dists d = some y ∧
      Topic.DStep w.topic.subscribers w.topic.closed y (.tried n id r) y' := by
    rintro d n id r rfl
    cases hs with
    | own _ y y' _ hy hst => exact ⟨y, y', hy, hst⟩
  subst ht
  refine ⟨⟨?_, fun d y g => (hi d y g).1, fun d y n id g => (hi d y g).2.1 n id, fun d y n g => (hi d y g).2.2 n, ?_, ?_, ?_⟩, ?_, ?_⟩
  · exact fun y hy => h.subs y (hsub y hy)
  · rw [he]; exact hm
  · rw [hc]; exact h.cap
  · intro d g
    rw [he]
    refine h.unborn d ?_
    cases g' : w.topic.dists d with
    | none => rfl
    | some y => obtain ⟨y', hy⟩ := hb d y g'; simp [hy] at g
  · intro d hne
    constructor
    · rintro ⟨y', g1, g2⟩
      obtain ⟨y, g3, ⟨g4, -⟩ | ⟨e, rfl, g4⟩⟩ := hd d y' g1
      · exact ⟨y, g3, g4 ▸ g2⟩
      · exact ⟨y, g3, ((lone_undecided (h.window d y g3) (fun n id => h.sending d y n id g3) (fun n => h.visited d y n g3) g4).1
          (by simpa using hne)).1 g2⟩
    · rintro ⟨y, g1, g2⟩
      obtain ⟨y', hy⟩ := hb d y g1
      refine ⟨y', hy, ?_⟩
      obtain ⟨y0, g3, ⟨g4, -⟩ | ⟨e, rfl, g4⟩⟩ := hd d y' hy
      · rw [g1] at g3; cases g3; exact g4 ▸ g2
      · rw [g1] at g3; cases g3
        exact ((lone_undecided (h.window d y g1) (fun n id => h.sending d y n id g1) (fun n => h.visited d y n g1) g4).1 (by simpa using hne)).2 g2
  · rintro d n id r rfl
    obtain ⟨y, y', hy, hst⟩ := hl d n id r rfl
    · have := (lone_undecided (h.window d y hy) (fun n id => h.sending d y n id hy) (fun n => h.visited d y n hy) hst).2 ⟨n, id, r, rfl⟩
      refine ⟨⟨y, hy, .inr this.1⟩, ?_⟩
      rintro ⟨y2, g1, g2⟩
      obtain ⟨y0, g3, ⟨-, -, -, g4⟩ | ⟨e, e1, g4⟩⟩ := hd d y2 g1
      · exact g4 n id r rfl
      · cases e1
        rw [hy] at g3
        cases g3
        exact (lone_undecided (h.window d y hy) (fun n id => h.sending d y n id hy) (fun n => h.visited d y n hy) g4).2 ⟨n, id, r, rfl⟩ |>.2 g2

theorem pending_congr (he : w'.event = w.event) (hu : ∀ d, Undecided nm w' d ↔ Undecided nm w d) (d : Nat) (m : Msg) :
    Pending nm w' d m ↔ Pending nm w d m := by
  rw [Pending, Pending, he, hu]

theorem lone_inner {e : Wired.Ev Msg} (h : Lone nm size w) (hi : Hub.inner e = true) (hs : Wired.Step w e w') :
    Lone nm size w' ∧ (w'.chans 0).buf = (w.chans 0).buf ∧ ∀ d m, Pending nm w' d m ↔ Pending nm w d m := by
  cases hs <;> simp [Hub.inner] at hi
  case distribute d x t hx ht =>
    obtain ⟨g1, g2, -⟩ := lone_topic (w' := { w with topic := t }) h (.inl ⟨_, _, rfl⟩) ht (fun _ => rfl) rfl rfl h.sender
    exact ⟨g1, rfl, pending_congr rfl fun d' => g2 d' (by rintro n id r ⟨⟩; exact hx _ _ _ rfl)⟩
  case delete d n t ht =>
    obtain ⟨g1, g2, -⟩ := lone_topic (w' := { w with topic := t }) h (.inr ⟨_, _, rfl⟩) ht (fun _ => rfl) rfl rfl h.sender
    exact ⟨g1, rfl, pending_congr rfl fun d' => g2 d' (by simp)⟩
  case call d name id e x c hd hx he hc =>
    obtain ⟨h1, h2, h3, h4, h5, h6, h7⟩ := h
    obtain ⟨rfl, rfl⟩ := h3 _ _ _ _ hd hx
    cases hc
    refine ⟨⟨h1, h2, h3, h4, ?_, by simpa [upd] using h6, h7⟩, by simp [upd], fun d m => Iff.rfl⟩
    intro d' m hm
    simp only [upd, if_true] at hm
    split at hm
    · cases hm; rename_i e1; subst e1; exact ⟨rfl, he⟩
    · exact h5 _ _ hm

theorem lone_publish {d : Nat} {m : Msg} (h : Lone nm size w) (hs : Wired.Step w (.publish d m) w') :
    Lone nm size w' ∧ (w'.chans 0).buf = (w.chans 0).buf ∧ (∀ d' m', Pending nm w' d' m' ↔ Pending nm w d' m' ∨ (d' = d ∧ m' = m)) := by
  obtain ⟨h1, h2, h3, h4, h5, h6, h7⟩ := h
  cases hs with
  | publish _ _ t ht =>
    cases ht with
    | publish _ hd =>
      have := h7 d hd
      refine ⟨⟨h1, ?_, ?_, ?_, ?_, h6, ?_⟩, rfl, ?_⟩
      · grind [upd, Topic.Dist.new]
      · grind [upd, Topic.Dist.new]
      · grind [upd, Topic.Dist.new]
      · intro d' m' hm
        have := h5 d' m' hm
        refine ⟨this.1, ?_⟩
        simp only [upd]
        split <;> grind
      · grind [upd]
      · intro d' m'
        simp only [Pending, Undecided, upd]
        by_cases e : d' = d
        · subst e
          simp [this, Topic.Dist.new, eq_comm]
        · simp [e]

theorem lone_tried {d : Nat} {n : Bytes} {r : Topic.Status} {m : Wired.Mail Msg} {y : DataChan.Ev (Wired.Mail Msg)} (h : Lone nm size w)
    (hy : y = .expired d m ∨ y = .sent d m ∨ ∃ j, y = .handed d m j) (hs : Wired.Step w (.both (.own d (.tried n 0 r)) 0 y) w') :
    Lone nm size w' ∧ m.1 = d ∧ Pending nm w d m.2 ∧ (∀ d' m', Pending nm w' d' m' ↔ Pending nm w d' m' ∧ d' ≠ d) ∧
      (y ≠ .sent d m → (w'.chans 0).buf = (w.chans 0).buf) ∧ (y = .sent d m → (w'.chans 0).buf = (w.chans 0).buf ++ [m] ∧ (w.chans 0).buf.length < size) := by
  obtain ⟨t, c, ht, hc, rfl⟩ : ∃ t c, Topic.Step w.topic (.own d (.tried n 0 r)) t ∧ DataChan.Step (w.chans 0) y c ∧
      w' = { w with topic := t, chans := upd w.chans 0 c } := by
    cases hs <;> exact ⟨_, _, by assumption, by assumption, rfl⟩
  have hm : (w.chans 0).senders d = some m := by
    rcases hy with rfl | rfl | ⟨j, rfl⟩ <;> cases hc <;> assumption
  have hcap : c.cap = (w.chans 0).cap := by rcases hy with rfl | rfl | ⟨j, rfl⟩ <;> cases hc <;> rfl
  have hsnd : ∀ d' m', c.senders d' = some m' → (w.chans 0).senders d' = some m' := by
    rcases hy with rfl | rfl | ⟨j, rfl⟩ <;> cases hc <;> grind [upd]
  obtain ⟨g1, g2, g3⟩ := lone_topic (w' := { w with topic := t, chans := upd w.chans 0 c }) h (.inl ⟨_, _, rfl⟩) ht
    (by intro i; simp only [upd]; split <;> simp_all) rfl rfl (by simpa [upd] using fun d' a b hm' => h.sender d' (a, b) (hsnd d' (a, b) hm'))
  have g4 := g3 d n 0 r rfl
  obtain ⟨e1, e2⟩ := h.sender d m hm
  refine ⟨g1, e1, ⟨e2, g4.1⟩, ?_, ?_, ?_⟩
  · intro d' m'
    by_cases e : d' = d
    · subst e
      simp [Pending, g4.2]
    · simp only [Pending, ne_eq, e, not_false_eq_true, and_true]
      rw [g2 d' (by rintro n' id r' ⟨⟩; exact e rfl)]
  · intro hne
    rcases hy with rfl | rfl | ⟨j, rfl⟩ <;> cases hc <;> simp_all [upd]
  · rintro rfl
    cases hc
    simp only [upd, if_true, true_and]
    rw [← h.cap]
    assumption

theorem lone_recvCall {j : Nat} (h : Lone nm size w) (hs : Wired.Step w (.chan 0 (.recvCall j)) w') :
    Lone nm size w' ∧ (w'.chans 0).buf = (w.chans 0).buf ∧ ∀ d m, Pending nm w' d m ↔ Pending nm w d m := by
  obtain ⟨h1, h2, h3, h4, h5, h6, h7⟩ := h
  cases hs with
  | recvCall _ _ c _ hc =>
    cases hc
    exact ⟨⟨h1, h2, h3, h4, by simpa [upd] using h5, by simpa [upd] using h6, h7⟩, by simp [upd], fun d m => Iff.rfl⟩

theorem lone_received {j : Nat} {m : Wired.Mail Msg} (h : Lone nm size w) (hs : Wired.Step w (.chan 0 (.received j m)) w') :
    Lone nm size w' ∧ (w.chans 0).buf = m :: (w'.chans 0).buf ∧ ∀ d m, Pending nm w' d m ↔ Pending nm w d m := by
  obtain ⟨h1, h2, h3, h4, h5, h6, h7⟩ := h
  cases hs with
  | received _ _ _ c _ hc =>
    cases hc
    exact ⟨⟨h1, h2, h3, h4, by simpa [upd] using h5, by simpa [upd] using h6, h7⟩, by simpa [upd], fun d m => Iff.rfl⟩

/-- The server with its bus and the server without. -/
structure Sim (h : Hub.Sys) (p : Pipe.Sys) : Prop where
  conns : p.conns = h.conns
  clients : p.clients = h.clients
  next : p.next = h.next
  db : p.db = h.db
  crashed : p.crashed = h.crashed
  req : Lone b!"engine" 0 h.req
  resp : Lone b!"server" 100 h.resp
  requests : ∀ n m, (n, m) ∈ p.requests ↔ Pending b!"engine" h.req n m
  responses : ∀ n m, (n, m) ∈ p.responses ↔ Pending b!"server" h.resp n m
  engine : p.engine = match h.engine with
    | .has m => some m
    | _ => none
  buffer : p.buffer = (h.resp.chans 0).buf
  worker : match h.worker with
    | .has (n, m) => ∃ id r c, Pipe.parseResponse m = some (id, r) ∧ p.clients.get id = some c ∧ p.worker = some (n, c, r.encode)
    | .writing n c b => p.worker = some (n, c, b)
    | _ => p.worker = none

theorem sim_new : Sim (Hub.new st) (Pipe.new st) := by
  refine ⟨rfl, rfl, rfl, rfl, rfl, lone_new _ _, lone_new _ _, ?_, ?_, rfl, rfl, rfl⟩ <;>
    simp [Pipe.new, Pending, Hub.new, Hub.subscribed]

theorem out_iff {l before after : List (Nat × Msg)} (hn : ∀ n, cnt l n ≤ 1) {n : Nat} {m : Msg} (hm : l = before ++ (n, m) :: after) :
    ∀ n' m', (n', m') ∈ before ++ after ↔ (n', m') ∈ l ∧ n' ≠ n := by
  subst hm
  intro n' m'
  have h1 := hn n
  rw [cnt_append, cnt_cons] at h1
  simp only [if_true] at h1
  have h2 : ∀ m, (n, m) ∉ before ++ after := by
    intro m hm
    have := cnt_pos.2 ⟨m, hm⟩
    rw [cnt_append] at this
    omega
  by_cases e : n' = n
  · subst e
    simpa using h2 m'
  · simp [e]

theorem out_of {l : List (Nat × Msg)} (hn : ∀ n, cnt l n ≤ 1) {n : Nat} {m : Msg} (hm : (n, m) ∈ l) :
    ∃ before after, l = before ++ (n, m) :: after ∧ ∀ n' m', (n', m') ∈ before ++ after ↔ (n', m') ∈ l ∧ n' ≠ n := by
  obtain ⟨before, after, e⟩ := List.append_of_mem hm
  exact ⟨before, after, e, out_iff hn e⟩

theorem parse_responseMap (id : Bytes) (r : Resp) : Pipe.parseResponse (Pipe.responseMap id r) = some (id, r) := by
  rfl

theorem seenOf_append (a b : List Hub.Ev) : seenOf (a ++ b) = seenOf a ++ seenOf b := List.filterMap_append

set_option maxHeartbeats 1000000 in
theorem sim_step {tr : List Pipe.Ev} {h h' : Hub.Sys} {p : Pipe.Sys} {e : Hub.Ev} (hp : Exec Pipe.Step (Pipe.new st) tr p) (hs : Sim h p) (hst : Hub.Step h e h') :
    ∃ p', Exec Pipe.Step p (seenOf [e]) p' ∧ Sim h' p' := by
  obtain ⟨s1, s2, s3, s4, s5, s6, s7, s8, s9, s10, s11, s12⟩ := hs
  have inv := pipeInv hp
  have hq : ∀ n, cnt p.requests n ≤ 1 := fun n => by have := inv.one n; have := inv.reads n; omega
  have hr : ∀ n, cnt p.responses n ≤ 1 := fun n => by have := inv.two n; have := inv.one n; have := inv.reads n; omega
  cases hst with
  | connect c id hc h1 h2 =>
    refine ⟨_, .one (.connect c id (by rw [s5, hc]) (by rw [s1, h1]) (by rw [s1]; exact h2)), ?_⟩
    refine ⟨by rw [s1], by rw [s2], s3, s4, s5, s6, s7, s8, s9, s10, s11, ?_⟩
    revert s12
    cases h.worker with
    | has m =>
      rintro ⟨id', r, c', g1, g2, g3⟩
      refine ⟨id', r, c', g1, ?_, g3⟩
      have : id' ≠ id := by
        rintro rfl
        exact h2 c' (s1 ▸ (inv.ids _ _).1 g2)
      rw [GoMap.get_set, if_neg (Ne.symm this)]
      exact g2
    | _ => exact fun g => g
  | read c id o w hc h1 h2 =>
    obtain ⟨g1, g2, g3⟩ := lone_publish s6 h2
    have hrd := Pipe.Step.read (s := p) c id o (by rw [s5, hc]) (by rw [s1, h1])
    rw [s3] at hrd
    refine ⟨_, .one hrd, ?_⟩
    refine ⟨s1, s2, rfl, s4, s5, g1, s7, ?_, s9, s10, s11, s12⟩
    intro n m
    simp only [List.mem_cons, Prod.mk.injEq, g3, s8]
    exact or_comm
  | requests e w hc h1 h2 =>
    obtain ⟨g1, g2, g3⟩ := lone_inner s6 h1 h2
    exact ⟨p, .nil, s1, s2, s3, s4, s5, g1, s7, fun n m => (s8 n m).trans (g3 n m).symm, s9, s10, s11, s12⟩
  | drop n name m w hc h1 =>
    obtain ⟨g1, g2, g3, g4, -⟩ := lone_tried s6 (.inl rfl) h1
    obtain ⟨b, a, e1, e2⟩ := out_of hq ((s8 _ _).2 g3)
    refine ⟨_, .one (.drop n _ b a (by rw [s5, hc]) e1), ?_⟩
    exact ⟨s1, s2, s3, s4, s5, g1, s7, fun n' m' => by rw [e2, g4, s8], s9, s10, s11, s12⟩
  | wait w hc h1 h2 =>
    obtain ⟨g1, g2, g3⟩ := lone_recvCall s6 h2
    exact ⟨p, .nil, s1, s2, s3, s4, s5, g1, s7, fun n m => (s8 n m).trans (g3 n m).symm, s9, by simpa [h1] using s10, s11, s12⟩
  | take n name m w hc h1 h2 =>
    obtain ⟨g1, g2, g3, g4, -⟩ := lone_tried s6 (.inr (.inr ⟨_, rfl⟩)) h2
    obtain ⟨b, a, e1, e2⟩ := out_of hq ((s8 _ _).2 g3)
    rw [h1] at s10
    refine ⟨_, .one (.take n _ b a (by rw [s5, hc]) e1 s10), ?_⟩
    obtain ⟨n', m'⟩ := m
    cases g2
    exact ⟨s1, s2, s3, s4, s5, g1, s7, fun n' m' => by rw [e2, g4, s8], s9, rfl, s11, s12⟩
  | ignore n m hc h1 h2 =>
    rw [h1] at s10
    refine ⟨_, .one (.ignore n m (by rw [s5, hc]) s10 h2), ?_⟩
    exact ⟨s1, s2, s3, s4, s5, s6, s7, s8, s9, rfl, s11, s12⟩
  | execute n m id objs env db r w hc h1 h2 h3 h4 =>
    rw [h1] at s10
    obtain ⟨g1, g2, g3⟩ := lone_publish s7 h4
    refine ⟨_, .one (.execute n m id objs env db r (by rw [s5, hc]) s10 h2 (by rw [s4, h3])), ?_⟩
    refine ⟨s1, s2, s3, rfl, s5, s6, g1, s8, ?_, rfl, by rw [g2]; exact s11, s12⟩
    intro n' m'
    simp only [List.mem_cons, Prod.mk.injEq, g3, s9]
    exact or_comm
  | crash n m id objs env hc h1 h2 h3 =>
    rw [h1] at s10
    refine ⟨_, .one (.crash n m id objs env (by rw [s5, hc]) s10 h2 (by rw [s4, h3])), ?_⟩
    exact ⟨s1, s2, s3, s4, rfl, s6, s7, s8, s9, by rw [h1]; exact s10, s11, s12⟩
  | responses e w hc h1 h2 =>
    obtain ⟨g1, g2, g3⟩ := lone_inner s7 h1 h2
    exact ⟨p, .nil, s1, s2, s3, s4, s5, s6, g1, s8, fun n m => (s9 n m).trans (g3 n m).symm, s10, by rw [g2]; exact s11, s12⟩
  | queue n name m w hc h1 =>
    obtain ⟨g1, g2, g3, g4, -, g5⟩ := lone_tried s7 (.inr (.inl rfl)) h1
    obtain ⟨g6, g7⟩ := g5 rfl
    obtain ⟨b, a, e1, e2⟩ := out_of hr ((s9 _ _).2 g3)
    obtain ⟨n', m'⟩ := m
    cases g2
    refine ⟨_, .one (.queue n' m' b a (by rw [s5, hc]) e1 (by rw [s11]; exact g7)), ?_⟩
    exact ⟨s1, s2, s3, s4, s5, s6, g1, s8, fun n' m' => by rw [e2, g4, s9], s10, by rw [g6, s11], s12⟩
  | unqueue n name m w hc h1 =>
    obtain ⟨g1, g2, g3, g4, g5, -⟩ := lone_tried s7 (.inl rfl) h1
    obtain ⟨b, a, e1, e2⟩ := out_of hr ((s9 _ _).2 g3)
    refine ⟨_, .one (.unqueue n _ b a (by rw [s5, hc]) e1), ?_⟩
    exact ⟨s1, s2, s3, s4, s5, s6, g1, s8, fun n' m' => by rw [e2, g4, s9], s10, by rw [g5 (by simp)]; exact s11, s12⟩
  | await w hc h1 h2 =>
    obtain ⟨g1, g2, g3⟩ := lone_recvCall s7 h2
    exact ⟨p, .nil, s1, s2, s3, s4, s5, s6, g1, s8, fun n m => (s9 n m).trans (g3 n m).symm, s10, by rw [g2]; exact s11, by simpa [h1] using s12⟩
  | receive n m w hc h1 h2 =>
    obtain ⟨g1, g2, g3⟩ := lone_received s7 h2
    rw [h1] at s12
    rw [g2] at s11
    obtain ⟨c, id, o, env, r, k1, k2, k3, rfl⟩ := inv.resp n m (by simp [s11])
    have k4 := (inv.ids id c).2 k3
    refine ⟨_, .one (.answer n _ _ id r c (by rw [s5, hc]) s12 s11 (parse_responseMap id r) k4), ?_⟩
    exact ⟨s1, s2, s3, s4, s5, s6, g1, s8, fun n m => (s9 n m).trans (g3 n m).symm, s10, rfl, id, r, c, rfl, k4, rfl⟩
  | look n m id r c hc h1 h2 h3 =>
    rw [h1] at s12
    obtain ⟨id', r', c', k1, k2, k3⟩ := s12
    rw [h2] at k1
    cases k1
    rw [s2, h3] at k2
    cases k2
    exact ⟨p, .nil, s1, s2, s3, s4, s5, s6, s7, s8, s9, s10, s11, k3⟩
  | nobody n m hc h1 h2 =>
    rw [h1] at s12
    obtain ⟨id', r', c', k1, k2, k3⟩ := s12
    rw [s2, h2 _ _ k1] at k2
    cases k2
  | write n c b hc h1 =>
    rw [h1] at s12
    exact ⟨_, .one (.write n c b (by rw [s5, hc]) s12), s1, s2, s3, s4, s5, s6, s7, s8, s9, s10, s11, rfl⟩
  | refuse n c b hc h1 =>
    rw [h1] at s12
    exact ⟨_, .one (.refuse n c b (by rw [s5, hc]) s12), s1, s2, s3, s4, s5, s6, s7, s8, s9, s10, s11, rfl⟩

/-- C80: whatever the goroutines of the bus do, what can be seen of the server is an execution of the server without the bus. -/
theorem hub_sim {tr : List Hub.Ev} {h : Hub.Sys} (hx : Exec Hub.Step (Hub.new st) tr h) : ∃ p, Exec Pipe.Step (Pipe.new st) (seenOf tr) p ∧ Sim h p := by
  refine hx.inv (P := fun tr h => ∃ p, Exec Pipe.Step (Pipe.new st) (seenOf tr) p ∧ Sim h p) ⟨_, .nil, sim_new⟩ ?_
  rintro tr s l s' - ⟨p, hp, hs⟩ hst
  obtain ⟨p', h1, h2⟩ := sim_step hp hs hst
  exact ⟨p', by rw [seenOf_append]; exact hp.append h1, h2⟩

/-! ### the other direction -/

/-- A run that serves the subscriber, who never closes. -/
structure ServingRun (nm : Bytes) (x : Topic.Dist) : Prop where
  called : x.pc = .called → x.visited = []
  ranging : x.pc = .ranging → (nm, 0) ∈ x.window ∧ nm ∈ x.due
  past : x.pc ≠ .called → x.pc ≠ .ranging → x.snd nm ≠ .none
  visited : ∀ n, n ∈ x.visited ↔ x.snd n ≠ .none
  keys : x.keys = []
  collector : x.collector = none
  open_ : ∀ n, x.snd n ≠ .reporting
  cleaning : ∀ ks, x.pc = .cleaning ks → ks = []

/-- A topic whose only subscriber never closes. -/
structure Calm (nm : Bytes) (w : Wired.Sys Msg) : Prop where
  subs : w.topic.subscribers = [(nm, 0)]
  made : w.topic.made = 1
  open_ : ∀ id, w.topic.closed id = false
  run : ∀ d x, w.topic.dists d = some x → ServingRun nm x
  up : (w.chans 0).crashed = false
  flag : (w.chans 0).flag = false
  sender : ∀ d m, (w.chans 0).senders d = some m → ∃ x, w.topic.dists d = some x ∧ x.snd nm = .sending 0
  event : ∀ d x, w.topic.dists d = some x → w.event d ≠ none

theorem calm_new (nm : Bytes) (size : Nat) : Calm nm (Hub.subscribed nm size) := by
  constructor <;> simp [Hub.subscribed, Topic.new, DataChan.new]

theorem servingRun_step {e : Topic.DEv} {x x' : Topic.Dist} {subs : GoMap Nat} {closed : Nat → Bool} (hsub : subs = [(nm, 0)]) (hc : ∀ id, closed id = false)
    (h : ServingRun nm x) (hs : Topic.DStep subs closed x e x') : ServingRun nm x' := by
  obtain ⟨h1, h2, h3, h4, h5, h6, h7, h8⟩ := h
  subst hsub
  cases hs <;> constructor <;> simp_all [Topic.put, GoMap.keys] <;> grind

/-- What happens on the topics of the server. -/
def ours : Wired.Ev Msg → Bool
  | .publish _ _ | .topic _ => true
  | .chan id (.sendCall _ _) | .chan id (.recvCall _) | .chan id (.received _ _) => id = 0
  | .both (.own d (.tried _ _ _)) id (.expired d' _) | .both (.own d (.tried _ _ _)) id (.sent d' _)
  | .both (.own d (.tried _ _ _)) id (.handed d' _ _) => id = 0 ∧ d' = d
  | _ => false

theorem calm_topic {x : Topic.Ev} {t : Topic.Sys} (h : Calm nm w) (hx : (∃ d e, x = .own d e) ∨ ∃ d n, x = .deleted d n) (hs : Topic.Step w.topic x t) :
    t.subscribers = [(nm, 0)] ∧ t.made = 1 ∧ (∀ id, t.closed id = false) ∧ (∀ d x, t.dists d = some x → ServingRun nm x) ∧
      (∀ d x, t.dists d = some x → w.event d ≠ none) ∧
      ∀ d y, w.topic.dists d = some y → (∀ n id r, x ≠ .own d (.tried n id r)) → y.snd nm = .sending 0 → ∃ y', t.dists d = some y' ∧ y'.snd nm = .sending 0 := by
  obtain ⟨h1, h2, h3, h4, h5, h6, h7, h8⟩ := h
  cases hs <;> simp at hx
  case own d z z' e hz hst =>
    refine ⟨h1, h2, h3, ?_, ?_, ?_⟩
    · intro d' y hy
      simp only [upd] at hy
      split at hy
      · cases hy; exact servingRun_step h1 h3 (h4 _ _ hz) hst
      · exact h4 _ _ hy
    · intro d' y hy
      simp only [upd] at hy
      split at hy
      · rename_i e1; subst e1; exact h8 _ _ hz
      · exact h8 _ _ hy
    · intro d' y hy hne hsn
      simp only [upd]
      split
      · rename_i e1
        subst e1
        rw [hz] at hy
        cases hy
        refine ⟨z', rfl, ?_⟩
        have := (h4 _ _ hz).visited nm
        cases hst <;> simp_all [Topic.put] <;> grind
      · exact ⟨y, hy, hsn⟩
  case delete d z name rest hz hp =>
    have := (h4 _ _ hz).cleaning _ hp
    simp at this

set_option maxHeartbeats 1000000 in
theorem calm_step {e : Wired.Ev Msg} (h : Calm nm w) (hl : Lone nm size w) (ho : ours e = true) (hs : Wired.Step w e w') : Calm nm w' := by
  have hh := h
  obtain ⟨h1, h2, h3, h4, h5, h6, h7, h8⟩ := h
  cases hs <;> simp [ours] at ho
  case publish d e t ht =>
    cases ht
    case publish hd =>
      refine ⟨h1, h2, h3, ?_, h5, h6, ?_, ?_⟩
      · intro d' x hx
        simp only [upd] at hx
        split at hx
        · cases hx; constructor <;> simp [Topic.Dist.new]
        · exact h4 _ _ hx
      · intro d' m hm
        obtain ⟨x, g1, g2⟩ := h7 d' m hm
        have : d' ≠ d := by rintro rfl; simp [hd] at g1
        exact ⟨x, by simp [upd, this, g1], g2⟩
      · intro d' x hx
        simp only [upd] at hx ⊢
        split at hx
        · rename_i e1; simp [e1]
        · rename_i e1; simpa [e1] using h8 _ _ hx
  case distribute d x t hx ht =>
    obtain ⟨g1, g2, g3, g4, g5, g6⟩ := calm_topic hh (.inl ⟨_, _, rfl⟩) ht
    refine ⟨g1, g2, g3, g4, h5, h6, ?_, g5⟩
    intro d' m hm
    obtain ⟨y, k1, k2⟩ := h7 d' m hm
    exact g6 d' y k1 (by rintro n id r ⟨⟩; exact hx _ _ _ rfl) k2
  case delete d n t ht =>
    obtain ⟨g1, g2, g3, g4, g5, g6⟩ := calm_topic hh (.inr ⟨_, _, rfl⟩) ht
    refine ⟨g1, g2, g3, g4, h5, h6, ?_, g5⟩
    intro d' m hm
    obtain ⟨y, k1, k2⟩ := h7 d' m hm
    exact g6 d' y k1 (by simp) k2
  case call d name id e x c hd hx he hc =>
    subst ho
    obtain ⟨rfl, -⟩ := hl.sending _ _ _ _ hd hx
    cases hc
    refine ⟨h1, h2, h3, h4, by simpa [upd], by simpa [upd], ?_, h8⟩
    intro d' m hm
    simp only [upd, if_true] at hm
    split at hm
    · rename_i e1; subst e1; exact ⟨x, hd, hx⟩
    · exact h7 _ _ hm
  case recvCall id j c hj hc =>
    subst ho
    cases hc
    exact ⟨h1, h2, h3, h4, by simpa [upd], by simpa [upd], by simpa [upd] using h7, h8⟩
  case received id j m c hj hc =>
    subst ho
    cases hc
    exact ⟨h1, h2, h3, h4, by simpa [upd], by simpa [upd], by simpa [upd] using h7, h8⟩
  case sent d name id m t c ht hc =>
    subst ho
    obtain ⟨g1, g2, g3, g4, g5, g6⟩ := calm_topic hh (.inl ⟨_, _, rfl⟩) ht
    cases hc
    refine ⟨g1, g2, g3, g4, by simpa [upd], by simpa [upd], ?_, g5⟩
    intro d' m hm
    simp only [upd, if_true] at hm
    split at hm
    · cases hm
    · rename_i e1
      obtain ⟨y, k1, k2⟩ := h7 d' m hm
      exact g6 d' y k1 (by rintro n id r ⟨⟩; exact e1 rfl) k2
  case handed d name id m j t c ht hc =>
    subst ho
    obtain ⟨g1, g2, g3, g4, g5, g6⟩ := calm_topic hh (.inl ⟨_, _, rfl⟩) ht
    cases hc
    refine ⟨g1, g2, g3, g4, by simpa [upd], by simpa [upd], ?_, g5⟩
    intro d' m hm
    simp only [upd, if_true] at hm
    split at hm
    · cases hm
    · rename_i e1
      obtain ⟨y, k1, k2⟩ := h7 d' m hm
      exact g6 d' y k1 (by rintro n id r ⟨⟩; exact e1 rfl) k2
  case expired d name id m t c ht hc =>
    subst ho
    obtain ⟨g1, g2, g3, g4, g5, g6⟩ := calm_topic hh (.inl ⟨_, _, rfl⟩) ht
    cases hc
    refine ⟨g1, g2, g3, g4, by simpa [upd], by simpa [upd], ?_, g5⟩
    intro d' m hm
    simp only [upd, if_true] at hm
    split at hm
    · cases hm
    · rename_i e1
      obtain ⟨y, k1, k2⟩ := h7 d' m hm
      exact g6 d' y k1 (by rintro n id r ⟨⟩; exact e1 rfl) k2

theorem inner_ours {e : Wired.Ev Msg} (hl : Lone nm size w) (hi : Hub.inner e = true) (hs : Wired.Step w e w') : ours e = true := by
  cases hs <;> simp [Hub.inner] at hi
  case distribute => rfl
  case delete => rfl
  case call d name id e x c hd hx he hc =>
    obtain ⟨-, rfl⟩ := hl.sending _ _ _ _ hd hx
    rfl

theorem inner_receivers {e : Wired.Ev Msg} (hi : Hub.inner e = true) (hs : Wired.Step w e w') (i j : Nat) :
    (w'.chans i).receivers j = (w.chans i).receivers j := by
  cases hs <;> simp [Hub.inner] at hi
  case distribute => rfl
  case delete => rfl
  case call d name id e x c hd hx he hc =>
    cases hc
    simp only [upd]
    split
    · rename_i e1; rw [e1]
    · rfl

/-- Any number of steps within the topic. -/
theorem inner_exec {es : List (Wired.Ev Msg)} (hl : Lone nm size w) (hc : Calm nm w) (hx : Exec Wired.Step w es w') (hi : ∀ e ∈ es, Hub.inner e = true) :
    Lone nm size w' ∧ Calm nm w' ∧ (w'.chans 0).buf = (w.chans 0).buf ∧ (∀ d m, Pending nm w' d m ↔ Pending nm w d m) ∧
      ∀ i j, (w'.chans i).receivers j = (w.chans i).receivers j := by
  induction hx with
  | nil => exact ⟨hl, hc, rfl, fun _ _ => Iff.rfl, fun _ _ => rfl⟩
  | @snoc tr s s' l h1 h2 ih =>
    obtain ⟨g1, g2, g3, g4, g5⟩ := ih fun e he => hi e (by simp [he])
    have hl' := hi l (by simp)
    obtain ⟨k1, k2, k3⟩ := lone_inner g1 hl' h2
    exact ⟨k1, calm_step g2 g1 (inner_ours g1 hl' h2) h2, k2.trans g3, fun d m => (k3 d m).trans (g4 d m),
      fun i j => (inner_receivers hl' h2 i j).trans (g5 i j)⟩

/-- An event on its way can be offered to the subscriber. -/
theorem offered {d : Nat} {m : Msg} (hl : Lone nm size w) (hc : Calm nm w) (hp : Pending nm w d m) :
    ∃ es w' x, Exec Wired.Step w es w' ∧ (∀ e ∈ es, Hub.inner e = true) ∧ w'.topic.dists d = some x ∧ x.snd nm = .sending 0 ∧
      (w'.chans 0).senders d = some (d, m) := by
  obtain ⟨he, x, hd, hu⟩ := hp
  have hs := hc.run d x hd
  -- once the goroutine is in `Send`
  have send : ∀ w1 : Wired.Sys Msg, Lone nm size w1 → Calm nm w1 → w1.event d = some m → ∀ x1, w1.topic.dists d = some x1 → x1.snd nm = .sending 0 →
      ∃ es w' x, Exec Wired.Step w1 es w' ∧ (∀ e ∈ es, Hub.inner e = true) ∧ w'.topic.dists d = some x ∧ x.snd nm = .sending 0 ∧
        (w'.chans 0).senders d = some (d, m) := by
    intro w1 hl1 hc1 he1 x1 hd1 hx1
    cases hsnd : (w1.chans 0).senders d with
    | some m1 =>
      obtain ⟨d1, m1⟩ := m1
      obtain ⟨g1, g2⟩ := hl1.sender d _ hsnd
      rw [he1] at g2
      cases g1
      cases g2
      exact ⟨[], w1, x1, .nil, by simp, hd1, hx1, hsnd⟩
    | none =>
      exact ⟨_, _, x1, .one (.call d nm 0 m x1 _ hd1 hx1 he1 (.sendCall d (d, m) hc1.up hsnd)), by simp [Hub.inner], hd1, hx1, by simp [upd]⟩
  -- once `Range` runs
  have range : ∀ w1 : Wired.Sys Msg, Lone nm size w1 → Calm nm w1 → w1.event d = some m → ∀ x1, w1.topic.dists d = some x1 → x1.pc = .ranging →
      x1.snd nm = .none → ∃ es w' x, Exec Wired.Step w1 es w' ∧ (∀ e ∈ es, Hub.inner e = true) ∧ w'.topic.dists d = some x ∧ x.snd nm = .sending 0 ∧
        (w'.chans 0).senders d = some (d, m) := by
    intro w1 hl1 hc1 he1 x1 hd1 hp1 hx1
    have hs1 := hc1.run d x1 hd1
    have hv : nm ∉ x1.visited := fun hv => (hs1.visited nm).1 hv hx1
    have hst : Wired.Step w1 (.topic (.own d (.visited nm 0))) _ :=
      .distribute d _ _ (by simp) (.own d x1 _ _ hd1 (.visit nm 0 hp1 (hs1.ranging hp1).1 hv))
    have hl2 := (lone_inner hl1 rfl hst).1
    have hc2 := calm_step hc1 hl1 rfl hst
    obtain ⟨es, w', x', g1, g2, g3⟩ := send _ hl2 hc2 he1 _ (by simp [upd]; rfl) (by simp [Topic.put])
    exact ⟨_ :: es, w', x', .cons hst g1, by simpa [Hub.inner] using g2, g3⟩
  rcases hu with hu | hu
  · by_cases h1 : x.pc = .called
    · have hst : Wired.Step w (.topic (.own d .started)) _ := .distribute d _ _ (by simp) (.own d x _ _ hd (.start h1))
      have hl2 := (lone_inner hl rfl hst).1
      have hc2 := calm_step hc hl rfl hst
      obtain ⟨es, w', x', g1, g2, g3⟩ := range _ hl2 hc2 he { x with pc := .ranging, window := w.topic.subscribers, due := w.topic.subscribers.keys }
        (by simp [upd]) rfl hu
      exact ⟨_ :: es, w', x', .cons hst g1, by simpa [Hub.inner] using g2, g3⟩
    · by_cases h2 : x.pc = .ranging
      · exact range w hl hc he x hd h2 hu
      · exact absurd hu (hs.past h1 h2)
  · exact send w hl hc he x hd hu

theorem hub_requests {h : Hub.Sys} {es : List (Wired.Ev Msg)} {w : Wired.Sys Msg} (hc : h.crashed = false) (hx : Exec Wired.Step h.req es w)
    (hi : ∀ e ∈ es, Hub.inner e = true) : Exec Hub.Step h (es.map .requests) { h with req := w } := by
  induction hx with
  | nil => exact .nil
  | snoc h1 h2 ih =>
    rw [List.map_append]
    exact .snoc (ih fun e he => hi e (by simp [he])) (.requests (s := { h with req := _ }) _ _ hc (hi _ (by simp)) h2)

theorem hub_responses {h : Hub.Sys} {es : List (Wired.Ev Msg)} {w : Wired.Sys Msg} (hc : h.crashed = false) (hx : Exec Wired.Step h.resp es w)
    (hi : ∀ e ∈ es, Hub.inner e = true) : Exec Hub.Step h (es.map .responses) { h with resp := w } := by
  induction hx with
  | nil => exact .nil
  | snoc h1 h2 ih =>
    rw [List.map_append]
    exact .snoc (ih fun e he => hi e (by simp [he])) (.responses (s := { h with resp := _ }) _ _ hc (hi _ (by simp)) h2)

theorem seenOf_requests (es : List (Wired.Ev Msg)) : seenOf (es.map .requests) = [] := by simp [seenOf, List.filterMap_map]

theorem seenOf_responses (es : List (Wired.Ev Msg)) : seenOf (es.map .responses) = [] := by simp [seenOf, List.filterMap_map]


theorem born {e : Wired.Ev Msg} {n : Nat} (hs : Wired.Step w e w') (hn : w'.topic.dists n ≠ none) : w.topic.dists n ≠ none ∨ ∃ m, e = .publish n m := by
  by_cases hp : ∃ m, e = .publish n m
  · exact .inr hp
  · refine .inl fun h0 => hn ?_
    have key : ∀ x t, Topic.Step w.topic x t → x ≠ .publish n → t.dists n = none := by
      intro x t ht hx
      cases ht <;> simp_all [upd] <;> grind
    cases hs
    case publish d e t ht => exact key _ _ ht (by rintro ⟨⟩; exact hp ⟨_, rfl⟩)
    case distribute ht => exact key _ _ ht (by simp)
    case delete ht => exact key _ _ ht (by simp)
    case subscribe ht => exact key _ _ ht (by simp)
    case sent ht _ => exact key _ _ ht (by simp)
    case handed ht _ => exact key _ _ ht (by simp)
    case refused ht _ => exact key _ _ ht (by simp)
    case expired ht _ => exact key _ _ ht (by simp)
    case close ht _ => exact key _ _ ht (by simp)
    all_goals exact h0

theorem recv_call {j : Nat} (hs : Wired.Step w (.chan 0 (.recvCall j)) w') : (w'.chans 0).receivers j = true := by
  cases hs with
  | recvCall _ _ c _ hc => cases hc; simp [upd]

theorem recv_done {j : Nat} {m : Wired.Mail Msg} (hs : Wired.Step w (.chan 0 (.received j m)) w') :
    (w'.chans 0).receivers j = false ∧ (w.chans 0).receivers j = true := by
  cases hs with
  | received _ _ _ c _ hc => cases hc; simpa [upd]

theorem recv_handed {x : Topic.Ev} {d j : Nat} {m : Wired.Mail Msg} (hs : Wired.Step w (.both x 0 (.handed d m j)) w') :
    (w'.chans 0).receivers j = false := by
  cases hs with
  | handed _ _ _ _ _ t c ht hc => cases hc; simp [upd]

theorem recv_same {x : Topic.Ev} {d j : Nat} {m : Wired.Mail Msg} {y : DataChan.Ev (Wired.Mail Msg)} (hy : y = .expired d m ∨ y = .sent d m)
    (hs : Wired.Step w (.both x 0 y) w') : (w'.chans 0).receivers j = (w.chans 0).receivers j := by
  rcases hy with rfl | rfl
  · cases hs with
    | expired _ _ _ _ t c ht hc => cases hc; simp [upd]
  · cases hs with
    | sent _ _ _ _ t c ht hc => cases hc; simp [upd]

theorem recv_publish {d i j : Nat} {m : Msg} (hs : Wired.Step w (.publish d m) w') : (w'.chans i).receivers j = (w.chans i).receivers j := by
  cases hs; rfl

/-- What holds in every reachable state of the server with its bus. -/
structure HubInv (tr : List Pipe.Ev) (h : Hub.Sys) : Prop where
  req : Calm b!"engine" h.req
  resp : Calm b!"server" h.resp
  ears : (h.req.chans 0).receivers 0 = true ↔ h.engine = .waiting
  eyes : (h.resp.chans 0).receivers 0 = true ↔ h.worker = .waiting
  unread : ∀ n, h.req.topic.dists n ≠ none → n < h.next
  undone : ∀ n, h.resp.topic.dists n ≠ none → 0 < cnt (executedOf tr) n

theorem hubInv {tr : List Hub.Ev} {h : Hub.Sys} (hx : Exec Hub.Step (Hub.new st) tr h) : HubInv (seenOf tr) h := by
  refine hx.inv (P := fun tr h => HubInv (seenOf tr) h) ?_ ?_
  · refine ⟨calm_new _ _, calm_new _ _, ?_, ?_, ?_, ?_⟩ <;> simp [Hub.new, Hub.subscribed, DataChan.new, Topic.new]
  · rintro tr s l s' hx ⟨h1, h2, h3, h4, h5, h6⟩ hst
    obtain ⟨p, hp, hsim⟩ := hub_sim hx
    have l1 := hsim.req
    have l2 := hsim.resp
    have u6 : ∀ n, s.resp.topic.dists n ≠ none → 0 < cnt (executedOf (seenOf (tr ++ [l]))) n := by
      intro n hn
      rw [seenOf_append, executedOf_append, cnt_append]
      have := h6 n hn
      omega
    have b1 : ∀ {e w}, Wired.Step s.req e w → (∀ n m, e ≠ .publish n m) → ∀ n, w.topic.dists n ≠ none → n < s.next := by
      intro e w he hne n hn
      rcases born he hn with hn | ⟨m, rfl⟩
      · exact h5 n hn
      · exact absurd rfl (hne n m)
    have b2 : ∀ {e w}, Wired.Step s.resp e w → (∀ n m, e ≠ .publish n m) → ∀ n, w.topic.dists n ≠ none → 0 < cnt (executedOf (seenOf (tr ++ [l]))) n := by
      intro e w he hne n hn
      rcases born he hn with hn | ⟨m, rfl⟩
      · exact u6 n hn
      · exact absurd rfl (hne n m)
    have ni : ∀ {e : Wired.Ev Msg}, Hub.inner e = true → ∀ n m, e ≠ .publish n m := by rintro e he n m rfl; simp [Hub.inner] at he
    cases hst with
    | connect c id hc g1 g2 => exact ⟨h1, h2, h3, h4, h5, u6⟩
    | read c id o w hc g1 g2 =>
      refine ⟨calm_step h1 l1 rfl g2, h2, by rw [recv_publish g2]; exact h3, h4, ?_, u6⟩
      intro n hn
      rcases born g2 hn with hn | ⟨m, e⟩
      · exact Nat.lt_succ_of_lt (h5 n hn)
      · cases e; exact Nat.lt_succ_self _
    | requests e w hc g1 g2 =>
      exact ⟨calm_step h1 l1 (inner_ours l1 g1 g2) g2, h2, by rw [inner_receivers g1 g2]; exact h3, h4, b1 g2 (ni g1), u6⟩
    | drop n name m w hc g1 =>
      exact ⟨calm_step h1 l1 (by simp [ours]) g1, h2, by rw [recv_same (.inl rfl) g1]; exact h3, h4, b1 g1 (by simp), u6⟩
    | wait w hc g1 g2 => exact ⟨calm_step h1 l1 (by simp [ours]) g2, h2, by simp [recv_call g2], h4, b1 g2 (by simp), u6⟩
    | take n name m w hc g1 g2 => exact ⟨calm_step h1 l1 (by simp [ours]) g2, h2, by simp [recv_handed g2], h4, b1 g2 (by simp), u6⟩
    | ignore n m hc g1 g2 => exact ⟨h1, h2, by rw [h3, g1]; simp, h4, h5, u6⟩
    | execute n m id objs env db r w hc g1 g2 g3 g4 =>
      refine ⟨h1, calm_step h2 l2 rfl g4, by rw [h3, g1]; simp, by rw [recv_publish g4]; exact h4, h5, ?_⟩
      intro n' hn
      rcases born g4 hn with hn | ⟨m, e⟩
      · exact u6 n' hn
      · cases e
        rw [seenOf_append, executedOf_append, cnt_append]
        simp [seenOf, executedOf, cnt_cons]
    | crash n m id objs env hc g1 g2 g3 => exact ⟨h1, h2, h3, h4, h5, u6⟩
    | responses e w hc g1 g2 =>
      exact ⟨h1, calm_step h2 l2 (inner_ours l2 g1 g2) g2, h3, by rw [inner_receivers g1 g2]; exact h4, h5, b2 g2 (ni g1)⟩
    | queue n name m w hc g1 =>
      exact ⟨h1, calm_step h2 l2 (by simp [ours]) g1, h3, by rw [recv_same (.inr rfl) g1]; exact h4, h5, b2 g1 (by simp)⟩
    | unqueue n name m w hc g1 =>
      exact ⟨h1, calm_step h2 l2 (by simp [ours]) g1, h3, by rw [recv_same (.inl rfl) g1]; exact h4, h5, b2 g1 (by simp)⟩
    | await w hc g1 g2 => exact ⟨h1, calm_step h2 l2 (by simp [ours]) g2, h3, by simp [recv_call g2], h5, b2 g2 (by simp)⟩
    | receive n m w hc g1 g2 => exact ⟨h1, calm_step h2 l2 (by simp [ours]) g2, h3, by simp [(recv_done g2).1], h5, b2 g2 (by simp)⟩
    | look n m id r c hc g1 g2 g3 => exact ⟨h1, h2, h3, by rw [h4, g1]; simp, h5, u6⟩
    | nobody n m hc g1 g2 => exact ⟨h1, h2, h3, by rw [h4, g1]; simp, h5, u6⟩
    | write n c b hc g1 => exact ⟨h1, h2, h3, by rw [h4, g1]; simp, h5, u6⟩
    | refuse n c b hc g1 => exact ⟨h1, h2, h3, by rw [h4, g1]; simp, h5, u6⟩

theorem sim_requests {h : Hub.Sys} {p : Pipe.Sys} {es : List (Wired.Ev Msg)} (hs : Sim h p) (hc : Calm b!"engine" h.req)
    (hx : Exec Wired.Step h.req es w) (hi : ∀ e ∈ es, Hub.inner e = true) : Sim { h with req := w } p := by
  obtain ⟨s1, s2, s3, s4, s5, s6, s7, s8, s9, s10, s11, s12⟩ := hs
  obtain ⟨g1, g2, g3, g4, -⟩ := inner_exec s6 hc hx hi
  exact ⟨s1, s2, s3, s4, s5, g1, s7, fun n m => (s8 n m).trans (g4 n m).symm, s9, s10, s11, s12⟩

theorem sim_responses {h : Hub.Sys} {p : Pipe.Sys} {es : List (Wired.Ev Msg)} (hs : Sim h p) (hc : Calm b!"server" h.resp)
    (hx : Exec Wired.Step h.resp es w) (hi : ∀ e ∈ es, Hub.inner e = true) : Sim { h with resp := w } p := by
  obtain ⟨s1, s2, s3, s4, s5, s6, s7, s8, s9, s10, s11, s12⟩ := hs
  obtain ⟨g1, g2, g3, g4, -⟩ := inner_exec s7 hc hx hi
  exact ⟨s1, s2, s3, s4, s5, s6, g1, s8, fun n m => (s9 n m).trans (g4 n m).symm, s10, by rw [g3]; exact s11, s12⟩

set_option maxHeartbeats 1000000 in
theorem sim_back {tr : List Hub.Ev} {h : Hub.Sys} {p p' : Pipe.Sys} {e : Pipe.Ev} (hx : Exec Hub.Step (Hub.new st) tr h)
    (hp : Exec Pipe.Step (Pipe.new st) (seenOf tr) p) (hs : Sim h p) (hst : Pipe.Step p e p') :
    ∃ es h', Exec Hub.Step h es h' ∧ seenOf es = [e] ∧ Sim h' p' := by
  have inv := pipeInv hp
  obtain ⟨i1, i2, i3, i4, i5, i6⟩ := hubInv hx
  have hq : ∀ n, cnt p.requests n ≤ 1 := fun n => by have := inv.one n; have := inv.reads n; omega
  have hr : ∀ n, cnt p.responses n ≤ 1 := fun n => by have := inv.two n; have := inv.one n; have := inv.reads n; omega
  have hs0 := hs
  obtain ⟨s1, s2, s3, s4, s5, s6, s7, s8, s9, s10, s11, s12⟩ := hs
  cases hst with
  | connect c id hc h1 h2 =>
    refine ⟨_, _, .one (.connect c id (by rw [← s5, hc]) (by rw [← s1, h1]) (by rw [← s1]; exact h2)), rfl, ?_⟩
    refine ⟨by rw [s1], by rw [s2], s3, s4, s5, s6, s7, s8, s9, s10, s11, ?_⟩
    revert s12
    cases h.worker with
    | has m =>
      rintro ⟨id', r, c', g1, g2, g3⟩
      refine ⟨id', r, c', g1, ?_, g3⟩
      have : id ≠ id' := by
        rintro rfl
        exact h2 c' ((inv.ids _ _).1 g2)
      rw [GoMap.get_set, if_neg this]
      exact g2
    | _ => exact fun g => g
  | read c id o hc h1 =>
    have hn : h.req.topic.dists h.next = none := by
      by_contra hn
      exact Nat.lt_irrefl _ (i5 _ hn)
    have g1 : Wired.Step h.req (.publish h.next (Pipe.requestMap id o)) _ := .publish _ _ _ (.publish _ hn)
    obtain ⟨g2, g3, g4⟩ := lone_publish s6 g1
    refine ⟨[.seen (.read c h.next o)], _, .one (.read c id o _ (by rw [← s5, hc]) (by rw [← s1, h1]) g1), by rw [s3]; rfl, ?_⟩
    refine ⟨s1, s2, by simp [s3], s4, s5, g2, s7, ?_, s9, s10, s11, s12⟩
    intro n m
    rw [g4]
    simp only [List.mem_cons, Prod.mk.injEq, s8, s3]
    exact or_comm
  | take n m b a hc e1 e2 =>
    have hc' : h.crashed = false := by rw [← s5, hc]
    obtain ⟨es, w1, x, g1, g2, g3, g4, g5⟩ := offered s6 i1 ((s8 n m).1 (by simp [e1]))
    obtain ⟨k1, k2, k3, k4, k5⟩ := inner_exec s6 i1 g1 g2
    have hs1 := sim_requests hs0 i1 g1 g2
    -- the engine goes to `Receive` if it is not there yet
    obtain ⟨es2, w2, g6, g7, g8, g9, g10⟩ : ∃ es2 w2, Exec Hub.Step { h with req := w1 } es2 { h with req := w2, engine := .waiting } ∧ seenOf es2 = [] ∧
        Sim { h with req := w2, engine := .waiting } p ∧ Calm b!"engine" w2 ∧ ((w2.chans 0).receivers 0 = true ∧ w2.topic = w1.topic ∧
          (w2.chans 0).senders = (w1.chans 0).senders) := by
      cases he : h.engine with
      | has m => rw [e2, he] at s10; cases s10
      | waiting =>
        refine ⟨[], w1, ?_, rfl, ?_, k2, ?_, rfl, rfl⟩
        · rw [← he]; exact .nil
        · rw [← he]; exact hs1
        · rw [k5]; exact i3.2 he
      | away =>
        have hf : (w1.chans 0).receivers 0 = false := by
          rw [k5]
          by_contra hf
          rw [Bool.not_eq_false] at hf
          rw [i3.1 hf] at he
          cases he
        have g6 : Wired.Step w1 (.chan 0 (.recvCall 0)) _ := .recvCall 0 0 _ (by simp [k2.made]) (.recvCall 0 k2.up hf k2.flag)
        obtain ⟨q1, q2, q3⟩ := lone_recvCall k1 g6
        refine ⟨_, _, .one (.wait (s := { h with req := w1, engine := .away }) _ hc' rfl g6), rfl, ?_, calm_step k2 k1 rfl g6, recv_call g6, rfl, by simp [upd]⟩
        exact ⟨s1, s2, s3, s4, s5, q1, s7, fun n m => (hs1.requests n m).trans (q3 n m).symm, s9, by rw [e2], s11, s12⟩
    obtain ⟨g10, g11, g12⟩ := g10
    have g13 : Wired.Step w2 (.both (.own n (.tried b!"engine" 0 .success)) 0 (.handed n (n, m) 0)) _ :=
      .handed n b!"engine" 0 (n, m) 0 _ _ (.own n x _ _ (by rw [g11]; exact g3) (.sent _ 0 g4))
        (.handed n (n, m) 0 g9.up (by rw [g12]; exact g5) g8.req.cap g10)
    obtain ⟨r1, r2, r3, r4, -⟩ := lone_tried g8.req (.inr (.inr ⟨_, rfl⟩)) g13
    refine ⟨_, _, ((hub_requests hc' g1 g2).append g6).append (.one (.take (s := { h with req := w2, engine := .waiting }) n _ _ _ hc' rfl g13)), ?_, ?_⟩
    · rw [seenOf_append, seenOf_append, seenOf_requests, g7]; rfl
    · exact ⟨s1, s2, s3, s4, s5, r1, s7, fun n' m' => by rw [out_iff hq e1, r4, g8.requests], s9, rfl, s11, s12⟩
  | drop n m b a hc e1 =>
    have hc' : h.crashed = false := by rw [← s5, hc]
    obtain ⟨es, w1, x, g1, g2, g3, g4, g5⟩ := offered s6 i1 ((s8 n m).1 (by simp [e1]))
    obtain ⟨k1, k2, k3, k4, k5⟩ := inner_exec s6 i1 g1 g2
    have hs1 := sim_requests hs0 i1 g1 g2
    have g13 : Wired.Step w1 (.both (.own n (.tried b!"engine" 0 .expired)) 0 (.expired n (n, m))) _ :=
      .expired n b!"engine" 0 (n, m) _ _ (.own n x _ _ g3 (.sendExpired _ 0 g4)) (.expired n (n, m) k2.up g5)
    obtain ⟨r1, r2, r3, r4, -⟩ := lone_tried hs1.req (.inl rfl) g13
    refine ⟨_, _, (hub_requests hc' g1 g2).append (.one (.drop (s := { h with req := w1 }) n _ _ _ hc' g13)), ?_, ?_⟩
    · rw [seenOf_append, seenOf_requests]; rfl
    · exact ⟨s1, s2, s3, s4, s5, r1, s7, fun n' m' => by rw [out_iff hq e1, r4, hs1.requests], s9, s10, s11, s12⟩
  | ignore n m hc h1 h2 =>
    rw [h1] at s10
    have he : h.engine = .has (n, m) := by revert s10; cases h.engine <;> simp [eq_comm]
    refine ⟨_, _, .one (.ignore n m (by rw [← s5, hc]) he h2), rfl, ?_⟩
    exact ⟨s1, s2, s3, s4, s5, s6, s7, s8, s9, rfl, s11, s12⟩
  | execute n m id objs env db r hc h1 h2 h3 =>
    have hn : h.resp.topic.dists n = none := by
      by_contra hn
      have g := i6 _ hn
      have g1 := inv.one n
      have g2 := inv.reads n
      rw [h1] at g1
      simp only [Option.toList_some, cnt_cons, cnt_nil, if_true] at g1
      omega
    rw [h1] at s10
    have he : h.engine = .has (n, m) := by revert s10; cases h.engine <;> simp [eq_comm]
    have g1 : Wired.Step h.resp (.publish n (Pipe.responseMap id r)) _ := .publish _ _ _ (.publish _ hn)
    obtain ⟨g2, g3, g4⟩ := lone_publish s7 g1
    refine ⟨_, _, .one (.execute n m id objs env db r _ (by rw [← s5, hc]) he h2 (by rw [← s4, h3]) g1), rfl, ?_⟩
    refine ⟨s1, s2, s3, rfl, s5, s6, g2, s8, ?_, rfl, s11, s12⟩
    intro n' m'
    rw [g4]
    simp only [List.mem_cons, Prod.mk.injEq, s9]
    exact or_comm
  | crash n m id objs env hc h1 h2 h3 =>
    rw [h1] at s10
    have he : h.engine = .has (n, m) := by revert s10; cases h.engine <;> simp [eq_comm]
    refine ⟨_, _, .one (.crash n m id objs env (by rw [← s5, hc]) he h2 (by rw [← s4, h3])), rfl, ?_⟩
    exact ⟨s1, s2, s3, s4, rfl, s6, s7, s8, s9, by rw [h1]; exact s10, s11, s12⟩
  | queue n m b a hc e1 e2 =>
    have hc' : h.crashed = false := by rw [← s5, hc]
    obtain ⟨es, w1, x, g1, g2, g3, g4, g5⟩ := offered s7 i2 ((s9 n m).1 (by simp [e1]))
    obtain ⟨k1, k2, k3, k4, k5⟩ := inner_exec s7 i2 g1 g2
    have hs1 := sim_responses hs0 i2 g1 g2
    have g13 : Wired.Step w1 (.both (.own n (.tried b!"server" 0 .success)) 0 (.sent n (n, m))) _ :=
      .sent n b!"server" 0 (n, m) _ _ (.own n x _ _ g3 (.sent _ 0 g4)) (.sent n (n, m) k2.up g5 (by rw [k1.cap, k3, ← s11]; exact e2))
    obtain ⟨r1, r2, r3, r4, -, r5⟩ := lone_tried hs1.resp (.inr (.inl rfl)) g13
    refine ⟨_, _, (hub_responses hc' g1 g2).append (.one (.queue (s := { h with resp := w1 }) n _ _ _ hc' g13)), ?_, ?_⟩
    · rw [seenOf_append, seenOf_responses]; rfl
    · exact ⟨s1, s2, s3, s4, s5, s6, r1, s8, fun n' m' => by rw [out_iff hr e1, r4, hs1.responses], s10, by rw [(r5 rfl).1, k3, ← s11], s12⟩
  | unqueue n m b a hc e1 =>
    have hc' : h.crashed = false := by rw [← s5, hc]
    obtain ⟨es, w1, x, g1, g2, g3, g4, g5⟩ := offered s7 i2 ((s9 n m).1 (by simp [e1]))
    obtain ⟨k1, k2, k3, k4, k5⟩ := inner_exec s7 i2 g1 g2
    have hs1 := sim_responses hs0 i2 g1 g2
    have g13 : Wired.Step w1 (.both (.own n (.tried b!"server" 0 .expired)) 0 (.expired n (n, m))) _ :=
      .expired n b!"server" 0 (n, m) _ _ (.own n x _ _ g3 (.sendExpired _ 0 g4)) (.expired n (n, m) k2.up g5)
    obtain ⟨r1, r2, r3, r4, r5, -⟩ := lone_tried hs1.resp (.inl rfl) g13
    refine ⟨_, _, (hub_responses hc' g1 g2).append (.one (.unqueue (s := { h with resp := w1 }) n _ _ _ hc' g13)), ?_, ?_⟩
    · rw [seenOf_append, seenOf_responses]; rfl
    · exact ⟨s1, s2, s3, s4, s5, s6, r1, s8, fun n' m' => by rw [out_iff hr e1, r4, hs1.responses], s10, by rw [r5 (by simp), k3, ← s11], s12⟩
  | answer n m rest id r c hc h1 h2 h3 h4 =>
    have hc' : h.crashed = false := by rw [← s5, hc]
    obtain ⟨es2, w2, g6, g7, g8, g9, g10⟩ : ∃ es2 w2, Exec Hub.Step h es2 { h with resp := w2, worker := .waiting } ∧ seenOf es2 = [] ∧
        Sim { h with resp := w2, worker := .waiting } p ∧ Calm b!"server" w2 ∧ (w2.chans 0).receivers 0 = true := by
      cases he : h.worker with
      | has m =>
        rw [he] at s12
        obtain ⟨_, _, _, -, -, g⟩ := s12
        rw [h1] at g
        cases g
      | writing n c b => rw [he, h1] at s12; cases s12
      | waiting =>
        refine ⟨[], h.resp, ?_, rfl, ?_, i2, i4.2 he⟩
        · rw [← he]; exact .nil
        · rw [← he]; exact hs0
      | away =>
        have hf : (h.resp.chans 0).receivers 0 = false := by
          by_contra hf
          rw [Bool.not_eq_false] at hf
          rw [i4.1 hf] at he
          cases he
        have g6 : Wired.Step h.resp (.chan 0 (.recvCall 0)) _ := .recvCall 0 0 _ (by simp [i2.made]) (.recvCall 0 i2.up hf i2.flag)
        obtain ⟨q1, q2, q3⟩ := lone_recvCall s7 g6
        refine ⟨_, _, .one (.await _ hc' he g6), rfl, ?_, calm_step i2 s7 rfl g6, recv_call g6⟩
        exact ⟨s1, s2, s3, s4, s5, s6, q1, s8, fun n m => (s9 n m).trans (q3 n m).symm, s10, by rw [q2]; exact s11, h1⟩
    have g11 : (w2.chans 0).buf = (n, m) :: rest := by rw [← h2]; exact g8.buffer.symm
    have g12 : Wired.Step w2 (.chan 0 (.received 0 (n, m))) _ := .received 0 0 (n, m) _ (by simp [g9.made]) (.received 0 (n, m) rest g9.up g10 g11)
    obtain ⟨q1, q2, q3⟩ := lone_received g8.resp g12
    refine ⟨_, _, g6.append (.one (.receive (s := { h with resp := w2, worker := .waiting }) n m _ hc' rfl g12)), ?_, ?_⟩
    · rw [seenOf_append, g7]; rfl
    · exact ⟨s1, s2, s3, s4, s5, s6, q1, s8, fun n' m' => (g8.responses n' m').trans (q3 n' m').symm, s10, by simp [upd], id, r, c, h3, h4, rfl⟩
  | nobody n m rest hc h1 h2 h3 =>
    obtain ⟨c, id, o, env, r, k1, k2, k3, rfl⟩ := inv.resp n m (by simp [h2])
    have := h3 id r (parse_responseMap id r)
    rw [(inv.ids id c).2 k3] at this
    cases this
  | write n c b hc h1 =>
    have hc' : h.crashed = false := by rw [← s5, hc]
    cases he : h.worker with
    | has m =>
      rw [he] at s12
      obtain ⟨id, r, c', g1, g2, g3⟩ := s12
      rw [h1] at g3
      cases g3
      refine ⟨_, _, .cons (.look _ _ id r _ hc' he g1 (by rw [← s2]; exact g2)) (.one (.write (s := { h with worker := .writing _ _ _ }) _ _ _ hc' rfl)), rfl, ?_⟩
      exact ⟨s1, s2, s3, s4, s5, s6, s7, s8, s9, s10, s11, rfl⟩
    | writing n' c' b' =>
      rw [he, h1] at s12
      cases s12
      exact ⟨_, _, .one (.write n c b hc' he), rfl, s1, s2, s3, s4, s5, s6, s7, s8, s9, s10, s11, rfl⟩
    | away => rw [he, h1] at s12; cases s12
    | waiting => rw [he, h1] at s12; cases s12
  | refuse n c b hc h1 =>
    have hc' : h.crashed = false := by rw [← s5, hc]
    cases he : h.worker with
    | has m =>
      rw [he] at s12
      obtain ⟨id, r, c', g1, g2, g3⟩ := s12
      rw [h1] at g3
      cases g3
      refine ⟨_, _, .cons (.look _ _ id r _ hc' he g1 (by rw [← s2]; exact g2)) (.one (.refuse (s := { h with worker := .writing _ _ _ }) _ _ _ hc' rfl)), rfl, ?_⟩
      exact ⟨s1, s2, s3, s4, s5, s6, s7, s8, s9, s10, s11, rfl⟩
    | writing n' c' b' =>
      rw [he, h1] at s12
      cases s12
      exact ⟨_, _, .one (.refuse n c b hc' he), rfl, s1, s2, s3, s4, s5, s6, s7, s8, s9, s10, s11, rfl⟩
    | away => rw [he, h1] at s12; cases s12
    | waiting => rw [he, h1] at s12; cases s12

/-- C80: the bus is transparent. The server with its topics, goroutines and channels cannot be told apart, at any moment and with all that can still
happen, from the server that keeps each request in a bag from which the engine takes it or from which it disappears, and each reply in another one in
front of a queue of 100; and both store the same. -/
theorem C80_alike : ∃ R, R (Hub.new st) (Pipe.new st) ∧ Alike Hub.Step Pipe.Step seenOf R ∧ ∀ h p, R h p → h.db = p.db := by
  refine ⟨fun h p => ∃ tr, Exec Hub.Step (Hub.new st) tr h ∧ Exec Pipe.Step (Pipe.new st) (seenOf tr) p ∧ Sim h p, ⟨[], .nil, .nil, sim_new⟩, ⟨?_, ?_⟩, ?_⟩
  · rintro h p ⟨tr, h1, h2, h3⟩ l h' hst
    obtain ⟨p', g1, g2⟩ := sim_step h2 h3 hst
    exact ⟨p', g1, tr ++ [l], h1.snoc hst, by rw [seenOf_append]; exact h2.append g1, g2⟩
  · rintro h p ⟨tr, h1, h2, h3⟩ e p' hst
    obtain ⟨es, h', g1, g2, g3⟩ := sim_back h1 h2 h3 hst
    exact ⟨es, h', g1, g2, tr ++ es, h1.append g1, by rw [seenOf_append, g2]; exact h2.append (.one hst), g3⟩
  · rintro h p ⟨-, -, -, h3⟩
    exact h3.db.symm

/-- C80: in particular both show the same sequences of events, and store the same after them. -/
theorem C80_transparent (tr : List Pipe.Ev) (db : State) :
    (∃ tr' h, Exec Hub.Step (Hub.new st) tr' h ∧ seenOf tr' = tr ∧ h.db = db) ↔ ∃ p, Exec Pipe.Step (Pipe.new st) tr p ∧ p.db = db := by
  obtain ⟨R, r0, ⟨r1, r2⟩, r3⟩ := C80_alike
  constructor
  · rintro ⟨tr', h, h1, rfl, rfl⟩
    suffices ∃ p, Exec Pipe.Step (Pipe.new st) (seenOf tr') p ∧ R h p by
      obtain ⟨p, g1, g2⟩ := this
      exact ⟨p, g1, (r3 _ _ g2).symm⟩
    refine h1.inv (P := fun tr' h => ∃ p, Exec Pipe.Step (Pipe.new st) (seenOf tr') p ∧ R h p) ⟨_, .nil, r0⟩ ?_
    rintro tr s l s' - ⟨p, g1, g2⟩ hst
    obtain ⟨p', g3, g4⟩ := r1 _ _ g2 _ _ hst
    exact ⟨p', by rw [seenOf_append]; exact g1.append g3, g4⟩
  · rintro ⟨p, h1, rfl⟩
    suffices ∃ tr' h, Exec Hub.Step (Hub.new st) tr' h ∧ seenOf tr' = tr ∧ R h p by
      obtain ⟨tr', h, g1, g2, g3⟩ := this
      exact ⟨tr', h, g1, g2, r3 _ _ g3⟩
    refine h1.inv (P := fun tr p => ∃ tr' h, Exec Hub.Step (Hub.new st) tr' h ∧ seenOf tr' = tr ∧ R h p) ⟨[], _, .nil, rfl, r0⟩ ?_
    rintro tr s l s' - ⟨tr', h, g1, g2, g3⟩ hst
    obtain ⟨es, h', g4, g5, g6⟩ := r2 _ _ g3 _ _ hst
    exact ⟨tr' ++ es, h', g1.append g4, by rw [seenOf_append, g2, g5], g6⟩

theorem waits {tr : List Pipe.Ev} {p : Pipe.Sys} (h : Exec Pipe.Step (Pipe.new st) tr p) :
    (∀ c n o, .read c n o ∈ tr → .taken n ∈ tr ∨ .dropped n ∈ tr ∨ ∃ m, (n, m) ∈ p.requests) ∧
      ∀ n env r, .executed n env r ∈ tr → .queued n ∈ tr ∨ .unqueued n ∈ tr ∨ ∃ m, (n, m) ∈ p.responses := by
  refine h.inv (P := fun tr p => (∀ c n o, .read c n o ∈ tr → .taken n ∈ tr ∨ .dropped n ∈ tr ∨ ∃ m, (n, m) ∈ p.requests) ∧
      ∀ n env r, .executed n env r ∈ tr → .queued n ∈ tr ∨ .unqueued n ∈ tr ∨ ∃ m, (n, m) ∈ p.responses) (by simp) ?_
  rintro tr s l s' - ⟨h1, h2⟩ hst
  cases hst <;> refine ⟨?_, ?_⟩ <;> simp only [List.mem_append, List.mem_singleton, reduceCtorEq, or_false, Pipe.Ev.read.injEq, Pipe.Ev.executed.injEq,
    Pipe.Ev.taken.injEq, Pipe.Ev.dropped.injEq, Pipe.Ev.queued.injEq, Pipe.Ev.unqueued.injEq, List.mem_cons, Prod.mk.injEq] <;> grind

/-- C80: nobody waits for the bus. A connection can always publish what it read, and the engine its reply, whatever the other goroutines do. -/
theorem C80_no_wait {tr : List Hub.Ev} {h : Hub.Sys} (hx : Exec Hub.Step (Hub.new st) tr h) (hc : h.crashed = false) :
    (∀ c id o, h.conns c = some id → ∃ n h', Hub.Step h (.seen (.read c n o)) h') ∧
      ∀ n m id objs env db r, h.engine = .has (n, m) → Pipe.parseRequest m = some (id, objs) → handle env h.db objs = .ok (db, r) →
        ∃ h', Hub.Step h (.seen (.executed n env r)) h' := by
  obtain ⟨p, hp, hs⟩ := hub_sim hx
  have hi := hubInv hx
  refine ⟨?_, ?_⟩
  · intro c id o h1
    have hn : h.req.topic.dists h.next = none := by
      by_contra hn
      exact Nat.lt_irrefl _ (hi.unread _ hn)
    exact ⟨_, _, .read c id o _ hc h1 (.publish _ _ _ (.publish _ hn))⟩
  · intro n m id objs env db r h1 h2 h3
    have hn : h.resp.topic.dists n = none := by
      by_contra hn
      have g := hi.undone _ hn
      have g1 := (pipeInv hp).one n
      have g2 := (pipeInv hp).reads n
      rw [hs.engine, h1] at g1
      simp only [Option.toList_some, cnt_cons, cnt_nil, if_true] at g1
      omega
    exact ⟨_, .execute n m id objs env db r _ hc h1 h2 h3 (.publish _ _ _ (.publish _ hn))⟩

/-- C80: nothing gets stuck in the bus. A request that was read and neither reached the engine nor expired can reach the engine as soon as it is free; a reply
that neither was queued nor expired can be queued as soon as there is room. Nothing else that can be seen has to happen before. -/
theorem C80_not_stuck {tr : List Hub.Ev} {h : Hub.Sys} (hx : Exec Hub.Step (Hub.new st) tr h) (hc : h.crashed = false) {n : Nat} :
    ((∃ c o, .read c n o ∈ seenOf tr) → .taken n ∉ seenOf tr → .dropped n ∉ seenOf tr → (∀ m, h.engine ≠ .has m) →
      ∃ es h', Exec Hub.Step h es h' ∧ seenOf es = [.taken n]) ∧
    ((∃ env r, .executed n env r ∈ seenOf tr) → .queued n ∉ seenOf tr → .unqueued n ∉ seenOf tr → (h.resp.chans 0).buf.length < 100 →
      ∃ es h', Exec Hub.Step h es h' ∧ seenOf es = [.queued n]) := by
  obtain ⟨p, hp, hs⟩ := hub_sim hx
  obtain ⟨w1, w2⟩ := waits hp
  refine ⟨?_, ?_⟩
  · rintro ⟨c, o, h1⟩ h2 h3 h4
    obtain h5 | h5 | ⟨m, h5⟩ := w1 c n o h1
    · exact absurd h5 h2
    · exact absurd h5 h3
    · obtain ⟨b, a, e⟩ := List.append_of_mem h5
      have he : p.engine = none := by
        rw [hs.engine]
        cases he : h.engine with
        | has m => exact absurd he (h4 m)
        | _ => rfl
      obtain ⟨es, h', g1, g2, -⟩ := sim_back hx hp hs (.take n m b a (hs.crashed.trans hc) e he)
      exact ⟨es, h', g1, g2⟩
  · rintro ⟨env, r, h1⟩ h2 h3 h4
    obtain h5 | h5 | ⟨m, h5⟩ := w2 n env r h1
    · exact absurd h5 h2
    · exact absurd h5 h3
    · obtain ⟨b, a, e⟩ := List.append_of_mem h5
      obtain ⟨es, h', g1, g2, -⟩ := sim_back hx hp hs (.queue n m b a (hs.crashed.trans hc) e (by rw [hs.buffer]; exact h4))
      exact ⟨es, h', g1, g2⟩

/-- One request, all the way through the bus; its hypotheses are those of `C80_no_wait` and `C80_not_stuck` on the way. -/
example : ∃ tr h, Exec Hub.Step (Hub.new State.empty) tr h ∧
    seenOf tr = [.connected 7, .read 7 0 (.array (req [b!"get", b!"k"])), .taken 0, .executed 0 env0 .nullBulk] ∧ h.crashed = false ∧
    (h.resp.chans 0).buf.length < 100 := by
  have hp : Exec Pipe.Step (Pipe.new State.empty) [.connected 7, .read 7 0 (.array (req [b!"get", b!"k"])), .taken 0, .executed 0 env0 .nullBulk] _ :=
    .cons (.connect 7 b!"id" rfl rfl (fun _ => by simp [Pipe.new])) (.cons (.read 7 b!"id" _ rfl rfl)
      (.cons (.take 0 _ [] _ rfl rfl rfl) (.one (.execute 0 _ b!"id" (req [b!"get", b!"k"]) env0 State.empty .nullBulk rfl rfl rfl rfl))))
  obtain ⟨tr, h, h1, h2, -⟩ := (C80_transparent _ _).2 ⟨_, hp, rfl⟩
  obtain ⟨p, h3, h4⟩ := hub_sim h1
  have key : ∀ p, Exec Pipe.Step (Pipe.new State.empty) (seenOf tr) p → p.crashed = false ∧ p.buffer = [] := by
    intro p hp
    have : ∀ tr p, Exec Pipe.Step (Pipe.new State.empty) tr p → (∀ n env, .crash n env ∉ tr) → (∀ n, .queued n ∉ tr) → p.crashed = false ∧ p.buffer = [] := by
      intro tr p hp
      refine hp.inv (P := fun tr p => (∀ n env, .crash n env ∉ tr) → (∀ n, .queued n ∉ tr) → p.crashed = false ∧ p.buffer = [])
        (fun _ _ => ⟨rfl, rfl⟩) ?_
      rintro tr s l s' - ih hst n1 n2
      simp only [List.mem_append, not_or] at n1 n2
      have := ih (fun n env => (n1 n env).1) (fun n => (n2 n).1)
      cases hst <;> first
        | exact absurd (List.mem_singleton.2 rfl) (n1 _ _).2
        | exact absurd (List.mem_singleton.2 rfl) (n2 _).2
        | exact this
        | (rename_i g; rw [this.2] at g; cases g)
        | simp_all
    exact this _ p hp (by simp [h2]) (by simp [h2])
  exact ⟨tr, h, h1, h2, h4.crashed ▸ (key p h3).1, by rw [← h4.buffer, (key p h3).2]; decide⟩

end Verif.Props
