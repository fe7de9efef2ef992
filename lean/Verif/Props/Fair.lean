import Verif.Lemmas.Fair
import Verif.Lemmas.Proc
import Verif.Props.Isolated
import Mathlib.Data.Countable.Basic

/-! # C88 – in the end every request is dealt with -/

namespace Verif.Props

open Spec
open Fut (upd)

variable {nm : Bytes} {size : Nat} {w w' : Wired.Sys Msg}

/-! ### within a topic -/

/-- How much is left to do in one run of `distributeEvent` until the subscriber has taken or missed the event; `idle` tells whether its goroutine
has yet to call `Send`. -/
def leftOf (nm : Bytes) (x : Topic.Dist) (idle : Bool) : Nat :=
  match x.snd nm with
  | .none => if x.pc = .called then 4 else 3
  | .sending _ => if idle then 2 else 1
  | _ => 0

/-- How much is left to do until the subscriber has taken or missed event `n`. -/
def leftIn (nm : Bytes) (w : Wired.Sys Msg) (n : Nat) : Nat :=
  match w.topic.dists n with
  | none => 0
  | some x => leftOf nm x ((w.chans 0).senders n).isNone

theorem left_pos (hl : Lone nm size w) (n : Nat) : 0 < leftIn nm w n ↔ Undecided nm w n := by
  unfold leftIn Undecided leftOf
  cases hd : w.topic.dists n with
  | none => simp
  | some x =>
    have := hl.sending n x nm
    cases hx : x.snd nm with
    | sending id =>
      obtain ⟨-, rfl⟩ := this id hd hx
      simp only [hx]
      split <;> simp [hx]
    | none =>
      simp only [hx]
      split <;> simp [hx]
    | _ => simp [hx]

theorem leftOf_step {e : Topic.DEv} {x x' : Topic.Dist} {subs : GoMap Nat} {closed : Nat → Bool} (b : Bool) (hw : ∀ y ∈ x.window, y = (nm, 0))
    (hx : ServingRun nm x) (hn : ∀ n id, x.snd n = .sending id → n = nm ∧ id = 0) (hs : Topic.DStep subs closed x e x') :
    ((∀ n id r, e ≠ .tried n id r) → leftOf nm x' b ≤ leftOf nm x b ∧ (0 < leftOf nm x' b ↔ 0 < leftOf nm x b) ∧
      (itself e = true → 3 ≤ leftOf nm x b → leftOf nm x' b < leftOf nm x b)) ∧
    ((∃ n id r, e = .tried n id r) → leftOf nm x' b = 0 ∧ leftOf nm x b = if b then 2 else 1) := by
  obtain ⟨h1, h2, h3, h4, h5, h6, h7, h8⟩ := hx
  cases hs <;> refine ⟨?_, ?_⟩ <;> simp only [leftOf, itself, Topic.put] <;> grind

theorem leftOf_deleted (name : Bytes) (x : Topic.Dist) (b : Bool) : leftOf nm (Topic.Dist.deleted name x) b = leftOf nm x b := rfl

set_option maxHeartbeats 1000000 in
theorem left_step {e : Wired.Ev Msg} (n : Nat) (hl : Lone nm size w) (hc : Calm nm w) (ho : ours e = true) (hs : Wired.Step w e w')
    (h1 : ∀ m, e ≠ .publish n m) (h2 : ∀ x y, e ≠ .both (.own n x) 0 y) :
    leftIn nm w' n ≤ leftIn nm w n ∧ (0 < leftIn nm w' n ↔ 0 < leftIn nm w n) ∧
      (∀ x, e = .topic (.own n x) → itself x = true → 3 ≤ leftIn nm w n → leftIn nm w' n < leftIn nm w n) ∧
      (∀ m, e = .chan 0 (.sendCall n m) → leftIn nm w' n < leftIn nm w n) := by
  have other : ∀ d x t, Topic.Step w.topic (.own d x) t → d ≠ n → t.dists n = w.topic.dists n := by
    intro d x t ht hd
    cases ht
    exact upd_other _ _ (Ne.symm hd)
  have senders : ∀ (c : DataChan.Sys (Wired.Mail Msg)) (d : Nat), d ≠ n → (∃ m, DataChan.Step (w.chans 0) (.sent d m) c) ∨ (∃ m j, DataChan.Step (w.chans 0) (.handed d m j) c) ∨
      (∃ m, DataChan.Step (w.chans 0) (.expired d m) c) → c.senders n = (w.chans 0).senders n := by
    rintro c d hd (⟨m, h⟩ | ⟨m, j, h⟩ | ⟨m, h⟩) <;> cases h <;> exact upd_other _ _ (Ne.symm hd)
  cases hs <;> simp [ours] at ho
  case publish d e t ht =>
    have hd : d ≠ n := fun h => h1 e (by rw [h])
    have : leftIn nm { w with topic := t, event := upd w.event d (some e) } n = leftIn nm w n := by
      cases ht
      simp [leftIn, upd_other _ _ (Ne.symm hd)]
    simp [this]
  case distribute d x t hx ht =>
    by_cases hd : d = n
    · subst hd
      cases ht
      case own y y' hy hst =>
        have key := (leftOf_step ((w.chans 0).senders d).isNone (hl.window _ _ hy) (hc.run _ _ hy) (fun n id h => hl.sending _ _ _ _ hy h) hst).1 hx
        simp only [leftIn, upd_same, hy]
        refine ⟨key.1, key.2.1, ?_, by simp⟩
        rintro x ⟨⟩
        exact key.2.2
    · have : leftIn nm { w with topic := t } n = leftIn nm w n := by simp [leftIn, other _ _ _ ht hd]
      rw [this]
      refine ⟨Nat.le_refl _, Iff.rfl, ?_, by simp⟩
      rintro x ⟨⟩
      exact absurd rfl hd
  case delete d name t ht =>
    cases ht
    case delete z rest hz hp =>
      have := (hc.run _ _ hz).cleaning _ hp
      simp at this
  case call d name id e x c hd hx he hcs =>
    subst ho
    cases hcs
    case sendCall g1 g2 =>
    obtain ⟨rfl, -⟩ := hl.sending _ _ _ _ hd hx
    by_cases hn : d = n
    · subst hn
      simp [leftIn, hd, leftOf, hx, upd, g2]
    · have : leftIn name { w with chans := upd w.chans 0 { w.chans 0 with senders := upd (w.chans 0).senders d (some (d, e)) } } n = leftIn name w n := by
        simp [leftIn, upd_other _ _ (Ne.symm hn), upd_same]
      rw [this]
      refine ⟨Nat.le_refl _, Iff.rfl, by simp, ?_⟩
      rintro m ⟨⟩
      exact absurd rfl hn
  case recvCall id j c hj hcs =>
    subst ho
    cases hcs
    simp [leftIn, upd_same]
  case received id j m c hj hcs =>
    subst ho
    cases hcs
    simp [leftIn, upd_same]
  case sent d name id m t c ht hcs =>
    subst ho
    have hd : d ≠ n := fun h => h2 (.tried name 0 .success) (.sent d m) (by rw [h])
    simp [leftIn, upd_same, other _ _ _ ht hd, senders c d hd (.inl ⟨_, hcs⟩)]
  case handed d name id m j t c ht hcs =>
    subst ho
    have hd : d ≠ n := fun h => h2 (.tried name 0 .success) (.handed d m j) (by rw [h])
    simp [leftIn, upd_same, other _ _ _ ht hd, senders c d hd (.inr (.inl ⟨_, _, hcs⟩))]
  case expired d name id m t c ht hcs =>
    subst ho
    have hd : d ≠ n := fun h => h2 (.tried name 0 .expired) (.expired d m) (by rw [h])
    simp [leftIn, upd_same, other _ _ _ ht hd, senders c d hd (.inr (.inr ⟨_, hcs⟩))]

theorem left_both {n : Nat} {x : Topic.DEv} {y : DataChan.Ev (Wired.Mail Msg)} (hl : Lone nm size w) (hc : Calm nm w)
    (hs : Wired.Step w (.both (.own n x) 0 y) w') : leftIn nm w' n = 0 ∧ leftIn nm w n = 1 := by
  obtain ⟨name, r, m, t, c, rfl, ht, hm, hw⟩ : ∃ name r m t c, x = .tried name 0 r ∧ Topic.Step w.topic (.own n x) t ∧ (w.chans 0).senders n = some m ∧
      w' = { w with topic := t, chans := upd w.chans 0 c } := by
    cases hs <;> rename_i hcs <;> cases hcs <;> exact ⟨_, _, _, _, _, rfl, by assumption, by assumption, rfl⟩
  subst hw
  cases ht
  case own z z' hz hst =>
    have key b := (leftOf_step b (hl.window _ _ hz) (hc.run _ _ hz) (fun n id h => hl.sending _ _ _ _ hz h) hst).2 ⟨_, _, _, rfl⟩
    refine ⟨?_, ?_⟩
    · simp only [leftIn, upd_same]
      exact (key _).1
    · simp only [leftIn, hz, hm]
      exact (key _).2

theorem left_publish {n : Nat} {m : Msg} (hs : Wired.Step w (.publish n m) w') : w.topic.dists n = none := by
  cases hs with
  | publish _ _ t ht => cases ht; assumption

theorem can_spread {n : Nat} (hc : Calm nm w) (h : 3 ≤ leftIn nm w n) : ∃ x w', itself x = true ∧ Wired.Step w (.topic (.own n x)) w' := by
  unfold leftIn leftOf at h
  cases hd : w.topic.dists n with
  | none => simp [hd] at h
  | some x =>
    simp only [hd] at h
    have hs := hc.run n x hd
    have hx : x.snd nm = .none := by
      cases hx : x.snd nm <;> simp only [hx] at h <;> first | rfl | (split at h <;> omega) | omega
    by_cases h1 : x.pc = .called
    · exact ⟨_, _, rfl, .distribute n .started _ (by simp) (.own n x _ _ hd (.start h1))⟩
    · by_cases h2 : x.pc = .ranging
      · exact ⟨_, _, rfl, .distribute n (.visited nm 0) _ (by simp) (.own n x _ _ hd (.visit nm 0 h2 (hs.ranging h2).1 fun hv => (hs.visited nm).1 hv hx))⟩
      · exact absurd hx (hs.past h1 h2)

theorem in_send {n : Nat} (hl : Lone nm size w) (h : leftIn nm w n = 1 ∨ leftIn nm w n = 2) : ∃ x, w.topic.dists n = some x ∧ x.snd nm = .sending 0 ∧
    (leftIn nm w n = 2 ↔ (w.chans 0).senders n = none) := by
  unfold leftIn leftOf at h ⊢
  cases hd : w.topic.dists n with
  | none => simp [hd] at h
  | some x =>
    simp only [hd] at h ⊢
    cases hx : x.snd nm with
    | none => simp only [hx] at h; split at h <;> simp at h
    | sending id =>
      obtain ⟨-, rfl⟩ := hl.sending _ _ _ _ hd hx
      refine ⟨x, rfl, hx, ?_⟩
      simp only
      split <;> simp_all
    | _ => simp [hx] at h

theorem can_call {n : Nat} (hl : Lone nm size w) (hc : Calm nm w) (h : leftIn nm w n = 2) : ∃ m w', Wired.Step w (.chan 0 (.sendCall n m)) w' := by
  obtain ⟨x, h1, h2, h3⟩ := in_send hl (.inr h)
  cases he : w.event n with
  | none => exact absurd he (hc.event n x h1)
  | some e => exact ⟨_, _, .call n nm 0 e x _ h1 h2 he (.sendCall n (n, e) hc.up (h3.1 h))⟩

theorem can_expire {n : Nat} (hl : Lone nm size w) (hc : Calm nm w) (h : leftIn nm w n = 1) :
    ∃ name m w', Wired.Step w (.both (.own n (.tried name 0 .expired)) 0 (.expired n m)) w' := by
  obtain ⟨x, h1, h2, h3⟩ := in_send hl (.inl h)
  cases he : (w.chans 0).senders n with
  | none => simp [h3.2 he] at h
  | some m => exact ⟨_, _, _, .expired n nm 0 m _ _ (.own n x _ _ h1 (.sendExpired nm 0 h2)) (.expired n m hc.up he)⟩

/-! ### within the server -/

variable {ω : Nat → Nat} {d : Bytes} {st : State} {s s' : Full.Sys}

/-- What is used of a state that is reached. -/
structure At (st : State) (tr : List Full.Ev) (s : Full.Sys) : Prop where
  pipe : ∃ p, Exec Pipe.Step (Pipe.new st) (pipeOf (seenIn tr)) p ∧ Sim s.whole.hub p
  inv : ∃ tr, HubInv tr s.whole.hub
  hub : ∃ tr, Exec Hub.Step (Hub.new st) tr s.whole.hub
  begun : Begun s.whole
  line : ∀ c, LineInv s c
  conn : ∀ n c b, s.whole.hub.worker = .writing n c b → s.whole.hub.conns c ≠ none
  plain : ∀ e ∈ seenIn tr, ∀ c n o, e ≠ .pipe (.read c n o)

/-- What of an event happens in the bus, the engine or the worker. -/
def hubEv : Full.Ev → Option Hub.Ev
  | .whole (.bus e) => some e
  | .whole (.net (.pipe e)) | .both (.net (.pipe e)) _ _ => some (.seen e)
  | .both (.net (.read c n o)) _ _ => some (.seen (.read c n o))
  | _ => none

theorem hub_of {e : Full.Ev} (hs : Full.Step ω s e s') :
    (hubEv e = none ∧ s'.whole.hub = s.whole.hub) ∨ ∃ he, hubEv e = some he ∧ Hub.Step s.whole.hub he s'.whole.hub ∧ pipeOf (seenIn [e]) = seenOf [he] := by
  have whole : ∀ e w, Full.apart e = true → Whole.Step ω s.whole e w → (hubEv (.whole e) = none ∧ w.hub = s.whole.hub) ∨
      ∃ he, hubEv (.whole e) = some he ∧ Hub.Step s.whole.hub he w.hub ∧ pipeOf (seenIn [.whole e]) = seenOf [he] := by
    intro e w ha hw
    cases hw with
    | feed | kill | read => simp [Full.apart] at ha
    | bus e h _ g0 g => exact .inr ⟨e, rfl, g, by cases e <;> simp [Whole.hidden] at g0 <;> rfl⟩
    | pass e h _ _ g => exact .inr ⟨.seen e, rfl, g, rfl⟩
    | receive | record | flush => exact .inl ⟨rfl, rfl⟩
    | execute n env r h _ _ g => exact .inr ⟨_, rfl, g, rfl⟩
    | crash n env h _ _ g => exact .inr ⟨_, rfl, g, rfl⟩
  have feed : ∀ c e w, Whole.Step ω s.whole (.net (.feed c e)) w → w.hub = s.whole.hub := by
    intro c e w hw
    cases hw <;> rfl
  have pipe : ∀ e w, Whole.Step ω s.whole (.net (.pipe e)) w → Hub.Step s.whole.hub (.seen e) w.hub := by
    intro e w hw
    cases hw <;> assumption
  cases hs with
  | whole e w h1 h2 => exact whole _ _ h1 h2
  | send c e w _ _ _ h => exact .inl ⟨rfl, feed _ _ _ h⟩
  | kill c w _ h => exact .inl ⟨rfl, feed _ _ _ h⟩
  | finish c e w x _ h => exact .inl ⟨rfl, feed _ _ _ h⟩
  | read c n o w x h =>
    obtain ⟨_, h', -, g, rfl⟩ := whole_read h
    exact .inr ⟨_, rfl, g, rfl⟩
  | wrote n c b w x h => exact .inr ⟨_, rfl, pipe _ _ h, rfl⟩
  | refuse n c b w x _ h => exact .inr ⟨_, rfl, pipe _ _ h, rfl⟩
  | fail n c b w x h => exact .inr ⟨_, rfl, pipe _ _ h, rfl⟩
  | readCall | cut | closeCall | writeCall | own => exact .inl ⟨rfl, rfl⟩

/-- The way of request `n` to the engine. -/
theorem req_step {h h' : Hub.Sys} {e : Hub.Ev} {tr : List Pipe.Ev} {n : Nat} (hl : Lone b!"engine" 0 h.req) (hi : HubInv tr h) (hn : n < h.next)
    (hs : Hub.Step h e h') :
    ((e = .seen (.taken n) ∨ e = .seen (.dropped n)) ∧ leftIn b!"engine" h'.req n = 0) ∨
    (e ≠ .seen (.taken n) ∧ e ≠ .seen (.dropped n) ∧ leftIn b!"engine" h'.req n ≤ leftIn b!"engine" h.req n ∧
      (0 < leftIn b!"engine" h'.req n ↔ 0 < leftIn b!"engine" h.req n) ∧
      (∀ x, e = .requests (.topic (.own n x)) → itself x = true → 3 ≤ leftIn b!"engine" h.req n → leftIn b!"engine" h'.req n < leftIn b!"engine" h.req n) ∧
      ∀ m, e = .requests (.chan 0 (.sendCall n m)) → leftIn b!"engine" h'.req n < leftIn b!"engine" h.req n) := by
  cases hs with
  | read c id o w hc g1 g2 =>
    have := left_step n hl hi.req rfl g2 (by rintro m ⟨⟩; omega) (by simp)
    exact .inr ⟨by simp, by simp, this.1, this.2.1, by simp, by simp⟩
  | requests e w hc g1 g2 =>
    have := left_step n hl hi.req (inner_ours hl g1 g2) g2 (by rintro m rfl; simp [Hub.inner] at g1) (by rintro x y rfl; simp [Hub.inner] at g1)
    refine .inr ⟨by simp, by simp, this.1, this.2.1, ?_, ?_⟩
    · rintro x ⟨⟩; exact this.2.2.1 x rfl
    · rintro m ⟨⟩; exact this.2.2.2 m rfl
  | drop k name m w hc g1 =>
    by_cases hk : k = n
    · subst hk; exact .inl ⟨.inr rfl, (left_both hl hi.req g1).1⟩
    · have := left_step n hl hi.req (by simp [ours]) g1 (by simp) (by rintro x y ⟨⟩; exact hk rfl)
      exact .inr ⟨by simp, by simpa using hk, this.1, this.2.1, by simp, by simp⟩
  | wait w hc g1 g2 =>
    have := left_step n hl hi.req (by simp [ours]) g2 (by simp) (by simp)
    exact .inr ⟨by simp, by simp, this.1, this.2.1, by simp, by simp⟩
  | take k name m w hc g1 g2 =>
    by_cases hk : k = n
    · subst hk; exact .inl ⟨.inl rfl, (left_both hl hi.req g2).1⟩
    · have := left_step n hl hi.req (by simp [ours]) g2 (by simp) (by rintro x y ⟨⟩; exact hk rfl)
      exact .inr ⟨by simpa using hk, by simp, this.1, this.2.1, by simp, by simp⟩
  | _ => exact .inr ⟨by simp, by simp, Nat.le_refl _, Iff.rfl, by simp, by simp⟩

/-- The way of the reply to request `n` to the response worker. -/
theorem resp_step {h h' : Hub.Sys} {e : Hub.Ev} {tr : List Pipe.Ev} {n : Nat} (hl : Lone b!"server" 100 h.resp) (hi : HubInv tr h)
    (hn : ∀ m, h.engine ≠ .has (n, m)) (hs : Hub.Step h e h') :
    ((e = .seen (.queued n) ∨ e = .seen (.unqueued n)) ∧ leftIn b!"server" h'.resp n = 0) ∨
    (e ≠ .seen (.queued n) ∧ e ≠ .seen (.unqueued n) ∧ leftIn b!"server" h'.resp n ≤ leftIn b!"server" h.resp n ∧
      (0 < leftIn b!"server" h'.resp n ↔ 0 < leftIn b!"server" h.resp n) ∧
      (∀ x, e = .responses (.topic (.own n x)) → itself x = true → 3 ≤ leftIn b!"server" h.resp n → leftIn b!"server" h'.resp n < leftIn b!"server" h.resp n) ∧
      ∀ m, e = .responses (.chan 0 (.sendCall n m)) → leftIn b!"server" h'.resp n < leftIn b!"server" h.resp n) := by
  cases hs with
  | execute k m id objs env db r w hc g1 g2 g3 g4 =>
    have := left_step n hl hi.resp rfl g4 (by rintro m' ⟨⟩; exact hn _ g1) (by simp)
    exact .inr ⟨by simp, by simp, this.1, this.2.1, by simp, by simp⟩
  | responses e w hc g1 g2 =>
    have := left_step n hl hi.resp (inner_ours hl g1 g2) g2 (by rintro m rfl; simp [Hub.inner] at g1) (by rintro x y rfl; simp [Hub.inner] at g1)
    refine .inr ⟨by simp, by simp, this.1, this.2.1, ?_, ?_⟩
    · rintro x ⟨⟩; exact this.2.2.1 x rfl
    · rintro m ⟨⟩; exact this.2.2.2 m rfl
  | queue k name m w hc g1 =>
    by_cases hk : k = n
    · subst hk; exact .inl ⟨.inl rfl, (left_both hl hi.resp g1).1⟩
    · have := left_step n hl hi.resp (by simp [ours]) g1 (by simp) (by rintro x y ⟨⟩; exact hk rfl)
      exact .inr ⟨by simpa using hk, by simp, this.1, this.2.1, by simp, by simp⟩
  | unqueue k name m w hc g1 =>
    by_cases hk : k = n
    · subst hk; exact .inl ⟨.inr rfl, (left_both hl hi.resp g1).1⟩
    · have := left_step n hl hi.resp (by simp [ours]) g1 (by simp) (by rintro x y ⟨⟩; exact hk rfl)
      exact .inr ⟨by simp, by simpa using hk, this.1, this.2.1, by simp, by simp⟩
  | await w hc g1 g2 =>
    have := left_step n hl hi.resp (by simp [ours]) g2 (by simp) (by simp)
    exact .inr ⟨by simp, by simp, this.1, this.2.1, by simp, by simp⟩
  | receive k m w hc g1 g2 =>
    have := left_step n hl hi.resp (by simp [ours]) g2 (by simp) (by simp)
    exact .inr ⟨by simp, by simp, this.1, this.2.1, by simp, by simp⟩
  | _ => exact .inr ⟨by simp, by simp, Nat.le_refl _, Iff.rfl, by simp, by simp⟩

/-- Only the engine's goroutine changes where the engine is. -/
theorem engine_only {e : Full.Ev} (hs : Full.Step ω s e s') :
    DoneBy .engine e ∨ (s'.whole.hub.engine = s.whole.hub.engine ∧ s'.whole.begun = s.whole.begun) := by
  cases hs with
  | whole e w h1 h2 =>
    cases h2 with
    | feed | kill | read => simp [Full.apart] at h1
    | bus e h _ g0 g =>
      cases g <;> simp [Whole.hidden] at g0
      case wait => exact .inl .wait
      all_goals exact .inr ⟨rfl, rfl⟩
    | pass e h _ g0 g =>
      cases g <;> simp [Whole.between] at g0
      case take => exact .inl (.take _)
      case ignore => exact .inl (.ignore _)
      all_goals exact .inr ⟨rfl, rfl⟩
    | receive => exact .inl (.receive _)
    | record | flush => exact .inr ⟨rfl, rfl⟩
    | execute n env r h _ _ g => exact .inl (.execute _ _ _)
    | crash n env h _ _ g => exact .inl (.crash _ _)
  | send c e w _ _ _ h => cases h <;> exact .inr ⟨rfl, rfl⟩
  | kill c w _ h => cases h <;> exact .inr ⟨rfl, rfl⟩
  | finish c e w x _ h => cases h <;> exact .inr ⟨rfl, rfl⟩
  | read c n o w x h =>
    obtain ⟨_, h', -, g, rfl⟩ := whole_read h
    cases g
    exact .inr ⟨rfl, rfl⟩
  | wrote n c b w x h =>
    obtain ⟨-, rfl⟩ := whole_wrote h
    exact .inr ⟨rfl, rfl⟩
  | refuse n c b w x _ h =>
    obtain ⟨-, rfl⟩ := whole_refused h
    exact .inr ⟨rfl, rfl⟩
  | fail n c b w x h =>
    obtain ⟨-, rfl⟩ := whole_refused h
    exact .inr ⟨rfl, rfl⟩
  | readCall | cut | closeCall | writeCall | own => exact .inr ⟨rfl, rfl⟩

theorem pcs_other {x x' : Conn.Sys} {e : Conn.Ev} (hs : Conn.Step x e x') (hp : x.pcs 1 = .idle ∨ ∃ b, x.pcs 1 = .writeReset b ∨ x.pcs 1 = .writing b)
    (h1 : ∀ b, e ≠ .writeCall 1 b) (h2 : e ≠ .writeReset 1) (h3 : ∀ b, e ≠ .wrote 1 b) (h4 : ∀ b, e ≠ .writeErr 1 b) (h5 : e ≠ .readCall 1)
    (h6 : e ≠ .closeCall 1) : x'.pcs 1 = x.pcs 1 := by
  cases hs <;> grind [upd]

/-- Only the response worker's goroutine changes where the response worker is. -/
theorem worker_only {e : Full.Ev} (hi : ∀ c, LineInv s c) (hs : Full.Step ω s e s') :
    DoneBy .worker e ∨ (s'.whole.hub.worker = s.whole.hub.worker ∧ ∀ c, ((s'.lines c).pcs 1) = ((s.lines c).pcs 1)) := by
  have hp : ∀ c, (s.lines c).pcs 1 = .idle ∨ ∃ b, (s.lines c).pcs 1 = .writeReset b ∨ (s.lines c).pcs 1 = .writing b := by
    intro c
    rcases (hi c).writer with h | ⟨b, n, h, -⟩
    · exact .inl h
    · exact .inr ⟨b, h⟩
  have line : ∀ c x e, Conn.Step (s.lines c) e x → (∀ b, e ≠ .writeCall 1 b) → e ≠ .writeReset 1 → (∀ b, e ≠ .wrote 1 b) → (∀ b, e ≠ .writeErr 1 b) →
      e ≠ .readCall 1 → e ≠ .closeCall 1 → ∀ c', (upd s.lines c x c').pcs 1 = (s.lines c').pcs 1 := by
    intro c x e hx h1 h2 h3 h4 h5 h6 c'
    by_cases h : c' = c
    · subst h; rw [upd_same]; exact pcs_other hx (hp _) h1 h2 h3 h4 h5 h6
    · rw [upd_other _ _ h]
  cases hs with
  | whole e w h1 h2 =>
    cases h2 with
    | feed | kill | read => simp [Full.apart] at h1
    | bus e h _ g0 g =>
      cases g <;> simp [Whole.hidden] at g0
      case await => exact .inl .await
      case look => exact .inl .look
      all_goals exact .inr ⟨rfl, fun _ => rfl⟩
    | pass e h _ g0 g =>
      cases g <;> simp [Whole.between, Full.apart] at g0 h1
      case receive => exact .inl (.answer _)
      case nobody => exact .inl (.nobody _)
      all_goals exact .inr ⟨rfl, fun _ => rfl⟩
    | receive | record | flush => exact .inr ⟨rfl, fun _ => rfl⟩
    | execute n env r h _ _ g => cases g; exact .inr ⟨rfl, fun _ => rfl⟩
    | crash n env h _ _ g => cases g; exact .inr ⟨rfl, fun _ => rfl⟩
  | send c e w _ _ _ h => cases h <;> exact .inr ⟨rfl, fun _ => rfl⟩
  | kill c w _ h => cases h <;> exact .inr ⟨rfl, fun _ => rfl⟩
  | finish c e w x _ h hx =>
    have := line _ _ _ hx (by simp) (by simp) (by simp) (by simp) (by simp) (by simp)
    cases h <;> exact .inr ⟨rfl, this⟩
  | read c n o w x h hx =>
    have := line _ _ _ hx (by simp) (by simp) (by simp) (by simp) (by simp) (by simp)
    obtain ⟨_, h', -, g, rfl⟩ := whole_read h
    cases g
    exact .inr ⟨rfl, this⟩
  | wrote n c b w x h => exact .inl (.wrote c n b)
  | refuse n c b w x _ h => exact .inl (.refuse c n b)
  | fail n c b w x h => exact .inl (.fail c n b)
  | writeCall n c b x => exact .inl (.writeCall c b)
  | readCall c x _ _ _ _ hx => exact .inr ⟨rfl, line _ _ _ hx (by simp) (by simp) (by simp) (by simp) (by simp) (by simp)⟩
  | cut c x _ _ hx => exact .inr ⟨rfl, line _ _ _ hx (by simp) (by simp) (by simp) (by simp) (by simp) (by simp)⟩
  | closeCall c x _ _ _ hx => exact .inr ⟨rfl, line _ _ _ hx (by simp) (by simp) (by simp) (by simp) (by simp) (by simp)⟩
  | own c e x _ _ ho hx =>
    by_cases h : e = .writeReset 1
    · subst h; exact .inl (.writeReset c)
    · exact .inr ⟨rfl, line _ _ _ hx (by rintro b rfl; simp [Full.own] at ho) h (by rintro b rfl; simp [Full.own] at ho)
        (by rintro b rfl; simp [Full.own] at ho) (by rintro rfl; simp [Full.own] at ho) (by rintro rfl; simp [Full.own] at ho)⟩

theorem at_exec {tr : List Full.Ev} (h : Exec (Full.Step ω) (Full.new d st) tr s) : At st tr s := by
  obtain ⟨k, h1, h2⟩ := whole_net (full_exec h).1
  obtain ⟨tr', g1, -⟩ := h2.hub
  exact ⟨⟨k.pipe, (net_split h1).2.1, h2.sim⟩, ⟨_, hubInv g1⟩, ⟨_, g1⟩, h2.begun, lineInv h, fun n c b hw => writing_conn h hw, (net_split h1).2.2.2.2⟩

/-- Where the response worker gets. -/
inductive Turns (s s' : Full.Sys) : Prop where
  | await : s.whole.hub.worker = .away → s'.whole.hub.worker = .waiting → Turns s s'
  | take (m : Wired.Mail Msg) : s.whole.hub.worker = .waiting → s'.whole.hub.worker = .has m →
      (s.whole.hub.resp.chans 0).buf = m :: (s'.whole.hub.resp.chans 0).buf → Turns s s'
  | look (m : Wired.Mail Msg) (n c : Nat) (b : Bytes) : s.whole.hub.worker = .has m → s'.whole.hub.worker = .writing n c b → Turns s s'
  | skip (m : Wired.Mail Msg) : s.whole.hub.worker = .has m → s'.whole.hub.worker = .away → Turns s s'
  | call (n c : Nat) (b : Bytes) : s.whole.hub.worker = .writing n c b → (s.lines c).pcs 1 = .idle → s'.whole.hub.worker = .writing n c b →
      (s'.lines c).pcs 1 = .writeReset b → Turns s s'
  | reset (n c : Nat) (b : Bytes) : s.whole.hub.worker = .writing n c b → (s.lines c).pcs 1 = .writeReset b → s'.whole.hub.worker = .writing n c b →
      (s'.lines c).pcs 1 = .writing b → Turns s s'
  | done (n c : Nat) (b : Bytes) : s.whole.hub.worker = .writing n c b → ((s.lines c).pcs 1 = .idle ∨ (s.lines c).pcs 1 = .writing b) →
      s'.whole.hub.worker = .away → Turns s s'

theorem worker_does {e : Full.Ev} (hi : ∀ c, LineInv s c) (hs : Full.Step ω s e s') (hd : DoneBy .worker e) : Turns s s' := by
  have hp : ∀ c b, ((s.lines c).pcs 1 = .writeReset b ∨ (s.lines c).pcs 1 = .writing b) → ∃ n, s.whole.hub.worker = .writing n c b := by
    intro c b h
    rcases (hi c).writer with g | ⟨b', n, g, g'⟩
    · simp [g] at h
    · rcases g with g | g <;> simp [g] at h <;> subst h <;> exact ⟨n, g'⟩
  cases hd with
  | await =>
    simp only [inTopic, if_true] at hs
    cases hs with
    | whole _ w h1 h2 =>
      cases h2 with
      | bus _ h _ g0 g =>
        cases g with
        | responses _ w _ g _ => simp [Hub.inner] at g
        | await w _ g _ => exact .await g rfl
  | answer n =>
    cases hs with
    | whole _ w h1 h2 =>
      cases h2 with
      | pass _ h _ g0 g =>
        cases g with
        | receive _ m w _ g g' =>
          refine .take _ g rfl ?_
          cases g' with
          | received _ _ _ c _ hc => cases hc; simpa [upd]
  | look =>
    cases hs with
    | whole _ w h1 h2 =>
      cases h2 with
      | bus _ h _ g0 g => cases g with | look n m id r c _ g _ _ => exact .look _ _ _ _ g rfl
  | nobody n =>
    cases hs with
    | whole _ w h1 h2 =>
      cases h2 with
      | pass _ h _ g0 g => cases g with | nobody _ m _ g _ => exact .skip _ g rfl
  | writeCall c b =>
    cases hs with
    | writeCall n _ _ x _ h1 h2 => cases h2 with | writeCall _ _ _ h3 _ => exact .call n c b h1 h3 h1 (by simp [upd])
    | own _ _ x _ _ ho _ => simp [Full.own] at ho
  | writeReset c =>
    cases hs with
    | own _ _ x _ _ ho h2 =>
      cases h2 with
      | writeReset _ m h3 _ =>
        obtain ⟨n, hn⟩ := hp c m (.inl h3)
        exact .reset n c m hn h3 hn (by simp [upd])
  | wrote c n b =>
    cases hs with
    | wrote _ _ _ w x h1 h2 =>
      obtain ⟨h3, rfl⟩ := whole_wrote h1
      cases h2 with | wrote _ _ h4 _ _ => exact .done n c b h3 (.inr h4) rfl
  | refuse c n b =>
    cases hs with
    | refuse _ _ _ w x h3 h1 h2 =>
      obtain ⟨-, rfl⟩ := whole_refused h1
      cases h2 with | writeClosed _ _ _ h4 _ => exact .done n c b h3 (.inl h4) rfl
  | fail c n b =>
    cases hs with
    | fail _ _ _ w x h1 h2 =>
      obtain ⟨-, rfl⟩ := whole_refused h1
      cases h2 with
      | writeErr _ _ h4 _ =>
        obtain ⟨k, hk⟩ := hp c b (.inr h4)
        exact .done k c b hk (.inr h4) rfl
      | writePart _ _ p h4 _ _ =>
        obtain ⟨k, hk⟩ := hp c b (.inr h4)
        exact .done k c b hk (.inr h4) rfl

theorem never_select {e : Full.Ev} (hs : Full.Step ω s e s') (c : Nat) (h : (s.lines c).worker ≠ .selecting) : (s'.lines c).worker ≠ .selecting := by
  refine ((full_step hs).2 c).inv (P := fun _ x => x.worker ≠ .selecting) h ?_
  intro tr x l x' _ hx hst
  cases hst <;> simp_all

/-- The response worker is at the reply to request `n`. -/
def InWork (h : Hub.Sys) (n : Nat) : Prop := (∃ m, h.worker = .has (n, m)) ∨ ∃ c b, h.worker = .writing n c b

theorem work_step {h h' : Hub.Sys} {e : Hub.Ev} {n : Nat} (hs : Hub.Step h e h') (hw : InWork h n) :
    InWork h' n ∨ (∃ c b, e = .seen (.wrote c n b)) ∨ (∃ c, e = .seen (.refused c n)) ∨ e = .seen (.nobody n) := by
  unfold InWork at hw ⊢
  cases hs <;> simp_all <;> grind

theorem buf_step {h h' : Hub.Sys} {e : Hub.Ev} (hl : Lone b!"server" 100 h.resp) (hs : Hub.Step h e h') :
    (h'.resp.chans 0).buf = (h.resp.chans 0).buf ∨ (∃ m, (h'.resp.chans 0).buf = (h.resp.chans 0).buf ++ [m]) ∨
      ∃ m, (h.resp.chans 0).buf = m :: (h'.resp.chans 0).buf ∧ h'.worker = .has m := by
  cases hs with
  | execute k m id objs env db r w hc g1 g2 g3 g4 =>
    cases g4
    exact .inl rfl
  | responses e w hc g1 g2 => exact .inl (lone_inner hl g1 g2).2.1
  | queue k name m w hc g1 => exact .inr (.inl ⟨m, ((lone_tried hl (.inr (.inl rfl)) g1).2.2.2.2.2 rfl).1⟩)
  | unqueue k name m w hc g1 => exact .inl ((lone_tried hl (.inl rfl) g1).2.2.2.2.1 (by simp))
  | await w hc g1 g2 => exact .inl (lone_recvCall hl g2).2.1
  | receive k m w hc g1 g2 => exact .inr (.inr ⟨_, (lone_received hl g2).2.1, rfl⟩)
  | _ => exact .inl rfl

theorem queued_step {h h' : Hub.Sys} {n : Nat} (hl : Lone b!"server" 100 h.resp) (hs : Hub.Step h (.seen (.queued n)) h') :
    ∃ m, (n, m) ∈ (h'.resp.chans 0).buf := by
  cases hs with
  | queue k name m w hc g1 =>
    have := lone_tried hl (.inr (.inl rfl)) g1
    obtain ⟨k, m⟩ := m
    obtain ⟨-, rfl, -, -, -, g⟩ := this
    exact ⟨m, by simp [(g rfl).1]⟩

theorem taken_step {h h' : Hub.Sys} {n : Nat} (hl : Lone b!"engine" 0 h.req) (hs : Hub.Step h (.seen (.taken n)) h') : ∃ m, h'.engine = .has (n, m) := by
  cases hs with
  | take k name m w hc g0 g1 =>
    have := lone_tried hl (.inr (.inr ⟨_, rfl⟩)) g1
    obtain ⟨k, m⟩ := m
    obtain ⟨-, rfl, -⟩ := this
    exact ⟨m, rfl⟩

/-- What the engine's goroutine does when it has a request. -/
theorem engine_does {e : Full.Ev} {n : Nat} {m : Msg} (hs : Full.Step ω s e s') (hu : s'.up) (hd : DoneBy .engine e) (hm : s.whole.hub.engine = .has (n, m)) :
    (s'.whole.hub.engine = .has (n, m) ∧ s.whole.begun = none ∧ s'.whole.begun ≠ none) ∨ pipeOf (seenIn [e]) = [.ignored n] ∨
      (s'.whole.hub.engine = .away ∧ 0 < leftIn b!"server" s'.whole.hub.resp n) := by
  cases hd with
  | wait =>
    simp only [inTopic, Bool.false_eq_true, if_false] at hs
    cases hs with
    | whole _ w h1 h2 =>
      cases h2 with
      | bus _ h _ g0 g =>
        cases g with
        | requests _ w _ g _ => simp [Hub.inner] at g
        | wait w _ g _ => simp [hm] at g
  | take k =>
    cases hs with
    | whole _ w h1 h2 =>
      cases h2 with
      | pass _ h _ g0 g => cases g with | take _ _ _ w _ g _ => simp [hm] at g
  | ignore k =>
    cases hs with
    | whole _ w h1 h2 =>
      cases h2 with
      | pass _ h _ g0 g =>
        cases g with
        | ignore _ m' _ g _ =>
          rw [hm] at g
          cases g
          exact .inr (.inl rfl)
  | receive q =>
    cases hs with
    | whole _ w h1 h2 => cases h2 with | receive _ _ _ _ _ _ _ _ g => exact .inl ⟨hm, g, by simp⟩
  | execute k env r =>
    cases hs with
    | whole _ w h1 h2 =>
      cases h2 with
      | pass _ h _ g0 g => simp [Whole.between] at g0
      | execute _ _ _ h _ _ g =>
        cases g with
        | execute _ m' id objs _ db _ w _ g _ _ g4 =>
          rw [hm] at g
          cases g
          refine .inr (.inr ⟨rfl, ?_⟩)
          cases g4 with
          | publish _ _ t ht => cases ht; simp [leftIn, upd_same, leftOf, Topic.Dist.new]
  | crash k env =>
    cases hs with
    | whole _ w h1 h2 =>
      cases h2 with
      | pass _ h _ g0 g => simp [Whole.between] at g0
      | crash _ _ h _ _ g => cases g; simp [Full.Sys.up] at hu

theorem no_return {h h' : Hub.Sys} {e : Hub.Ev} {tr : List Pipe.Ev} {n : Nat} (hl : Lone b!"engine" 0 h.req) (hi : HubInv tr h)
    (h0 : leftIn b!"engine" h.req n = 0) (he : ∀ m, h.engine ≠ .has (n, m)) (hs : Hub.Step h e h') : ∀ m, h'.engine ≠ .has (n, m) := by
  cases hs with
  | take k name m w hc g0 g1 =>
    rintro m' ⟨⟩
    have := lone_tried hl (.inr (.inr ⟨_, rfl⟩)) g1
    obtain ⟨-, rfl, -⟩ := this
    have h2 := (left_both hl hi.req g1).2
    simp [h0] at h2
  | _ => first | exact he | simp

/-! ### in the course of time -/

variable {r : Run (Full.Step ω) (Full.new d st)}

theorem run_at (r : Run (Full.Step ω) (Full.new d st)) (j : Nat) : At st (r.until j) (r.state j) := at_exec (run_exec r j)

theorem back_writing (hf : r.FairToAll) (hu : ∀ j, (r.state j).up) (hh : ¬ r.Holds) {n c : Nat} {b : Bytes} {i : Nat}
    (hw : (r.state i).whole.hub.worker = .writing n c b) (hp : ((r.state i).lines c).pcs 1 = .writing b) :
    ∃ j, i ≤ j ∧ (r.state j).whole.hub.worker = .away := by
  by_contra hn
  have hn : ∀ j, i ≤ j → (r.state j).whole.hub.worker ≠ .away := fun j hj h => hn ⟨j, hj, h⟩
  have all : ∀ j, i ≤ j → (r.state j).whole.hub.worker = .writing n c b ∧ ((r.state j).lines c).pcs 1 = .writing b := by
    intro j hj
    refine lasts r (fun s => s.whole.hub.worker = .writing n c b ∧ (s.lines c).pcs 1 = .writing b) ⟨hw, hp⟩ ?_ hj
    rintro j l hj ⟨h1, h2⟩ he
    rcases worker_only (run_at r j).line (run_step r he) with h | ⟨h, h'⟩
    · have := hn (j + 1) (by omega)
      cases worker_does (run_at r j).line (run_step r he) h <;> simp_all
    · exact ⟨h.trans h1, (h' c).trans h2⟩
  obtain ⟨k, hk, hs⟩ : ∃ k, i ≤ k ∧ ∀ j, k ≤ j → ((r.state j).lines c).client ≠ .stalled := by
    by_contra hs
    refine hh ⟨i, c, b, .inr ⟨fun j hj => (all j hj).2, fun j hj => ?_⟩⟩
    by_contra hj'
    exact hs ⟨j, hj, fun k hk h => hj' ⟨k, hk, h⟩⟩
  obtain ⟨j, l, h1, h2, h3⟩ := hf .worker k fun j hj => by
    obtain ⟨g1, g2⟩ := all j (by omega)
    obtain ⟨u1, u2⟩ := hu j
    cases hs' : ((r.state j).lines c).sock with
    | false => exact ⟨_, _, .wrote c n b, .wrote n c b _ _ (.pass _ _ u1 rfl (.write n c b u2 g1)) (.wrote 1 b g2 hs' (hs j hj))⟩
    | true => exact ⟨_, _, .fail c n b, .fail n c b _ _ (.pass _ _ u1 rfl (.refuse n c b u2 g1)) (.writeErr 1 b g2 hs')⟩
  obtain ⟨g1, g2⟩ := all j (by omega)
  have := hn (j + 1) (by omega)
  have := all (j + 1) (by omega)
  cases worker_does (run_at r j).line (run_step r h2) h3 <;> simp_all

theorem back_reset (hf : r.FairToAll) (hu : ∀ j, (r.state j).up) (hh : ¬ r.Holds) {n c : Nat} {b : Bytes} {i : Nat}
    (hw : (r.state i).whole.hub.worker = .writing n c b) (hp : ((r.state i).lines c).pcs 1 = .writeReset b) :
    ∃ j, i ≤ j ∧ (r.state j).whole.hub.worker = .writing n c b ∧ ((r.state j).lines c).pcs 1 = .writing b := by
  by_contra hn
  have hn : ∀ j, i ≤ j → ¬ ((r.state j).whole.hub.worker = .writing n c b ∧ ((r.state j).lines c).pcs 1 = .writing b) := fun j hj h => hn ⟨j, hj, h⟩
  have all : ∀ j, i ≤ j → (r.state j).whole.hub.worker = .writing n c b ∧ ((r.state j).lines c).pcs 1 = .writeReset b := by
    intro j hj
    refine lasts r (fun s => s.whole.hub.worker = .writing n c b ∧ (s.lines c).pcs 1 = .writeReset b) ⟨hw, hp⟩ ?_ hj
    rintro j l hj ⟨h1, h2⟩ he
    rcases worker_only (run_at r j).line (run_step r he) with h | ⟨h, h'⟩
    · have := hn (j + 1) (by omega)
      cases worker_does (run_at r j).line (run_step r he) h <;> simp_all
    · exact ⟨h.trans h1, (h' c).trans h2⟩
  have sel : ∀ j, i ≤ j → ((r.state j).lines c).worker = .selecting := by
    intro j hj
    by_contra hs
    refine hh ⟨j, c, b, .inl fun k hk => ⟨(all k (by omega)).2, ?_⟩⟩
    exact lasts r (fun s => (s.lines c).worker ≠ .selecting) hs (fun j l _ h he => never_select (run_step r he) c h) hk
  obtain ⟨j, l, h1, h2, h3⟩ := hf .worker i fun j hj => by
    obtain ⟨g1, g2⟩ := all j hj
    exact ⟨_, _, .writeReset c, .own c _ _ (hu j) ((run_at r j).conn n c b g1) rfl (.writeReset 1 b g2 (sel j hj))⟩
  obtain ⟨g1, g2⟩ := all j (by omega)
  have := hn (j + 1) (by omega)
  have := all (j + 1) (by omega)
  cases worker_does (run_at r j).line (run_step r h2) h3 <;> simp_all

/-- The response worker gets away from any connection. -/
theorem back_away (hf : r.FairToAll) (hu : ∀ j, (r.state j).up) (hh : ¬ r.Holds) {n c : Nat} {b : Bytes} {i : Nat}
    (hw : (r.state i).whole.hub.worker = .writing n c b) : ∃ j, i ≤ j ∧ (r.state j).whole.hub.worker = .away := by
  have reset : ∀ i, (r.state i).whole.hub.worker = .writing n c b → ((r.state i).lines c).pcs 1 = .writeReset b →
      ∃ j, i ≤ j ∧ (r.state j).whole.hub.worker = .away := by
    intro i hw hp
    obtain ⟨j, h1, h2, h3⟩ := back_reset hf hu hh hw hp
    obtain ⟨k, h4, h5⟩ := back_writing hf hu hh h2 h3
    exact ⟨k, by omega, h5⟩
  rcases ((run_at r i).line c).writer with hp | ⟨b', n', hp, hw'⟩
  · obtain ⟨j, hj, h⟩ := leads r (hf .worker) (fun s => s.whole.hub.worker = .writing n c b ∧ (s.lines c).pcs 1 = .idle)
      (fun j => (r.state j).whole.hub.worker = .away ∨ (r.state j).whole.hub.worker = .writing n c b ∧ ((r.state j).lines c).pcs 1 = .writeReset b) ⟨hw, hp⟩
      (fun j l _ ⟨h1, h2⟩ he => by
        rcases worker_only (run_at r j).line (run_step r he) with h | ⟨h, h'⟩
        · refine .inr ?_
          cases worker_does (run_at r j).line (run_step r he) h <;> simp_all
        · exact .inl ⟨h.trans h1, (h' c).trans h2⟩)
      (fun j _ ⟨h1, h2⟩ => by
        obtain ⟨u1, u2⟩ := hu j
        cases hfl : ((r.state j).lines c).flag with
        | false => exact ⟨_, _, .writeCall c b, .writeCall n c b _ (hu j) h1 (.writeCall 1 b (by decide) h2 hfl)⟩
        | true => exact ⟨_, _, .refuse c n b, .refuse n c b _ _ h1 (.pass _ _ u1 rfl (.refuse n c b u2 h1)) (.writeClosed 1 b (by decide) h2 hfl)⟩)
      (fun j l _ ⟨h1, h2⟩ he h => by cases worker_does (run_at r j).line (run_step r he) h <;> simp_all)
    rcases h with h | ⟨h1, h2⟩
    · exact ⟨j, hj, h⟩
    · obtain ⟨k, h3, h4⟩ := reset j h1 h2
      exact ⟨k, by omega, h4⟩
  · rw [hw] at hw'
    cases hw'
    rcases hp with hp | hp
    · exact reset i hw hp
    · exact back_writing hf hu hh hw hp

/-- The response worker comes back to its channel again and again. -/
theorem back_waiting (hf : r.FairToAll) (hu : ∀ j, (r.state j).up) (hh : ¬ r.Holds) (i : Nat) : ∃ j, i ≤ j ∧ (r.state j).whole.hub.worker = .waiting := by
  have away : ∀ i, (r.state i).whole.hub.worker = .away → ∃ j, i ≤ j ∧ (r.state j).whole.hub.worker = .waiting := by
    intro i hw
    refine leads r (hf .worker) (fun s => s.whole.hub.worker = .away) _ hw ?_ ?_ ?_
    · intro j l _ h1 he
      rcases worker_only (run_at r j).line (run_step r he) with h | ⟨h, h'⟩
      · refine .inr ?_
        cases worker_does (run_at r j).line (run_step r he) h <;> simp_all
      · exact .inl (h.trans h1)
    · intro j _ h1
      obtain ⟨u1, u2⟩ := hu j
      obtain ⟨tr, hi⟩ := (run_at r j).inv
      have hr : (((r.state j).whole.hub.resp.chans 0).receivers 0) = false := by
        by_contra h
        have := hi.eyes.1 (by simpa using h)
        simp [h1] at this
      exact ⟨_, _, .await, .whole _ _ rfl (.bus _ _ u1 rfl (.await _ u2 h1 (.recvCall 0 0 _ (by rw [hi.resp.made]; decide)
        (.recvCall 0 hi.resp.up hr hi.resp.flag))))⟩
    · intro j l _ h1 he h
      cases worker_does (run_at r j).line (run_step r he) h <;> simp_all
  have writing : ∀ i n c b, (r.state i).whole.hub.worker = .writing n c b → ∃ j, i ≤ j ∧ (r.state j).whole.hub.worker = .waiting := by
    intro i n c b hw
    obtain ⟨j, h1, h2⟩ := back_away hf hu hh hw
    obtain ⟨k, h3, h4⟩ := away j h2
    exact ⟨k, by omega, h4⟩
  cases hw : (r.state i).whole.hub.worker with
  | away => exact away i hw
  | waiting => exact ⟨i, Nat.le_refl i, hw⟩
  | writing n c b => exact writing i n c b hw
  | has m =>
    obtain ⟨j, hj, h⟩ := leads r (hf .worker) (fun s => s.whole.hub.worker = .has m)
      (fun j => (r.state j).whole.hub.worker = .away ∨ ∃ n c b, (r.state j).whole.hub.worker = .writing n c b) hw
      (fun j l _ h1 he => by
        rcases worker_only (run_at r j).line (run_step r he) with h | ⟨h, h'⟩
        · refine .inr ?_
          cases worker_does (run_at r j).line (run_step r he) h <;> simp_all
        · exact .inl (h.trans h1))
      (fun j _ h1 => by
        obtain ⟨u1, u2⟩ := hu j
        obtain ⟨n, m⟩ := m
        by_cases hp : ∃ id o c, Pipe.parseResponse m = some (id, o) ∧ (r.state j).whole.hub.clients.get id = some c
        · obtain ⟨id, o, c, g1, g2⟩ := hp
          exact ⟨_, _, .look, .whole _ _ rfl (.bus _ _ u1 rfl (.look n m id o c u2 h1 g1 g2))⟩
        · refine ⟨_, _, .nobody n, .whole _ _ rfl (.pass _ _ u1 rfl (.nobody n m u2 h1 fun id o g => ?_))⟩
          cases hg : (r.state j).whole.hub.clients.get id with
          | none => rfl
          | some c => exact absurd ⟨id, o, c, g, hg⟩ hp)
      (fun j l _ h1 he h => by cases worker_does (run_at r j).line (run_step r he) h <;> simp_all)
    rcases h with h | ⟨n, c, b, h⟩
    · obtain ⟨k, h3, h4⟩ := away j h
      exact ⟨k, by omega, h4⟩
    · obtain ⟨k, h3, h4⟩ := writing j n c b h
      exact ⟨k, by omega, h4⟩

theorem settles_of {j n : Nat} {e : Full.Ev} {f : Fate} (he : r.ev j = some e) (hf : (n, f) ∈ fatesOf (pipeOf (seenIn [e]))) : r.Settles n := by
  refine ⟨j + 1, f, ?_⟩
  have : seenIn (r.until (j + 1)) = seenIn (r.until j) ++ seenIn [e] := by
    rw [until_succ, he]
    simp [seenIn, wholeOf_append, netOf_append]
  rw [this, pipeOf_append, fatesOf_append]
  exact List.mem_append_right _ hf

theorem not_nobody {j n : Nat} {e : Full.Ev} (he : r.ev j = some e) (hs : pipeOf (seenIn [e]) = [.nobody n]) : False := by
  obtain ⟨p, hp, -⟩ := (run_at r (j + 1)).pipe
  have : seenIn (r.until (j + 1)) = seenIn (r.until j) ++ seenIn [e] := by
    rw [until_succ, he]
    simp [seenIn, wholeOf_append, netOf_append]
  rw [this, pipeOf_append, hs] at hp
  exact C67_found hp n (by simp)

theorem work_settles (hf : r.FairToAll) (hu : ∀ j, (r.state j).up) (hh : ¬ r.Holds) {n i : Nat} (hw : InWork (r.state i).whole.hub n) : r.Settles n := by
  by_contra hn
  obtain ⟨j, hj, h⟩ := back_waiting hf hu hh i
  have := lasts r (fun s => InWork s.whole.hub n) hw (fun j l _ h he => by
    rcases hub_of (run_step r he) with ⟨-, g⟩ | ⟨e, g1, g2, g3⟩
    · rw [g]; exact h
    · rcases work_step g2 h with g | ⟨c, b, rfl⟩ | ⟨c, rfl⟩ | rfl
      · exact g
      · exact absurd (settles_of (n := n) (f := .answered) he (by rw [g3]; simp [seenOf, fatesOf])) hn
      · exact absurd (settles_of (n := n) (f := .refused) he (by rw [g3]; simp [seenOf, fatesOf])) hn
      · exact (not_nobody he g3).elim) hj
  simp [InWork, h] at this

theorem buffer_settles (hf : r.FairToAll) (hu : ∀ j, (r.state j).up) (hh : ¬ r.Holds) {n : Nat} (k : Nat) : ∀ {m : Msg} {i : Nat},
    ((r.state i).whole.hub.resp.chans 0).buf[k]? = some (n, m) → r.Settles n := by
  induction k with
  | zero | succ k ih =>
    intro m i hb
    by_contra hn
    have out : ∀ j, ¬ InWork (r.state j).whole.hub n := fun j h => hn (work_settles hf hu hh h)
    -- the reply stays where it is
    have step : ∀ j l, i ≤ j → r.ev j = some l → ∀ k', ((r.state j).whole.hub.resp.chans 0).buf[k']? = some (n, m) →
        ((r.state (j + 1)).whole.hub.resp.chans 0).buf[k']? = some (n, m) ∨
          (∃ m', ((r.state (j + 1)).whole.hub.worker = .has m') ∧ k' ≠ 0 ∧ ((r.state (j + 1)).whole.hub.resp.chans 0).buf[k' - 1]? = some (n, m)) := by
      intro j l _ he k' h
      obtain ⟨p, -, hp⟩ := (run_at r j).pipe
      rcases hub_of (run_step r he) with ⟨-, g⟩ | ⟨e, g1, g2, g3⟩
      · rw [g]; exact .inl h
      · rcases buf_step hp.resp g2 with g | ⟨m', g⟩ | ⟨m', g, g'⟩
        · rw [g]; exact .inl h
        · rw [g]
          refine .inl ?_
          rw [List.getElem?_append_left]
          · exact h
          · by_contra hlen
            rw [List.getElem?_eq_none (by omega)] at h
            cases h
        · rw [g] at h
          cases k' with
          | zero =>
            simp at h
            subst h
            exact absurd (.inl ⟨m, g'⟩) (out (j + 1))
          | succ k' => exact .inr ⟨m', g', by simp, by simpa using h⟩
    have all := fun j (hj : i ≤ j) => lasts r (fun s => (s.whole.hub.resp.chans 0).buf[_]? = some (n, m)) hb (fun j l hj h he => by
      rcases step j l hj he _ h with g | ⟨m', -, g0, g⟩
      · exact g
      · first
        | exact absurd rfl g0
        | exact absurd (ih g) hn) hj
    obtain ⟨j, hj, h⟩ := back_waiting hf hu hh i
    have pop : ∀ j l, i ≤ j → (r.state j).whole.hub.worker = .waiting → r.ev j = some l → DoneBy .worker l → False := by
      intro j l hj h1 he h
      have a0 := all j hj
      cases worker_does (run_at r j).line (run_step r he) h with
      | take m' g0 g1 g2 =>
        rw [g2] at a0
        simp only [List.getElem?_cons_zero, List.getElem?_cons_succ, Option.some.injEq] at a0
        first
        | exact out (j + 1) (.inl ⟨m, by rw [g1, a0]⟩)
        | exact hn (ih a0)
      | _ => simp_all
    obtain ⟨-, -, hq⟩ := leads r (hf .worker) (fun s => s.whole.hub.worker = .waiting) (fun _ => False) h
      (fun j' l hj' h1 he => by
        rcases worker_only (run_at r j').line (run_step r he) with h | ⟨h, h'⟩
        · exact (pop j' l (by omega) h1 he h).elim
        · exact .inl (h.trans h1))
      (fun j' hj' h1 => by
        obtain ⟨u1, u2⟩ := hu j'
        obtain ⟨tr, hi⟩ := (run_at r j').inv
        have hall := all j' (by omega)
        cases hbuf : ((r.state j').whole.hub.resp.chans 0).buf with
        | nil => simp [hbuf] at hall
        | cons x rest =>
          obtain ⟨x, mx⟩ := x
          exact ⟨_, _, .answer x, .whole _ _ rfl (.pass _ _ u1 rfl (.receive x mx _ u2 h1 (.received 0 0 _ _ (by rw [hi.resp.made]; decide)
            (.received 0 _ rest hi.resp.up (hi.eyes.2 h1) hbuf))))⟩)
      (fun j' l hj' h1 he h => pop j' l (by omega) h1 he h)
    exact hq

/-- Request `n` has left the engine behind. -/
structure Past (h : Hub.Sys) (n : Nat) : Prop where
  req : leftIn b!"engine" h.req n = 0
  engine : ∀ m, h.engine ≠ .has (n, m)
  next : n < h.next

theorem next_step {h h' : Hub.Sys} {e : Hub.Ev} (hs : Hub.Step h e h') : h.next ≤ h'.next := by
  cases hs <;> simp

theorem req_zero {h h' : Hub.Sys} {e : Hub.Ev} {tr : List Pipe.Ev} {n : Nat} (hl : Lone b!"engine" 0 h.req) (hi : HubInv tr h) (hn : n < h.next)
    (h0 : leftIn b!"engine" h.req n = 0) (hs : Hub.Step h e h') : leftIn b!"engine" h'.req n = 0 := by
  rcases req_step hl hi hn hs with ⟨-, h⟩ | ⟨-, -, h, -⟩
  · exact h
  · omega

theorem past_step {h h' : Hub.Sys} {e : Hub.Ev} {tr : List Pipe.Ev} {n : Nat} (hl : Lone b!"engine" 0 h.req) (hi : HubInv tr h) (hp : Past h n)
    (hs : Hub.Step h e h') : Past h' n :=
  ⟨req_zero hl hi hp.next hp.req hs, no_return hl hi hp.req hp.engine hs, Nat.lt_of_lt_of_le hp.next (next_step hs)⟩

theorem hubEv_eq {e : Full.Ev} {he he' : Hub.Ev} (h : hubEv e = some he) (h' : hubEv e = some he') : he' = he := by
  rw [h] at h'
  exact (Option.some.inj h').symm

/-- From within the topic of the replies. -/
theorem resp_settles (hf : r.FairToAll) (hu : ∀ j, (r.state j).up) (hh : ¬ r.Holds) {n : Nat} (k : Nat) : ∀ {i : Nat},
    leftIn b!"server" (r.state i).whole.hub.resp n = k → 0 < k → Past (r.state i).whole.hub n → r.Settles n := by
  induction k using Nat.strong_induction_on with
  | _ k ih =>
    intro i hk hpos hpa
    by_contra hn
    -- nothing but its goroutine moves it
    have step : ∀ j l, leftIn b!"server" (r.state j).whole.hub.resp n = k ∧ Past (r.state j).whole.hub n → r.ev j = some l →
        (leftIn b!"server" (r.state (j + 1)).whole.hub.resp n = k ∧ Past (r.state (j + 1)).whole.hub n) ∧
          (3 ≤ k → ¬ DoneBy (.spread true n) l) ∧ ¬ DoneBy (.send true n) l := by
      rintro j l ⟨h1, h2⟩ he
      obtain ⟨p, -, hp⟩ := (run_at r j).pipe
      obtain ⟨tr, hi⟩ := (run_at r j).inv
      rcases hub_of (run_step r he) with ⟨g0, g⟩ | ⟨e, g1, g2, g3⟩
      · rw [g]
        refine ⟨⟨h1, h2⟩, fun _ hd => ?_, fun hd => ?_⟩ <;> cases hd <;> simp [inTopic, onTheWay, hubEv] at g0
      · have hpa := past_step hp.req hi h2 g2
        rcases resp_step hp.resp hi h2.engine g2 with ⟨rfl | rfl, g⟩ | ⟨q1, q2, q3, q4, q5, q6⟩
        · obtain ⟨m, hm⟩ := queued_step hp.resp g2
          obtain ⟨k', hk'⟩ := List.getElem?_of_mem hm
          exact absurd (buffer_settles hf hu hh k' hk') hn
        · exact absurd (settles_of (n := n) (f := .unqueued) he (by rw [g3]; simp [seenOf, fatesOf])) hn
        · rw [h1] at q3 q4 q5 q6
          have less : ¬ leftIn b!"server" (r.state (j + 1)).whole.hub.resp n < k := fun hlt => hn (ih _ hlt rfl (q4.2 hpos) hpa)
          refine ⟨⟨by omega, hpa⟩, fun h3 hd => ?_, fun hd => ?_⟩
          · cases hd with
            | spread _ _ x hx => exact less (q5 x (hubEv_eq rfl g1) hx h3)
          · cases hd with
            | call _ _ m => exact less (q6 m (hubEv_eq rfl g1))
            | queue => exact q1 (hubEv_eq rfl g1)
            | unqueue => exact q2 (hubEv_eq rfl g1)
    have stay : ∀ j, i ≤ j → leftIn b!"server" (r.state j).whole.hub.resp n = k ∧ Past (r.state j).whole.hub n := fun j hj =>
      lasts r (fun s => leftIn b!"server" s.whole.hub.resp n = k ∧ Past s.whole.hub n) ⟨hk, hpa⟩ (fun j l _ h he => (step j l h he).1) hj
    by_cases h3 : 3 ≤ k
    · obtain ⟨j, l, h1, h2, h4⟩ := hf (.spread true n) i fun j hj => by
        obtain ⟨u1, u2⟩ := hu j
        obtain ⟨tr, hi⟩ := (run_at r j).inv
        obtain ⟨x, w, g1, g2⟩ := can_spread hi.resp (by rw [(stay j hj).1]; exact h3)
        exact ⟨_, _, .spread true n x g1, .whole _ _ rfl (.bus _ _ u1 rfl (.responses _ w u2 rfl g2))⟩
      exact (step j l (stay j h1) h2).2.1 h3 h4
    · obtain ⟨j, l, h1, h2, h4⟩ := hf (.send true n) i fun j hj => by
        obtain ⟨u1, u2⟩ := hu j
        obtain ⟨tr, hi⟩ := (run_at r j).inv
        obtain ⟨p, -, hp⟩ := (run_at r j).pipe
        have hst := (stay j hj).1
        by_cases h2 : k = 2
        · obtain ⟨m, w, g⟩ := can_call hp.resp hi.resp (hst.trans h2)
          exact ⟨_, _, .call true n m, .whole _ _ rfl (.bus _ _ u1 rfl (.responses _ w u2 rfl g))⟩
        · obtain ⟨name, m, w, g⟩ := can_expire hp.resp hi.resp (hst.trans (by omega))
          exact ⟨_, _, .unqueue n, .whole _ _ rfl (.pass _ _ u1 rfl (.unqueue n name m w u2 g))⟩
      exact (step j l (stay j h1) h2).2.2 h4

variable {a0 : DB}

/-- From the engine. -/
theorem engine_settles (h0 : Abs st a0) (hf : r.FairToAll) (hu : ∀ j, (r.state j).up) (hh : ¬ r.Holds)
    (ho : ∀ j, ∀ x ∈ executedOf (pipeOf (seenIn (r.until j))), x.2.1.ord.Fair) {n i : Nat} {m : Msg}
    (hm : (r.state i).whole.hub.engine = .has (n, m)) (hz : leftIn b!"engine" (r.state i).whole.hub.req n = 0) (hnx : n < (r.state i).whole.hub.next) :
    r.Settles n := by
  by_contra hn
  have step : ∀ j l, ((r.state j).whole.hub.engine = .has (n, m) ∧ leftIn b!"engine" (r.state j).whole.hub.req n = 0 ∧ n < (r.state j).whole.hub.next) →
      r.ev j = some l → ((r.state (j + 1)).whole.hub.engine = .has (n, m) ∧ leftIn b!"engine" (r.state (j + 1)).whole.hub.req n = 0 ∧
        n < (r.state (j + 1)).whole.hub.next) ∧ (DoneBy .engine l → (r.state j).whole.begun = none ∧ (r.state (j + 1)).whole.begun ≠ none) ∧
        ((r.state j).whole.begun ≠ none → (r.state (j + 1)).whole.begun ≠ none) := by
    rintro j l ⟨h1, h2, h3⟩ he
    obtain ⟨p, -, hp⟩ := (run_at r j).pipe
    obtain ⟨tr, hi⟩ := (run_at r j).inv
    have hq : leftIn b!"engine" (r.state (j + 1)).whole.hub.req n = 0 ∧ n < (r.state (j + 1)).whole.hub.next := by
      rcases hub_of (run_step r he) with ⟨-, g⟩ | ⟨e, g1, g2, g3⟩
      · rw [g]; exact ⟨h2, h3⟩
      · exact ⟨req_zero hp.req hi h3 h2 g2, Nat.lt_of_lt_of_le h3 (next_step g2)⟩
    have does : DoneBy .engine l → (r.state (j + 1)).whole.hub.engine = .has (n, m) ∧ (r.state j).whole.begun = none ∧ (r.state (j + 1)).whole.begun ≠ none := by
      intro hd
      rcases engine_does (run_step r he) (hu (j + 1)) hd h1 with g | g | ⟨g1, g2⟩
      · exact g
      · exact absurd (settles_of (n := n) (f := .ignored) he (by rw [g]; simp [fatesOf])) hn
      · exact absurd (resp_settles hf hu hh _ rfl g2 ⟨hq.1, by simp [g1], hq.2⟩) hn
    rcases engine_only (run_step r he) with g | ⟨g1, g2⟩
    · exact ⟨⟨(does g).1, hq⟩, fun hd => (does hd).2, fun _ => (does g).2.2⟩
    · exact ⟨⟨g1.trans h1, hq⟩, fun hd => (does hd).2, fun h => by rw [g2]; exact h⟩
  have stay : ∀ j, i ≤ j → (r.state j).whole.hub.engine = .has (n, m) ∧ leftIn b!"engine" (r.state j).whole.hub.req n = 0 ∧
      n < (r.state j).whole.hub.next := fun j hj =>
    lasts r (fun s => s.whole.hub.engine = .has (n, m) ∧ leftIn b!"engine" s.whole.hub.req n = 0 ∧ n < s.whole.hub.next) ⟨hm, hz, hnx⟩
      (fun j l _ h he => (step j l h he).1) hj
  -- it is parsed
  obtain ⟨k, hk, hb⟩ : ∃ k, i ≤ k ∧ (r.state k).whole.begun ≠ none := by
    by_contra hnb
    have hnb : ∀ j, i ≤ j → (r.state j).whole.begun = none := fun j hj => by
      by_contra h
      exact hnb ⟨j, hj, h⟩
    obtain ⟨j, l, h1, h2, h3⟩ := hf .engine i fun j hj => by
      obtain ⟨u1, u2⟩ := hu j
      cases hp : Pipe.parseRequest m with
      | none => exact ⟨_, _, .ignore n, .whole _ _ rfl (.pass _ _ u1 rfl (.ignore n m u2 (stay j hj).1 hp))⟩
      | some x =>
        obtain ⟨id, objs⟩ := x
        exact ⟨_, _, .receive (stamp0, objs), .whole _ _ rfl (.receive n m id (stamp0, objs) u1 u2 (stay j hj).1 hp (hnb j hj))⟩
    exact ((step j l (stay j h1) h2).2.1 h3).2 (hnb (j + 1) (by omega))
  -- and executed
  have hb : ∀ j, k ≤ j → (r.state j).whole.begun ≠ none := fun j hj =>
    (lasts r (fun s => (s.whole.hub.engine = .has (n, m) ∧ leftIn b!"engine" s.whole.hub.req n = 0 ∧ n < s.whole.hub.next) ∧ s.whole.begun ≠ none)
      ⟨stay k hk, hb⟩ (fun j l _ h he => ⟨(step j l h.1 he).1, (step j l h.1 he).2.2 h.2⟩) hj).2
  obtain ⟨j, l, h1, h2, h3⟩ := hf .engine k fun j hj => by
    obtain ⟨u1, u2⟩ := hu j
    obtain ⟨g1, -⟩ := stay j (by omega)
    obtain ⟨p, hp, hs⟩ := (run_at r j).pipe
    obtain ⟨htr, hx⟩ := (run_at r j).hub
    obtain ⟨-, a, -, -, ha⟩ := C46_sequential h0 hp (ho j)
    rw [hs.db] at ha
    cases hq : (r.state j).whole.begun with
    | none => exact absurd hq (hb j hj)
    | some q =>
      obtain ⟨n', m', id, e1, e2⟩ := (run_at r j).begun q hq
      rw [g1] at e1
      cases e1
      cases hh : handle env0 (r.state j).whole.hub.db q.2 with
      | ok z =>
        obtain ⟨z1, z2⟩ := z
        obtain ⟨h', g⟩ := (C80_no_wait hx u2).2 n m id q.2 env0 z1 z2 g1 e2 hh
        exact ⟨_, _, .execute n env0 z2, .whole _ _ rfl (.execute n env0 z2 h' u1 (hb j hj) g)⟩
      | panic => exact ⟨_, _, .crash n env0, .whole _ _ rfl (.crash n env0 _ u1 (hb j hj) (.crash n m id q.2 env0 u2 g1 e2 hh))⟩
      | diverge => exact absurd hh (C27_no_divergence ha env0_fair)
  exact hb j h1 ((step j l (stay j (by omega)) h2).2.1 h3).1

/-- From within the topic of the requests. -/
theorem req_settles (h0 : Abs st a0) (hf : r.FairToAll) (hu : ∀ j, (r.state j).up) (hh : ¬ r.Holds)
    (ho : ∀ j, ∀ x ∈ executedOf (pipeOf (seenIn (r.until j))), x.2.1.ord.Fair) {n : Nat} (k : Nat) : ∀ {i : Nat},
    leftIn b!"engine" (r.state i).whole.hub.req n = k → 0 < k → n < (r.state i).whole.hub.next → r.Settles n := by
  induction k using Nat.strong_induction_on with
  | _ k ih =>
    intro i hk hpos hnx
    by_contra hn
    have step : ∀ j l, leftIn b!"engine" (r.state j).whole.hub.req n = k ∧ n < (r.state j).whole.hub.next → r.ev j = some l →
        (leftIn b!"engine" (r.state (j + 1)).whole.hub.req n = k ∧ n < (r.state (j + 1)).whole.hub.next) ∧
          (3 ≤ k → ¬ DoneBy (.spread false n) l) ∧ ¬ DoneBy (.send false n) l := by
      rintro j l ⟨h1, h2⟩ he
      obtain ⟨p, -, hp⟩ := (run_at r j).pipe
      obtain ⟨tr, hi⟩ := (run_at r j).inv
      rcases hub_of (run_step r he) with ⟨g0, g⟩ | ⟨e, g1, g2, g3⟩
      · rw [g]
        refine ⟨⟨h1, h2⟩, fun _ hd => ?_, fun hd => ?_⟩ <;> cases hd <;> simp [inTopic, onTheWay, hubEv] at g0
      · have hnx := Nat.lt_of_lt_of_le h2 (next_step g2)
        rcases req_step hp.req hi h2 g2 with ⟨rfl | rfl, g⟩ | ⟨q1, q2, q3, q4, q5, q6⟩
        · obtain ⟨m, hm⟩ := taken_step hp.req g2
          exact absurd (engine_settles h0 hf hu hh ho hm g hnx) hn
        · exact absurd (settles_of (n := n) (f := .dropped) he (by rw [g3]; simp [seenOf, fatesOf])) hn
        · rw [h1] at q3 q4 q5 q6
          have less : ¬ leftIn b!"engine" (r.state (j + 1)).whole.hub.req n < k := fun hlt => hn (ih _ hlt rfl (q4.2 hpos) hnx)
          refine ⟨⟨by omega, hnx⟩, fun h3 hd => ?_, fun hd => ?_⟩
          · cases hd with
            | spread _ _ x hx => exact less (q5 x (hubEv_eq rfl g1) hx h3)
          · cases hd with
            | call _ _ m => exact less (q6 m (hubEv_eq rfl g1))
            | hand => exact q1 (hubEv_eq rfl g1)
            | drop => exact q2 (hubEv_eq rfl g1)
    have stay : ∀ j, i ≤ j → leftIn b!"engine" (r.state j).whole.hub.req n = k ∧ n < (r.state j).whole.hub.next := fun j hj =>
      lasts r (fun s => leftIn b!"engine" s.whole.hub.req n = k ∧ n < s.whole.hub.next) ⟨hk, hnx⟩ (fun j l _ h he => (step j l h he).1) hj
    by_cases h3 : 3 ≤ k
    · obtain ⟨j, l, h1, h2, h4⟩ := hf (.spread false n) i fun j hj => by
        obtain ⟨u1, u2⟩ := hu j
        obtain ⟨tr, hi⟩ := (run_at r j).inv
        obtain ⟨x, w, g1, g2⟩ := can_spread hi.req (by rw [(stay j hj).1]; exact h3)
        exact ⟨_, _, .spread false n x g1, .whole _ _ rfl (.bus _ _ u1 rfl (.requests _ w u2 rfl g2))⟩
      exact (step j l (stay j h1) h2).2.1 h3 h4
    · obtain ⟨j, l, h1, h2, h4⟩ := hf (.send false n) i fun j hj => by
        obtain ⟨u1, u2⟩ := hu j
        obtain ⟨tr, hi⟩ := (run_at r j).inv
        obtain ⟨p, -, hp⟩ := (run_at r j).pipe
        have hst := (stay j hj).1
        by_cases h2 : k = 2
        · obtain ⟨m, w, g⟩ := can_call hp.req hi.req (hst.trans h2)
          exact ⟨_, _, .call false n m, .whole _ _ rfl (.bus _ _ u1 rfl (.requests _ w u2 rfl g))⟩
        · obtain ⟨name, m, w, g⟩ := can_expire hp.req hi.req (hst.trans (by omega))
          exact ⟨_, _, .drop n, .whole _ _ rfl (.pass _ _ u1 rfl (.drop n name m w u2 g))⟩
      exact (step j l (stay j h1) h2).2.2 h4

theorem read_seen {e : Full.Ev} {c n : Nat} {o : Resp} (hs : Full.Step ω s e s') (h : .read c n o ∈ seenIn [e]) :
    0 < leftIn b!"engine" s'.whole.hub.req n ∧ n < s'.whole.hub.next := by
  cases hs with
  | read c' n' o' w x hw hx =>
    simp [seenIn, wholeOf, netOf] at h
    obtain ⟨rfl, rfl, rfl⟩ := h
    obtain ⟨_, h', -, g, rfl⟩ := whole_read hw
    cases g with
    | read _ id _ w _ _ g4 =>
      cases g4 with
      | publish _ _ t ht => cases ht; simp [leftIn, upd_same, leftOf, Topic.Dist.new]
  | whole e w h1 h2 => cases e <;> simp_all [seenIn, wholeOf, netOf, Full.apart]; simp [← h] at h1
  | _ => simp [seenIn, wholeOf, netOf] at h

/-- When a request is read. -/
theorem asked_at {n : Nat} (h : r.Asks n) : ∃ i, 0 < leftIn b!"engine" (r.state i).whole.hub.req n ∧ n < (r.state i).whole.hub.next := by
  obtain ⟨i, c, o, h⟩ := h
  induction i with
  | zero => simp [Run.until, seenIn, wholeOf, netOf] at h
  | succ i ih =>
    rw [until_succ] at h
    cases he : r.ev i with
    | none => simp [he] at h; exact ih h
    | some e =>
      simp only [he, Option.toList_some, seenIn, wholeOf_append, netOf_append, List.mem_append] at h
      rcases h with h | h
      · exact ih h
      · exact ⟨i + 1, read_seen (run_step r he) h⟩

theorem until_mono (r : Run (Full.Step ω) (Full.new d st)) (j k : Nat) {x : Nat × Fate} (h : x ∈ fatesOf (pipeOf (seenIn (r.until j)))) :
    x ∈ fatesOf (pipeOf (seenIn (r.until (j + k)))) := by
  induction k with
  | zero => exact h
  | succ k ih =>
    rw [← Nat.add_assoc, until_succ]
    simp only [seenIn, wholeOf_append, netOf_append, pipeOf_append, fatesOf_append, List.mem_append] at ih ⊢
    exact .inl ih

/-- C88: in an execution without end in which the process lives, no goroutine on the way of the requests is forgotten and the response worker is not
held for ever in one call of `Write`, every request that is read meets its fate. -/
theorem C88_settles_partial (h0 : Abs st a0) (hf : r.FairToAll) (hu : r.Lives) (ho : r.Sane) (hh : ¬ r.Holds) {n : Nat} (hn : r.Asks n) : r.Settles n := by
  obtain ⟨i, h1, h2⟩ := asked_at hn
  exact req_settles h0 hf hu hh ho _ rfl h1 h2

theorem mem_asked {tr : List Net.Ev} {n c : Nat} {o : Resp} (h : (n, o) ∈ askedBy c tr) : .read c n o ∈ tr := by
  induction tr with
  | nil => simp [askedBy] at h
  | cons e tr ih => cases e <;> simp only [askedBy] at h <;> grind

theorem asked_mem {tr : List Net.Ev} {n c : Nat} {o : Resp} (h : .read c n o ∈ tr) : (n, o) ∈ askedBy c tr := by
  induction tr with
  | nil => cases h
  | cons e tr ih => cases e <;> simp only [askedBy] <;> grind

/-- C88: and if it is held, there is a request that does not. -/
theorem C88_held (hh : r.Holds) : ∃ n, r.Asks n ∧ ¬ r.Settles n := by
  obtain ⟨i, c, b, h⟩ := hh
  have hp : ∀ j, i ≤ j → ((r.state j).lines c).pcs 1 = .writeReset b ∨ ((r.state j).lines c).pcs 1 = .writing b := by
    intro j hj
    rcases h with h | h
    · exact .inl (h j hj).1
    · exact .inr (h.1 j hj)
  have same : ∀ j, i ≤ j → ((r.state (j + 1)).lines c).pcs 1 = ((r.state j).lines c).pcs 1 := by
    intro j hj
    rcases h with h | h
    · rw [(h j hj).1, (h (j + 1) (by omega)).1]
    · rw [h.1 j hj, h.1 (j + 1) (by omega)]
  have hw : ∀ j, i ≤ j → ∃ n, (r.state j).whole.hub.worker = .writing n c b := by
    intro j hj
    rcases ((run_at r j).line c).writer with g | ⟨b', n, g, g'⟩
    · have := hp j hj; simp [g] at this
    · have := hp j hj
      rcases g with g | g <;> simp [g] at this <;> subst this <;> exact ⟨n, g'⟩
  obtain ⟨n, hn⟩ := hw i (Nat.le_refl i)
  have all : ∀ j, i ≤ j → (r.state j).whole.hub.worker = .writing n c b := by
    intro j hj
    refine lasts r (fun s => s.whole.hub.worker = .writing n c b) hn ?_ hj
    intro j l hj h1 he
    rcases worker_only (run_at r j).line (run_step r he) with g | ⟨g, -⟩
    · obtain ⟨n', hn'⟩ := hw (j + 1) (by omega)
      have := same j hj
      have := hp j hj
      cases worker_does (run_at r j).line (run_step r he) g <;> simp_all
    · exact g.trans h1
  have way : ∀ j, i ≤ j → ∃ p, Exec Pipe.Step (Pipe.new st) (pipeOf (seenIn (r.until j))) p ∧ p.worker = some (n, c, b) := by
    intro j hj
    obtain ⟨p, hp, hs⟩ := (run_at r j).pipe
    have := hs.worker
    rw [all j hj] at this
    exact ⟨p, hp, this⟩
  refine ⟨n, ?_, ?_⟩
  · obtain ⟨p, hp, hs⟩ := way i (Nat.le_refl i)
    have h1 := fate_count hp n
    have h2 : 0 < cnt p.worker.toList n := cnt_pos.2 ⟨(c, b), by simp [hs]⟩
    obtain ⟨⟨c', o⟩, hm⟩ := cnt_pos.1 (show 0 < cnt (requestsOf (pipeOf (seenIn (r.until i)))) n by omega)
    exact ⟨i, c', o, mem_asked ((mem_askedBy (run_at r i).plain).2 hm)⟩
  · rintro ⟨j, f, hj⟩
    by_cases hij : i ≤ j
    · obtain ⟨p, hp, hs⟩ := way j hij
      exact ((C67_fate hp).2.1 n f hj).2 (.inr (.inr (.inr (.inr ⟨c, b, hs⟩))))
    · obtain ⟨p, hp, hs⟩ := way i (Nat.le_refl i)
      refine ((C67_fate hp).2.1 n f ?_).2 (.inr (.inr (.inr (.inr ⟨c, b, hs⟩))))
      obtain ⟨k, rfl⟩ : ∃ k, i = j + k := ⟨i - j, by omega⟩
      exact until_mono r j k hj

/-- C88: exactly then does every request meet its fate. -/
theorem C88_exact (h0 : Abs st a0) (hf : r.FairToAll) (hu : r.Lives) (ho : r.Sane) : (∀ n, r.Asks n → r.Settles n) ↔ ¬ r.Holds :=
  ⟨fun h hh => by
    obtain ⟨n, h1, h2⟩ := C88_held hh
    exact h2 (h n h1), fun hh _ hn => C88_settles_partial h0 hf hu ho hh hn⟩

theorem ignored_mem {tr : List Pipe.Ev} {n : Nat} : (n, .ignored) ∈ fatesOf tr ↔ .ignored n ∈ tr := by
  induction tr with
  | nil => simp [fatesOf]
  | cons e tr ih => cases e <;> simp [fatesOf, ih]

theorem dropped_mem {tr : List Pipe.Ev} {n : Nat} : (n, .dropped) ∈ fatesOf tr ↔ .dropped n ∈ tr := by
  induction tr with
  | nil => simp [fatesOf]
  | cons e tr ih => cases e <;> simp [fatesOf, ih]

theorem unqueued_mem {tr : List Pipe.Ev} {n : Nat} : (n, .unqueued) ∈ fatesOf tr ↔ .unqueued n ∈ tr := by
  induction tr with
  | nil => simp [fatesOf]
  | cons e tr ih => cases e <;> simp [fatesOf, ih]

theorem refused_mem {tr : List Pipe.Ev} {n : Nat} : (n, .refused) ∈ fatesOf tr ↔ ∃ c, .refused c n ∈ tr := by
  induction tr with
  | nil => simp [fatesOf]
  | cons e tr ih => cases e <;> simp [fatesOf, ih]; grind

theorem answered_mem {tr : List Pipe.Ev} {n : Nat} : (n, .answered) ∈ fatesOf tr ↔ ∃ c b, .wrote c n b ∈ tr := by
  induction tr with
  | nil => simp [fatesOf]
  | cons e tr ih => cases e <;> simp [fatesOf, ih]; grind

/-- Only what is not an array is ignored. -/
theorem ignored_array {tr : List Pipe.Ev} {p : Pipe.Sys} (h : Exec Pipe.Step (Pipe.new st) tr p) {n : Nat} (hn : .ignored n ∈ tr) :
    ∃ c o, (n, c, o) ∈ requestsOf tr ∧ Pipe.asArray o = none := by
  revert hn
  refine h.inv (P := fun tr _ => .ignored n ∈ tr → ∃ c o, (n, c, o) ∈ requestsOf tr ∧ Pipe.asArray o = none) (by simp) ?_
  intro tr s l s' hx ih hs hn
  rcases List.mem_append.1 hn with hn | hn
  · obtain ⟨c, o, h1, h2⟩ := ih hn
    exact ⟨c, o, by simp [requestsOf_append, h1], h2⟩
  · simp only [List.mem_singleton] at hn
    subst hn
    cases hs with
    | ignore _ m _ h1 h2 =>
      obtain ⟨c, id, o, g1, -, rfl⟩ := (pipeInv hx).req n m (by simp [h1])
      refine ⟨c, o, by simp [requestsOf_append, g1], ?_⟩
      rw [parseRequest_requestMap] at h2
      simpa using h2

/-- Who sent a request is known. -/
theorem asker_unique {tr : List Pipe.Ev} {p : Pipe.Sys} (h : Exec Pipe.Step (Pipe.new st) tr p) {n c c' : Nat} {o o' : Resp} (h1 : (n, c, o) ∈ requestsOf tr)
    (h2 : (n, c', o') ∈ requestsOf tr) : c = c' ∧ o = o' := by
  have := List.inj_on_of_nodup_map (C46_once h).1 h1 h2 rfl
  simpa using this

/-- What is refused is the reply to the request of that connection. -/
theorem refused_by {tr : List Pipe.Ev} {p : Pipe.Sys} (h : Exec Pipe.Step (Pipe.new st) tr p) {n c c' : Nat} {o : Resp} (hq : (n, c, o) ∈ requestsOf tr)
    (hn : .refused c' n ∈ tr) : c = c' := by
  revert hn hq
  refine h.inv (P := fun tr _ => (n, c, o) ∈ requestsOf tr → .refused c' n ∈ tr → c = c') (by simp) ?_
  intro tr s l s' hx ih hs hq hn
  have hx' := hx.snoc hs
  rcases List.mem_append.1 hn with hn | hn
  · have hd := ((C67_fate hx).2.1 n _ (refused_mem.2 ⟨c', hn⟩)).1
    obtain ⟨c2, o2, hd⟩ := hd
    obtain ⟨rfl, rfl⟩ := asker_unique (c' := c2) (o' := o2) hx' hq (by rw [requestsOf_append]; exact List.mem_append_left _ hd)
    exact ih hd hn
  · simp only [List.mem_singleton] at hn
    subst hn
    cases hs with
    | refuse _ _ b _ h1 =>
      obtain ⟨o2, _, _, g1, -⟩ := (pipeInv hx).work n c' b h1
      exact (asker_unique (c' := c') (o' := o2) hx' hq (by rw [requestsOf_append]; exact List.mem_append_left _ g1)).1

theorem asked_mono (r : Run (Full.Step ω) (Full.new d st)) (j k : Nat) {x : Net.Ev} (h : x ∈ seenIn (r.until j)) : x ∈ seenIn (r.until (j + k)) := by
  induction k with
  | zero => exact h
  | succ k ih =>
    rw [← Nat.add_assoc, until_succ, seenIn_append]
    exact List.mem_append_left _ ih

/-- C88: a command is answered, on the connection it came from and with the reply it got, if the process lives, no goroutine is forgotten, the response
worker is not held for ever, neither bus loses it, and nobody closes the connection and its client does not go away. -/
theorem C88_answered (h0 : Abs st a0) (hf : r.FairToAll) (hu : r.Lives) (ho : r.Sane) (hh : ¬ r.Holds) {i n c : Nat} {o : Resp} {objs : List Resp}
    (hn : .read c n o ∈ seenIn (r.until i)) (ha : ArrayOf o objs)
    (hb : ∀ j, .pipe (.dropped n) ∉ seenIn (r.until j) ∧ .pipe (.unqueued n) ∉ seenIn (r.until j))
    (hc : ∀ j, (∀ k, .closeWon k ∉ lineOf c (r.until j)) ∧ .client .gone ∉ lineOf c (r.until j)) :
    ∃ j env reply, .pipe (.executed n env reply) ∈ seenIn (r.until j) ∧ .pipe (.wrote c n reply.encode) ∈ seenIn (r.until j) := by
  obtain ⟨j, f, hj⟩ := C88_settles_partial h0 hf hu ho hh ⟨i, c, o, hn⟩
  have hj := until_mono r j i hj
  have hn := asked_mono r i j hn
  rw [Nat.add_comm] at hn
  have hat := run_at r (j + i)
  obtain ⟨p, hp, -⟩ := hat.pipe
  have hq : (n, c, o) ∈ requestsOf (pipeOf (seenIn (r.until (j + i)))) := (mem_askedBy hat.plain).1 (asked_mem hn)
  obtain ⟨b1, b2⟩ := hb (j + i)
  obtain ⟨c1, c2⟩ := hc (j + i)
  cases f with
  | dropped => exact absurd ((mem_pipeOf (by nofun)).1 (dropped_mem.1 hj)) b1
  | unqueued => exact absurd ((mem_pipeOf (by nofun)).1 (unqueued_mem.1 hj)) b2
  | ignored =>
    obtain ⟨c', o', g1, g2⟩ := ignored_array hp (ignored_mem.1 hj)
    obtain ⟨rfl, rfl⟩ := asker_unique hp hq g1
    rcases ha with rfl | ⟨rfl, -⟩ <;> simp [Pipe.asArray] at g2
  | refused =>
    obtain ⟨c', hm⟩ := refused_mem.1 hj
    have hcc : c = c' := refused_by hp hq hm
    subst hcc
    rcases C82_refused (run_exec r (j + i)) ((mem_pipeOf (by nofun)).1 hm) with ⟨k, g⟩ | g
    · exact absurd g (c1 k)
    · exact absurd g c2
  | answered =>
    obtain ⟨c', b, hm⟩ := answered_mem.1 hj
    obtain ⟨o', env, reply, g1, g2, rfl⟩ := (pipeInv hp).wrote n c' b (writtenOf_mem.1 hm)
    obtain ⟨rfl, rfl⟩ := asker_unique hp hq g1
    exact ⟨j + i, env, reply, (mem_pipeOf (by nofun)).1 (mem_executedOf.1 g2), (mem_pipeOf (by nofun)).1 hm⟩

/-! ### such executions -/

instance : Nonempty Goroutine := ⟨.engine⟩

instance : Countable Goroutine := by
  have : Function.Injective fun g : Goroutine => match g with
      | .spread b n => (0, b, n)
      | .send b n => (1, b, n)
      | .engine => ((2 : Nat), false, (0 : Nat))
      | .worker => (3, false, 0) := by
    intro a b h
    cases a <;> cases b <;> simp_all
  exact this.countable

/-- Nothing happens in a process that has ended. -/
theorem up_before {e : Full.Ev} (hs : Full.Step ω s e s') : s.up := by
  cases hs with
  | whole _ _ _ h | kill _ _ _ h => exact whole_up h
  | send _ _ _ _ _ _ h => exact whole_up h
  | read _ _ _ _ _ h | wrote _ _ _ _ _ h | fail _ _ _ _ _ h => exact whole_up h
  | refuse _ _ _ _ _ _ h | finish _ _ _ _ _ h => exact whole_up h
  | readCall _ _ h | cut _ _ h | closeCall _ _ h | writeCall _ _ _ _ h | own _ _ _ h => exact h

/-- Only an execution kills the process, and only what the engine has is executed. -/
theorem hub_runs {h h' : Hub.Sys} {e : Hub.Ev} (hs : Hub.Step h e h') : (∀ n env r, e = .seen (.executed n env r) → ∃ m, h.engine = .has m) ∧
    (∀ n env, e = .seen (.crash n env) → ∃ m, h.engine = .has m) ∧ (h'.crashed = true → ∃ n env, e = .seen (.crash n env)) := by
  cases hs <;> simp_all

/-- What the goroutines on the way do kills the process only when the engine executes something. -/
theorem up_after {g : Goroutine} {e : Full.Ev} (hs : Full.Step ω s e s') (hd : DoneBy g e) (hc : ∀ n env, e ≠ onTheWay (.crash n env)) : s'.up := by
  obtain ⟨u1, u2⟩ := up_before hs
  refine ⟨?_, ?_⟩
  · have hw : ∀ e w, Whole.Step ω s.whole e w → (∀ c, e ≠ .net (.feed c .crash)) → w.dead = false := by
      intro e w h h'
      cases h <;> first | exact u1 | exact absurd rfl (h' _)
    cases hs with
    | whole _ _ h1 h => exact hw _ _ h (by rintro c rfl; simp [Full.apart] at h1)
    | kill _ _ _ h => cases hd
    | send _ _ _ _ _ _ h => cases hd
    | read _ _ _ _ _ h => exact hw _ _ h (by simp)
    | wrote _ _ _ _ _ h | fail _ _ _ _ _ h => exact hw _ _ h (by simp)
    | refuse _ _ _ _ _ _ h => exact hw _ _ h (by simp)
    | finish _ _ _ _ _ h => cases hd
    | readCall | cut | closeCall | writeCall | own => exact u1
  · rcases hub_of hs with ⟨-, g⟩ | ⟨he, g1, g2, -⟩
    · rw [g]; exact u2
    · by_contra hcr
      obtain ⟨n, env, rfl⟩ := (hub_runs g2).2.2 (by simpa using hcr)
      cases hd with
      | spread b | call b => cases b <;> simp [inTopic, hubEv] at g1
      | crash n' env' => exact hc n' env' rfl
      | _ => simp [inTopic, onTheWay, hubEv] at g1

/-- What the goroutines on the way do is not a reader's. -/
theorem done_reads {g : Goroutine} {e : Full.Ev} (hd : DoneBy g e) : requestsOf (pipeOf (seenIn [e])) = [] := by
  cases hd with
  | spread b | call b => cases b <;> rfl
  | _ => rfl

theorem done_executes {g : Goroutine} {e : Full.Ev} (hd : DoneBy g e) (hx : ∀ n env r, e ≠ onTheWay (.executed n env r)) :
    executedOf (pipeOf (seenIn [e])) = [] := by
  cases hd with
  | spread b | call b => cases b <;> rfl
  | execute n env r => exact absurd rfl (hx n env r)
  | _ => rfl

theorem until_le (r : Run (Full.Step ω) (Full.new d st)) {j k : Nat} (h : j ≤ k) : ∃ t, r.until k = r.until j ++ t := by
  obtain ⟨k, rfl⟩ := Nat.exists_eq_add_of_le h
  induction k with
  | zero => exact ⟨[], by simp⟩
  | succ k ih =>
    obtain ⟨t, ht⟩ := ih (by omega)
    exact ⟨t ++ (r.ev (j + k)).toList, by rw [← Nat.add_assoc, until_succ, ht, List.append_assoc]⟩

/-- When all that was asked has been executed, the goroutines on the way of the requests can go on without any of them being forgotten, and without the
process being killed. -/
theorem calm {tr : List Full.Ev} (h : Exec (Full.Step ω) (Full.new d st) tr s) (hu : s.up)
    (hx : ∀ n c o, (n, c, o) ∈ requestsOf (pipeOf (seenIn tr)) → ∃ env r, env.ord.Fair ∧ (n, env, r) ∈ executedOf (pipeOf (seenIn tr))) :
    ∃ r : Run (Full.Step ω) (Full.new d st), r.until tr.length = tr ∧ r.state tr.length = s ∧ r.FairToAll ∧ r.Lives ∧ r.Sane ∧
      ∀ j l, tr.length ≤ j → r.ev j = some l → ∃ g, DoneBy g l := by
  obtain ⟨r, h1, h2, h3, h4⟩ := fair_run DoneBy h
  have inv : ∀ i, (r.state (tr.length + i)).up ∧ requestsOf (pipeOf (seenIn (r.until (tr.length + i)))) = requestsOf (pipeOf (seenIn tr)) ∧
      executedOf (pipeOf (seenIn (r.until (tr.length + i)))) = executedOf (pipeOf (seenIn tr)) := by
    intro i
    induction i with
    | zero => rw [Nat.add_zero, h1, h2]; exact ⟨hu, rfl, rfl⟩
    | succ i ih =>
      obtain ⟨i1, i2, i3⟩ := ih
      rw [← Nat.add_assoc, until_succ]
      cases he : r.ev (tr.length + i) with
      | none =>
        rcases r.next (tr.length + i) with ⟨l, g, -⟩ | ⟨-, g⟩
        · rw [he] at g; cases g
        · rw [g]; simpa using ⟨i1, i2, i3⟩
      | some l =>
        obtain ⟨g, hd⟩ := h4 _ _ (by omega) he
        have hs := run_step r he
        obtain ⟨p, hp, hsim⟩ := (run_at r (tr.length + i)).pipe
        have hen : ∀ m, (r.state (tr.length + i)).whole.hub.engine ≠ .has m := by
          intro m hm
          have hpe := hsim.engine
          rw [hm] at hpe
          have k1 := (pipeInv hp).one m.1
          have k2 := (pipeInv hp).reads m.1
          have k3 : 0 < cnt p.engine.toList m.1 := cnt_pos.2 ⟨m.2, by simp [hpe]⟩
          rw [i2, i3] at k1
          obtain ⟨⟨c, o⟩, k4⟩ := cnt_pos.1 (show 0 < cnt (requestsOf (pipeOf (seenIn tr))) m.1 by omega)
          obtain ⟨env, re, -, k5⟩ := hx _ _ _ k4
          have k6 : 0 < cnt (executedOf (pipeOf (seenIn tr))) m.1 := cnt_pos.2 ⟨_, k5⟩
          rw [i2] at k2
          omega
        have n1 : ∀ n env re, l ≠ onTheWay (.executed n env re) := by
          rintro n env re rfl
          rcases hub_of hs with ⟨g, -⟩ | ⟨e, g1, g2, -⟩
          · simp [onTheWay, hubEv] at g
          · simp [onTheWay, hubEv] at g1
            subst g1
            obtain ⟨m, hm⟩ := (hub_runs g2).1 _ _ _ rfl
            exact hen m hm
        have n2 : ∀ n env, l ≠ onTheWay (.crash n env) := by
          rintro n env rfl
          rcases hub_of hs with ⟨g, -⟩ | ⟨e, g1, g2, -⟩
          · simp [onTheWay, hubEv] at g
          · simp [onTheWay, hubEv] at g1
            subst g1
            obtain ⟨m, hm⟩ := (hub_runs g2).2.1 _ _ rfl
            exact hen m hm
        refine ⟨up_after hs hd n2, ?_, ?_⟩
        · rw [Option.toList_some, seenIn_append, pipeOf_append, requestsOf_append, i2, done_reads hd, List.append_nil]
        · rw [Option.toList_some, seenIn_append, pipeOf_append, executedOf_append, i3, done_executes hd n1, List.append_nil]
  refine ⟨r, h1, h2, h3, ?_, ?_, h4⟩
  · intro j
    by_contra hj
    have : ∀ k, r.state (j + k) = r.state j := by
      intro k
      induction k with
      | zero => rfl
      | succ k ih =>
        rcases r.next (j + k) with ⟨l, -, g⟩ | ⟨-, g⟩
        · rw [ih] at g
          exact absurd (up_before g) hj
        · rw [← Nat.add_assoc, g, ih]
    have k1 := this tr.length
    rw [Nat.add_comm] at k1
    exact hj (k1 ▸ (inv j).1)
  · intro j x hxx
    obtain ⟨t, ht⟩ := until_le r (show j ≤ tr.length + j by omega)
    have k1 : x ∈ executedOf (pipeOf (seenIn tr)) := by
      rw [← (inv j).2.2, ht, seenIn_append, pipeOf_append, executedOf_append]
      exact List.mem_append_left _ hxx
    obtain ⟨p, hp, -⟩ := (at_exec h).pipe
    obtain ⟨n, env, re⟩ := x
    obtain ⟨c, o, -, k2, -⟩ := (pipeInv hp).exe n env re k1
    obtain ⟨env', re', k3, k4⟩ := hx _ _ _ k2
    have := List.inj_on_of_nodup_map (C46_once hp).2.1 k1 k4 rfl
    simp only [Prod.mk.injEq] at this
    rw [this.2.1]
    exact k3

/-- A response worker that waits for an expire worker that has gone is held for ever. -/
theorem silenced_holds {i : Nat} (hq : Silenced (r.state i)) : r.Holds := by
  obtain ⟨c, b, hp, hl⟩ := hq
  obtain ⟨n, hw⟩ : ∃ n, (r.state i).whole.hub.worker = .writing n c b := by
    rcases ((run_at r i).line c).writer with h1 | ⟨b', n, h1 | h1, h2⟩
    · rw [hp] at h1; cases h1
    · rw [hp] at h1; cases h1; exact ⟨n, h2⟩
    · rw [hp] at h1; cases h1
  have := fun j (hj : i ≤ j) => lasts r (fun s => s.whole.hub.worker = .writing n c b ∧ (s.lines c).pcs 1 = .writeReset b ∧ (s.lines c).worker ≠ .selecting)
    ⟨hw, hp, hl⟩ (fun j e _ ⟨i1, i2, i3⟩ he => by
      have hs := run_step r he
      obtain ⟨g1, g2, -, g4⟩ := waiting_step i1 i2 hs (by
        intro hm
        have hl := (full_step hs).2 c
        have : lineOf c [e] = [.writeReset 1] := by
          rcases mem_lineOf.1 hm with h | ⟨w, h⟩ <;> simp only [List.mem_singleton] at h <;> subst h <;> simp [lineOf]
        rw [this] at hl
        have := exec_single hl
        generalize ((r.state (j + 1)).lines c) = y at this
        cases this
        exact i3 (by assumption))
      exact ⟨g1, g2, g4 i3⟩) hj
  exact ⟨i, c, b, .inl fun j hj => (this j hj).2⟩

/-- What the goroutines on the way do changes neither a client nor an expire worker. -/
theorem done_line {g : Goroutine} {e : Full.Ev} (hs : Full.Step ω s e s') (hd : DoneBy g e) (c : Nat) :
    (s'.lines c).client = (s.lines c).client ∧ (s'.lines c).worker = (s.lines c).worker ∧ (s'.lines c).sock = (s.lines c).sock ∧
      ∀ b, (s.lines c).pcs 1 = .writing b → (s.lines c).client = .stalled → (s.lines c).sock = false → (s'.lines c).pcs 1 = .writing b := by
  have h1 : ∀ x ∈ lineOf c [e], (∃ b, x = .writeCall 1 b ∨ x = .wrote 1 b ∨ x = .writeClosed 1 b ∨ x = .writeErr 1 b) ∨ x = .writeReset 1 := by
    intro x hx
    rcases mem_lineOf.1 hx with h | ⟨w, h⟩ <;> simp only [List.mem_singleton] at h <;> subst h <;> cases hd <;> simp
  refine ((full_step hs).2 c).inv (P := fun t x => (∀ y ∈ t, y ∈ lineOf c [e]) → x.client = (s.lines c).client ∧ x.worker = (s.lines c).worker ∧
      x.sock = (s.lines c).sock ∧ ∀ b, (s.lines c).pcs 1 = .writing b → (s.lines c).client = .stalled → (s.lines c).sock = false → x.pcs 1 = .writing b)
    (fun _ => ⟨rfl, rfl, rfl, fun _ h _ _ => h⟩) ?_
    (fun _ h => h)
  intro t x y x' _ ih hst hm
  have ih := ih fun z hz => hm z (List.mem_append_left _ hz)
  have := h1 y (hm y (by simp))
  obtain ⟨i1, i2, i3, i4⟩ := ih
  clear hs hd ih h1 hm
  cases hst <;> grind [upd]

/-- Every request that is read is dealt with in the end, if the process lives and no goroutine on the way is forgotten. -/
def InTheEnd : Prop := ∀ (ω : Nat → Nat) (d : Bytes) (r : Run (Full.Step ω) (Full.new d State.empty)), r.FairToAll → r.Lives → r.Sane →
  ∀ n, r.Asks n → r.Settles n

/-- C88: it is not so: when the timer of a connection has fired just before the response worker resets it, the reply is never written, nor any other. -/
theorem C88_false : ¬ InTheEnd := by
  intro hall
  obtain ⟨before, s, hx, hu, ho, hs, -⟩ := silenced_sample (fun _ => 0) []
  have hs' : seenIn (before ++ .line 7 (.writeCall 1 b!"$-1\r\n") :: [] ++ .line 7 .expired :: []) = twoAsked ++ [.pipe (.answering 0)] := by
    rw [seenIn_append, seenIn_append, hs]; rfl
  obtain ⟨r, h1, h2, h3, h4, h5, h6⟩ := calm hx hu (by
    rw [hs']
    intro n c o h
    simp [pipeOf, requestsOf] at h
    rcases h with ⟨rfl, rfl, rfl⟩ | ⟨rfl, rfl, rfl⟩ <;> exact ⟨env0, .nullBulk, env0_fair, by simp [pipeOf, executedOf]⟩)
  obtain ⟨n, k1, k2⟩ := C88_held (silenced_holds (r := r) (h2 ▸ (C83_silenced (.inl rfl) hx (by simp [lineOf])).1))
  exact k2 (hall _ _ r h3 h4 h5 n k1)

/-- A client stops reading while its reply is written. -/
theorem stalled_sample (ω : Nat → Nat) (d : Bytes) : ∃ tr s, Exec (Full.Step ω) (Full.new d State.empty) tr s ∧ s.up ∧
    seenIn tr = twoAsked ++ [.pipe (.answering 0)] ∧ (s.lines 7).pcs 1 = .writing b!"$-1\r\n" ∧ (s.lines 7).client = .stalled ∧
    (s.lines 7).sock = false ∧ ∀ c, (s.lines c).worker = .selecting := by
  obtain ⟨tr, s, h1, h2, h3, h4, h5, h6, h7, h8, h9⟩ := about_to_write ω d
  have s1 := Full.Step.writeCall (ω := ω) 0 7 _ _ h3 h4 (.writeCall 1 b!"$-1\r\n" (by decide) h7 h5.flag)
  have s2 := Full.Step.own (ω := ω) (s := { s with lines := upd s.lines 7 { s.lines 7 with pcs := upd (s.lines 7).pcs 1 (.writeReset b!"$-1\r\n") } }) 7
    (.writeReset 1) _ h3 h9 rfl (.writeReset 1 b!"$-1\r\n" (by simp [upd]) (by simpa [upd] using h5.worker))
  obtain ⟨s', x1, x2, x3, x4, x5, x6, x7⟩ : ∃ s', Exec (Full.Step ω) (Full.new d State.empty) (tr ++ [.line 7 (.writeCall 1 b!"$-1\r\n")] ++ [.line 7 (.writeReset 1)]) s' ∧
      s'.up ∧ s'.whole.hub.conns 7 ≠ none ∧ (s'.lines 7).pcs 1 = .writing b!"$-1\r\n" ∧ (s'.lines 7).client = .reads ∧ (s'.lines 7).sock = false ∧
      ∀ c, (s'.lines c).worker = .selecting := by
    refine ⟨_, (h1.snoc s1).snoc s2, h3, h9, by simp [upd], by simp [upd, h5.client], ?_, fun c => ?_⟩
    · simpa [upd] using ((connInv ((full_exec h1).2 7)).fresh h5.flag).2.1
    · by_cases hc : c = 7 ∨ c = 8
      · rcases hc with rfl | rfl
        · simp [upd, h5.worker]
        · simp [upd, h6.worker]
      · have := unconnected_line h1 (c := c) (by rw [h2]; simp; omega)
        have h7 : c ≠ 7 := by omega
        simp [upd, h7, this, Conn.new]
  have s3 := Full.Step.own (ω := ω) 7 (.client .stalled) _ x2 x3 rfl (.client .stalled (by simp [x5]))
  refine ⟨_, _, x1.snoc s3, x2, ?_, by simpa [upd] using x4, by simp [upd], by simpa [upd] using x6, fun c => ?_⟩
  · rw [seenIn_append, seenIn_append, seenIn_append, h2]; rfl
  · by_cases hc : c = 7
    · subst hc; simpa [upd] using x7 7
    · simpa [upd, hc] using x7 c

/-- C88: one client that stops reading while its reply is written is enough, while every expire worker is there. -/
theorem C88_stalled (ω : Nat → Nat) (d : Bytes) : ∃ r : Run (Full.Step ω) (Full.new d State.empty), r.FairToAll ∧ r.Lives ∧ r.Sane ∧
    (∀ j c, ((r.state j).lines c).worker = .selecting) ∧ ∃ n, r.Asks n ∧ ¬ r.Settles n := by
  obtain ⟨tr, s, hx, hu, hseen, k1, k2, k3, k4⟩ := stalled_sample ω d
  obtain ⟨r, g1, g2, g3, g4, g5, g6⟩ := calm hx hu (by
    rw [hseen]
    intro n c o h
    simp [pipeOf, requestsOf] at h
    rcases h with ⟨rfl, rfl, rfl⟩ | ⟨rfl, rfl, rfl⟩ <;> exact ⟨env0, .nullBulk, env0_fair, by simp [pipeOf, executedOf]⟩)
  let P : Full.Sys → Prop := fun s => (s.lines 7).pcs 1 = .writing b!"$-1\r\n" ∧ (s.lines 7).client = .stalled ∧ (s.lines 7).sock = false ∧
    ∀ c, (s.lines c).worker = .selecting
  have all : ∀ j, tr.length ≤ j → P (r.state j) := by
    intro j hj
    refine lasts r P (g2 ▸ ⟨k1, k2, k3, k4⟩) ?_ hj
    intro j l hj ⟨i1, i2, i3, i4⟩ he
    obtain ⟨g, hd⟩ := g6 j l hj he
    have hdl := done_line (run_step r he) hd
    exact ⟨(hdl 7).2.2.2 _ i1 i2 i3, (hdl 7).1.trans i2, (hdl 7).2.2.1.trans i3, fun c => (hdl c).2.1.trans (i4 c)⟩
  refine ⟨r, g3, g4, g5, ?_, C88_held ⟨tr.length, 7, b!"$-1\r\n", .inr ⟨fun j hj => (all j hj).1, fun j hj => ⟨j, Nat.le_refl j, (all j hj).2.1⟩⟩⟩⟩
  intro j c
  by_contra hj
  have := lasts r (fun s => (s.lines c).worker ≠ .selecting) hj (fun j l _ h he => never_select (run_step r he) c h) (show j ≤ tr.length + j by omega)
  exact this ((all _ (by omega)).2.2.2 c)

/-- The hypotheses of `C88_settles_partial`, `C88_answered` and `C88_exact` can be met: the replies to two clients have yet to be written. -/
example (ω : Nat → Nat) (d : Bytes) : ∃ (r : Run (Full.Step ω) (Full.new d State.empty)) (i : Nat), r.FairToAll ∧ r.Lives ∧ r.Sane ∧ ¬ r.Holds ∧
    .read 7 0 (.array (req [b!"get", b!"k"])) ∈ seenIn (r.until i) ∧ .read 8 1 (.array (req [b!"get", b!"k"])) ∈ seenIn (r.until i) ∧
    fatesOf (pipeOf (seenIn (r.until i))) = [] := by
  obtain ⟨tr, s, h1, h2, h3, h4, h5, h6, -⟩ := about_to_write ω d
  obtain ⟨r, g1, g2, g3, g4, g5, g6⟩ := calm h1 h3 (by
    rw [h2]
    intro n c o h
    simp [pipeOf, requestsOf] at h
    rcases h with ⟨rfl, rfl, rfl⟩ | ⟨rfl, rfl, rfl⟩ <;> exact ⟨env0, .nullBulk, env0_fair, by simp [pipeOf, executedOf]⟩)
  refine ⟨r, tr.length, g3, g4, g5, ?_, by rw [g1, h2]; simp, by rw [g1, h2]; simp, by rw [g1, h2]; simp [pipeOf, fatesOf]⟩
  have good : ∀ c, (s.lines c).client = .reads ∧ (s.lines c).worker = .selecting := by
    intro c
    by_cases hc : c = 7 ∨ c = 8
    · rcases hc with rfl | rfl
      · exact ⟨h5.client, h5.worker⟩
      · exact ⟨h6.client, h6.worker⟩
    · rw [unconnected_line h1 (c := c) (by rw [h2]; simp; omega)]
      exact ⟨rfl, rfl⟩
  have all : ∀ j, tr.length ≤ j → ∀ c, ((r.state j).lines c).client = .reads ∧ ((r.state j).lines c).worker = .selecting := by
    intro j hj
    refine lasts r (fun s => ∀ c, (s.lines c).client = .reads ∧ (s.lines c).worker = .selecting) (g2 ▸ good) ?_ hj
    intro j l hj h he c
    obtain ⟨g, hd⟩ := g6 j l hj he
    have := done_line (run_step r he) hd c
    rw [this.1, this.2.1]
    exact h c
  rintro ⟨i, c, b, h | ⟨h, h'⟩⟩
  · exact (h (tr.length + i) (by omega)).2 (all _ (by omega) c).2
  · obtain ⟨k, hk, hcl⟩ := h' (tr.length + i) (by omega)
    rw [(all k (by omega) c).1] at hcl
    cases hcl

end Verif.Props
