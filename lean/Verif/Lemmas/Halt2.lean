import Verif.Lemmas.Halt

/-! Stopping a process. -/

namespace Verif

open Spec
open Fut (upd)

variable {m : Bool} {ω : Nat → Nat} {d : Bytes} {st : State}

theorem allowed_flushed (s : Proc.Sys) : Proc.allowed s .flushed :=
  ⟨fun _ h => by simp [Proc.requestMoves] at h, fun _ h => by simp [Proc.responseMoves] at h, fun h => by simp [Proc.engineWaits] at h,
    fun h => by simp [Proc.engineTakes] at h⟩

theorem allowed_recorded (s : Proc.Sys) (q : Whole.Record) : Proc.allowed s (.recorded q) :=
  ⟨fun _ h => by simp [Proc.requestMoves] at h, fun _ h => by simp [Proc.responseMoves] at h, fun h => by simp [Proc.engineWaits] at h,
    fun h => by simp [Proc.engineTakes] at h⟩

/-- Clients see nothing of it, and nothing happens at the connections. -/
def Unseen (tr : List Proc.Ev) : Prop := seenOver tr = [] ∧ ∀ c, lineOf c (fullOf tr) = []

theorem Unseen.append {a b : List Proc.Ev} (h : Unseen a) (h' : Unseen b) : Unseen (a ++ b) :=
  ⟨by rw [seenOver_append, h.1, h'.1]; rfl, fun c => by rw [fullOf_append, lineOf_append, h.2, h'.2]; rfl⟩

theorem Unseen.cons {l : Proc.Ev} {b : List Proc.Ev} (h : Unseen [l]) (h' : Unseen b) : Unseen (l :: b) := h.append h'

/-- The shutdown goes on. -/
theorem proc_next {tr : List Proc.Ev} {s : Proc.Sys} (h : Exec (Proc.Step true ω) (Proc.new d st) tr s) (hu : s.up) (i : Nat) (hp : (s.stop.pcs i).before ≠ none) :
    ∃ l s', Proc.Step true ω s l s' ∧ s'.up ∧ s'.stop.shutdown = s.stop.shutdown ∧ Props.stopRank (s'.stop.pcs i) < Props.stopRank (s.stop.pcs i) ∧
      ((s'.stop.pcs i).before = none → ∀ j, (s'.stop.pcs j).before = none) ∧ Unseen [l] := by
  obtain ⟨e, t, h1, h2, h3, h4, h5, h6, h7⟩ := Props.stop_next (cfg := ⟨true, true⟩) rfl rfl (proc_exec h).2.1 hu.2.1 hu.2.2 i hp
  by_cases hf : e = .did i .flush
  · subst hf
    exact ⟨_, _, .both (.whole .flushed) _ .flushed _ t hu rfl (.flush i) (allowed_flushed s) (.whole _ _ rfl (.flush hu.1.1 hu.1.2)) h1, ⟨hu.1, h2, h3⟩, h4, h5, h6, rfl, fun _ => rfl⟩
  · refine ⟨_, _, .stop e t hu ?_ h1, ⟨hu.1, h2, h3⟩, h4, h5, h6, rfl, fun _ => rfl⟩
    rcases h7 with ⟨a, rfl⟩ | rfl
    · cases a <;> first | rfl | exact absurd rfl hf
    · rfl

theorem proc_completes {tr : List Proc.Ev} {s : Proc.Sys} (h : Exec (Proc.Step true ω) (Proc.new d st) tr s) (hu : s.up) (hs : s.stop.shutdown = true) :
    ∃ after s', Exec (Proc.Step true ω) s after s' ∧ shutdownOf (stopOf (tr ++ after)) = shutdownSequence ∧ s'.up ∧ Unseen after := by
  by_cases ha : ∀ i, (s.stop.pcs i).before = none
  · exact ⟨[], s, .nil, by simpa using (stopInv (proc_exec h).2.1).fin hs ha, hu, rfl, fun _ => rfl⟩
  · obtain ⟨i, hai⟩ := Classical.not_forall.1 ha
    clear ha
    generalize hn : Props.stopRank (s.stop.pcs i) = n
    induction n using Nat.strongRecOn generalizing tr s with
    | ind n ih =>
      obtain ⟨l, s1, h1, hu1, hs1, hr, hd, hl⟩ := proc_next h hu i hai
      by_cases ha1 : (s1.stop.pcs i).before = none
      · exact ⟨[l], s1, .one h1, (stopInv (proc_exec (h.snoc h1)).2.1).fin (hs1.trans hs) (hd ha1), hu1, hl⟩
      · obtain ⟨after, s', h2, h3, h4, h5⟩ := ih _ (hn ▸ hr) (h.snoc h1) hu1 (hs1.trans hs) ha1 rfl
        exact ⟨l :: after, s', .cons h1 h2, by simpa using h3, h4, hl.cons h5⟩

/-- The writers can write. -/
theorem proc_drain {s : Proc.Sys} (hu : s.up) : ∃ after s', Exec (Proc.Step m ω) s after s' ∧ s'.full.whole.pending = [] ∧ (∃ l, s'.stop = { s.stop with log := l }) ∧
    s'.left = s.left ∧ s'.full.whole.hub = s.full.whole.hub ∧ s'.full.whole.begun = s.full.whole.begun ∧ s'.up ∧
    Unseen after ∧ .flushed ∉ wholeOf (fullOf after) ∧ shutdownOf (stopOf after) = [] ∧ s'.full.whole.file = s.full.whole.pending.foldl (fun p q => writeRecord ω p ⟨q.1, env0, q.2⟩) s.full.whole.file := by
  generalize hp : s.full.whole.pending = ps
  induction ps generalizing s with
  | nil => exact ⟨[], s, .nil, hp, ⟨s.stop.log, rfl⟩, rfl, rfl, rfl, hu, ⟨rfl, fun _ => rfl⟩, by simp [fullOf, wholeOf], rfl, rfl⟩
  | cons q ps ih =>
    have hst : Whole.Step ω s.full.whole (.recorded ((⟨q.1, env0, q.2⟩ : Req).stamp, (⟨q.1, env0, q.2⟩ : Req).objs)) _ := .record ⟨q.1, env0, q.2⟩ [] ps hu.1.1 hu.1.2 hp
    have hfull := Full.Step.whole (ω := ω) (s := s.full) _ _ rfl hst
    have : ∃ l s', Proc.Step m ω s l s' ∧ s'.full.whole.pending = ps ∧ (∃ l, s'.stop = { s.stop with log := l }) ∧ s'.left = s.left ∧
        s'.full.whole.hub = s.full.whole.hub ∧ s'.full.whole.begun = s.full.whole.begun ∧ s'.up ∧ Unseen [l] ∧ .flushed ∉ wholeOf (fullOf [l]) ∧ shutdownOf (stopOf [l]) = [] ∧
        s'.full.whole.file = writeRecord ω s.full.whole.file ⟨q.1, env0, q.2⟩ := by
      cases hk : packLog (newLog q.1 ((q.2.head?.bind text).getD []) 1 q.2) with
      | some b =>
        exact ⟨_, _, .both _ (.logged b) _ _ _ hu rfl (.logged ⟨q.1, env0, q.2⟩ b hk) (allowed_recorded s _) hfull ⟨hu.2.1, hu.2.2, .logged b rfl⟩, rfl, ⟨_, rfl⟩, rfl, rfl, rfl,
          hu, ⟨rfl, fun _ => rfl⟩, by simp [fullOf, wholeOf], rfl, rfl⟩
      | none =>
        refine ⟨_, _, .full _ _ hu (fun w hw => ?_) hfull, rfl, ⟨s.stop.log, rfl⟩, rfl, rfl, rfl, hu, ⟨rfl, fun _ => rfl⟩, by simp [fullOf, wholeOf], rfl, rfl⟩
        simp only [Proc.within, Option.some.injEq] at hw
        refine ⟨hw ▸ allowed_recorded s _, fun x hx => ?_⟩
        cases hx with
        | logged q2 b2 hp2 =>
          simp only [Whole.Ev.recorded.injEq, Prod.mk.injEq] at hw
          rw [← hw.1, ← hw.2, hk] at hp2
          cases hp2
        | _ => cases hw
    obtain ⟨l, s1, h1, h2, ⟨x, h3⟩, h5, h6, h7, h8, h9, h11, h10, h14⟩ := this
    obtain ⟨after, s', g1, g2, ⟨y, g3⟩, g5, g6, g7, g8, g9, g11, g10, g14⟩ := ih h8 h2
    refine ⟨l :: after, s', .cons h1 g1, g2, ⟨y, by rw [g3, h3]⟩, g5.trans h5, g6.trans h6, g7.trans h7, g8, h9.cons g9, ?_, ?_, ?_⟩
    · rw [show l :: after = [l] ++ after from rfl, fullOf_append, wholeOf_append]
      exact fun hm => (List.mem_append.1 hm).elim h11 g11
    · rw [show l :: after = [l] ++ after from rfl, stopOf_append]
      have : ∀ a b, shutdownOf (a ++ b) = shutdownOf a ++ shutdownOf b := fun a b => by
        induction a with
        | nil => rfl
        | cons e a ih => cases e <;> simp [shutdownOf, ih]
      rw [this, h10, g10]; rfl
    · rw [g14, h14]; rfl

end Verif
