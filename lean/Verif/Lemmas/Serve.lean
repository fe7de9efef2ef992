import Verif.Lemmas.Proc

/-! A process that nobody has asked to stop. -/

namespace Verif

open Spec
open Fut (upd)

variable {m : Bool} {ω : Nat → Nat} {d : Bytes} {st : State}

/-- Where the response worker is, as `Stop` has it. -/
def phase : Hub.Worker → Stop.Worker
  | .away => .top
  | .waiting => .receiving
  | .has _ | .writing _ _ _ => .handling

/-- How many responses wait for the response worker. -/
def waiting (h : Hub.Sys) : Nat := (h.resp.chans 0).buf.length

/-- The name of a step of `Hub` in `Whole`. -/
def outer : Hub.Ev → Whole.Ev
  | .seen (.read c n o) => .net (.read c n o)
  | .seen e => .net (.pipe e)
  | e => .bus e

theorem whole_outer {w w' : Whole.Sys} {e : Whole.Ev} (hs : Whole.Step ω w e w') :
    (∃ x, Hub.Step w.hub x w'.hub ∧ e = outer x) ∨ w'.hub = w.hub ∧ ((∃ c x, e = .net (.feed c x)) ∨ (∃ q, e = .received q) ∨ (∃ q : Req, e = .recorded (q.stamp, q.objs)) ∨ e = .flushed) := by
  cases hs with
  | feed | kill => exact .inr ⟨rfl, .inl ⟨_, _, rfl⟩⟩
  | receive => exact .inr ⟨rfl, .inr (.inl ⟨_, rfl⟩)⟩
  | record q => exact .inr ⟨rfl, .inr (.inr (.inl ⟨q, rfl⟩))⟩
  | flush => exact .inr ⟨rfl, .inr (.inr (.inr rfl))⟩
  | read c n o x h _ _ hh => exact .inl ⟨_, hh, rfl⟩
  | bus e h _ he hh => refine .inl ⟨_, hh, ?_⟩; cases e <;> simp_all [Whole.hidden, outer]
  | pass e h _ he hh => refine .inl ⟨_, hh, ?_⟩; cases e <;> simp_all [Whole.between, outer]
  | execute _ _ _ _ _ _ hh | crash _ _ _ _ _ hh => exact .inl ⟨_, hh, rfl⟩

/-- What a step of the server is for the response worker and its channel. -/
inductive Turn : Whole.Ev → Hub.Sys → Hub.Sys → Prop where
  | connected {h h' : Hub.Sys} (c : Nat) : h'.worker = h.worker → waiting h' = waiting h → Turn (.net (.pipe (.connected c))) h h'
  | queued {h h' : Hub.Sys} (n : Nat) : h'.worker = h.worker → waiting h' = waiting h + 1 → waiting h < (h.resp.chans 0).cap → Turn (.net (.pipe (.queued n))) h h'
  | waits {h h' : Hub.Sys} : phase h.worker = .top → phase h'.worker = .receiving → waiting h' = waiting h → Turn (.bus (.responses (.chan 0 (.recvCall 0)))) h h'
  | answering {h h' : Hub.Sys} (n : Nat) : phase h.worker = .receiving → phase h'.worker = .handling → waiting h = waiting h' + 1 →
      Turn (.net (.pipe (.answering n))) h h'
  | wrote {h h' : Hub.Sys} (c n : Nat) (b : Bytes) : phase h.worker = .handling → phase h'.worker = .top → waiting h' = waiting h →
      Turn (.net (.pipe (.wrote c n b))) h h'
  | refused {h h' : Hub.Sys} (c n : Nat) : phase h.worker = .handling → phase h'.worker = .top → waiting h' = waiting h → Turn (.net (.pipe (.refused c n))) h h'
  | nobody {h h' : Hub.Sys} (n : Nat) : phase h.worker = .handling → phase h'.worker = .top → waiting h' = waiting h → Turn (.net (.pipe (.nobody n))) h h'
  | other {e : Whole.Ev} {h h' : Hub.Sys} : (∀ x, ¬ Proc.Pair e x) → phase h'.worker = phase h.worker → waiting h' = waiting h → Turn e h h'

theorem chan_len {s t : DataChan.Sys α} {e : DataChan.Ev α} (hs : DataChan.Step s e t) : (match e with
    | .sent _ _ => t.buf.length = s.buf.length + 1 ∧ s.buf.length < s.cap
    | .received _ _ => s.buf.length = t.buf.length + 1
    | _ => t.buf.length = s.buf.length) := by
  cases hs <;> simp_all

theorem hub_turn {h h' : Hub.Sys} {e : Hub.Ev} (hs : Hub.Step h e h') : Turn (outer e) h h' := by
  cases hs with
  | connect c => exact .connected c rfl rfl
  | read c id o w _ _ hw => exact .other (by rintro x ⟨⟩) rfl rfl
  | requests e w _ _ hw => exact .other (by rintro x ⟨⟩) rfl rfl
  | drop n name k w _ hw => exact .other (by rintro x ⟨⟩) rfl rfl
  | wait w _ _ hw => exact .other (by rintro x ⟨⟩) rfl rfl
  | take n name k w _ _ hw => exact .other (by rintro x ⟨⟩) rfl rfl
  | ignore => exact .other (by rintro x ⟨⟩) rfl rfl
  | crash => exact .other (by rintro x ⟨⟩) rfl rfl
  | execute n k id objs env db r w _ _ _ _ hw => cases hw; exact .other (by rintro x ⟨⟩) rfl rfl
  | responses e w _ hi hw =>
    refine .other ?_ rfl ?_
    · rintro x hx; cases hx; simp [Hub.inner] at hi
    · cases hw <;> simp [Hub.inner] at hi
      · rfl
      · rfl
      · rename_i hd
        have := chan_len hd
        simp only [waiting, upd]
        split
        · rename_i h0; subst h0; exact this
        · rfl
  | queue n name k w _ hw =>
    cases hw with
    | sent _ _ _ _ t c _ hd => have := chan_len hd; exact .queued n rfl (by simpa [waiting, upd] using this.1) this.2
  | unqueue n name k w _ hw =>
    cases hw with
    | expired _ _ _ _ t c _ hd => have := chan_len hd; exact .other (by rintro x ⟨⟩) rfl (by simpa [waiting, upd] using this)
  | await w _ h1 hw =>
    cases hw with
    | recvCall _ _ c _ hd => have := chan_len hd; exact .waits (by rw [h1]; rfl) rfl (by simpa [waiting, upd] using this)
  | receive n k w _ h1 hw =>
    cases hw with
    | received _ _ _ c _ hd => have := chan_len hd; exact .answering n (by rw [h1]; rfl) rfl (by simpa [waiting, upd] using this)
  | look n k id r c _ h1 => exact .other (by rintro x ⟨⟩) (by rw [h1]; rfl) rfl
  | nobody n k _ h1 => exact .nobody n (by rw [h1]; rfl) rfl rfl
  | write n c b _ h1 => exact .wrote c n b (by rw [h1]; rfl) rfl rfl
  | refuse n c b _ h1 => exact .refused c n (by rw [h1]; rfl) rfl rfl

/-- Nobody has called `stop`, and `Stop` has the response worker where it is. -/
structure Unstopped (s : Proc.Sys) : Prop where
  stop : ∃ cl, s.stop = { Stop.new [] with worker := phase s.full.whole.hub.worker, queue := List.replicate (waiting s.full.whole.hub) false
                                           log := s.full.whole.file, clients := cl }
  left : s.left = false
  unheard : s.unheard = fun _ => false
  unsaid : s.unsaid = fun _ => false

theorem serving_new : Unstopped (Proc.new d st) := ⟨⟨[], rfl⟩, rfl, rfl, rfl⟩

theorem full_up {f f' : Full.Sys} {e : Full.Ev} (hs : Full.Step ω f e f') : f.up := by
  cases hs with
  | whole _ _ _ h | send _ _ _ _ _ _ h | kill _ _ _ h => exact whole_up h
  | read _ _ _ _ _ h | finish _ _ _ _ _ h | wrote _ _ _ _ _ h | refuse _ _ _ _ _ _ h | fail _ _ _ _ _ h => exact whole_up h
  | readCall _ _ h | cut _ _ h | closeCall _ _ h | writeCall _ _ _ _ h | own _ _ _ h => exact h

theorem serving_allowed {s : Proc.Sys} (hv : Unstopped s) (w : Whole.Ev) : Proc.allowed s w := by
  obtain ⟨⟨cl, h1⟩, h2, h3, h4⟩ := hv
  exact ⟨fun _ _ => by rw [h3], fun _ _ => by rw [h4], fun _ => ⟨h2, by rw [h1]; rfl⟩, fun _ => h2⟩

theorem serving_hears {s : Proc.Sys} (hv : Unstopped s) (w : Option Whole.Ev) : s.hears w = s.unheard ∧ s.says w = s.unsaid := by
  obtain ⟨⟨cl, h1⟩, h2, h3, h4⟩ := hv
  have r1 : s.stop.requestTopic = true := by rw [h1]; rfl
  have r2 : s.stop.responseTopic = true := by rw [h1]; rfl
  constructor
  · unfold Proc.Sys.hears; split <;> simp [r1]
  · unfold Proc.Sys.says; split <;> simp [r2]

theorem serve_alone {s : Proc.Sys} {e : Full.Ev} {f : Full.Sys} (hv : Unstopped s) (hs : Full.Step ω s.full e f) (hp : ∀ w, Proc.within e = some w → ∀ x, ¬ Proc.Pair w x)
    (h1 : phase f.whole.hub.worker = phase s.full.whole.hub.worker) (h2 : waiting f.whole.hub = waiting s.full.whole.hub) (h3 : f.whole.file = s.full.whole.file) :
    ∃ s', Proc.Step m ω s (.full e) s' ∧ s'.full = f ∧ Unstopped s' := by
  refine ⟨_, .full e f ⟨full_up hs, ?_, ?_⟩ (fun w hw => ⟨serving_allowed hv w, hp w hw⟩) hs, rfl, ?_⟩
  · obtain ⟨cl, h⟩ := hv.stop; rw [h]; rfl
  · obtain ⟨cl, h⟩ := hv.stop; rw [h]; rfl
  · obtain ⟨⟨cl, g1⟩, g2, g3, g4⟩ := id hv
    exact ⟨⟨cl, by rw [h1, h2, h3, ← g1]⟩, g2, by rw [← g3]; exact (serving_hears hv _).1, by rw [← g4]; exact (serving_hears hv _).2⟩

theorem serve_both {s : Proc.Sys} {e : Full.Ev} {w : Whole.Ev} {f : Full.Sys} {x : Stop.Ev} {t : Stop.Sys} (hv : Unstopped s) (hs : Full.Step ω s.full e f)
    (hw : Proc.within e = some w) (hp : Proc.Pair w x) (hr : Stop.Run ⟨m, true⟩ ω s.stop x t)
    (ht : ∃ cl, t = { Stop.new [] with worker := phase f.whole.hub.worker, queue := List.replicate (waiting f.whole.hub) false, log := f.whole.file, clients := cl }) :
    ∃ s', Proc.Step m ω s (.both e x) s' ∧ s'.full = f ∧ Unstopped s' := by
  have c1 : s.stop.crashed = false := by obtain ⟨cl, h⟩ := hv.stop; rw [h]; rfl
  have c2 : s.stop.exited = false := by obtain ⟨cl, h⟩ := hv.stop; rw [h]; rfl
  exact ⟨_, .both e x w f t ⟨full_up hs, c1, c2⟩ hw hp (serving_allowed hv w) hs ⟨c1, c2, hr⟩, rfl, ht, hv.left, hv.unheard, hv.unsaid⟩

/-- As long as nobody calls `stop`, everything goes on as in `Full`. -/
theorem serve_step {s : Proc.Sys} {e : Full.Ev} {f : Full.Sys} (hv : Unstopped s) (hc : (s.full.whole.hub.resp.chans 0).cap = 100) (hs : Full.Step ω s.full e f)
    (hm : m = true ∨ Proc.within e ≠ some .flushed) : ∃ l s', Proc.Step m ω s l s' ∧ fullOf [l] = [e] ∧ s'.full = f ∧ Unstopped s' := by
  rcases full_within hs with ⟨w, hw, hst⟩ | ⟨hw, hst⟩
  · have file : (∀ q, w ≠ .recorded q) → w ≠ .flushed → f.whole.file = s.full.whole.file := fun h1 h2 => by
      rcases whole_file hst with ⟨q, h, -⟩ | ⟨h, -⟩ | ⟨-, -, h⟩
      · exact absurd h (h1 _)
      · exact absurd h h2
      · exact h
    obtain ⟨cl, hstop⟩ := hv.stop
    have both : ∀ x t, Proc.Pair w x → Stop.Run ⟨m, true⟩ ω s.stop x t → 
        (∃ cl, t = { Stop.new [] with worker := phase f.whole.hub.worker, queue := List.replicate (waiting f.whole.hub) false, log := f.whole.file, clients := cl }) → ∃ l s', Proc.Step m ω s l s' ∧ fullOf [l] = [e] ∧ s'.full = f ∧ Unstopped s' := by
      intro x t h1 h2 h3
      obtain ⟨s', k1, k2⟩ := serve_both hv hs hw h1 h2 h3
      exact ⟨_, s', k1, rfl, k2⟩
    have alone : (∀ x, ¬ Proc.Pair w x) → phase f.whole.hub.worker = phase s.full.whole.hub.worker → waiting f.whole.hub = waiting s.full.whole.hub →
        f.whole.file = s.full.whole.file → ∃ l s', Proc.Step m ω s l s' ∧ fullOf [l] = [e] ∧ s'.full = f ∧ Unstopped s' := by
      intro h1 h2 h3 h4
      obtain ⟨s', k1, k2⟩ := serve_alone (m := m) hv hs (fun w' hw' => by rw [hw] at hw'; cases hw'; exact h1) h2 h3 h4
      exact ⟨_, s', k1, rfl, k2⟩
    rcases whole_outer hst with ⟨x, hx, rfl⟩ | ⟨hx, he⟩
    · have turn := hub_turn hx
      generalize outer x = w at *
      generalize f.whole.hub = h' at *
      generalize hh : s.full.whole.hub = h at *
      cases turn with
      | connected c h1 h2 =>
        have file := file (by simp) (by simp)
        exact both _ _ (.accepted c) (.accepted c (by rw [hstop]; rfl) (by rw [hstop]; rfl)) ⟨(c, Stop.newConnDyn) :: cl, by rw [hstop, h1, h2, file]⟩
      | queued n h1 h2 h3 =>
        have file := file (by simp) (by simp)
        refine both _ _ (.queued n) (.response (by rw [hstop]; simp; omega)) ⟨cl, ?_⟩
        rw [hstop, h1, h2, file, List.replicate_succ']
      | waits h1 h2 h3 =>
        have file := file (by simp) (by simp)
        refine both _ _ .waits (.workerWaits (by rw [hstop]; exact h1) (by rw [hstop]; rfl)) ⟨cl, ?_⟩
        rw [hstop, h2, h3, file]
      | answering n h1 h2 h3 =>
        have file := file (by simp) (by simp)
        refine both _ _ (.answering n) (.workerGot (List.replicate (waiting h') false) (by rw [hstop]; exact h1) (by rw [hstop, h3]; rfl)) ⟨cl, ?_⟩
        rw [hstop, h2, file]
      | wrote c n b h1 h2 h3 =>
        have file := file (by simp) (by simp)
        refine both _ _ (.wrote c n b) (.workerDone (by rw [hstop]; exact h1)) ⟨cl, ?_⟩
        rw [hstop, h2, h3, file]
      | refused c n h1 h2 h3 =>
        have file := file (by simp) (by simp)
        refine both _ _ (.refused c n) (.workerDone (by rw [hstop]; exact h1)) ⟨cl, ?_⟩
        rw [hstop, h2, h3, file]
      | nobody n h1 h2 h3 =>
        have file := file (by simp) (by simp)
        refine both _ _ (.nobody n) (.workerDone (by rw [hstop]; exact h1)) ⟨cl, ?_⟩
        rw [hstop, h2, h3, file]
      | other h1 h2 h3 =>
        refine alone h1 h2 h3 ?_
        rcases whole_file hst with ⟨q, rfl, h⟩ | ⟨rfl, -⟩ | ⟨-, -, h⟩
        · rw [h, writeRecord]
          cases hp : packLog (newLog q.stamp ((q.objs.head?.bind text).getD []) 1 q.objs) with
          | none => rfl
          | some b => exact absurd (.logged q b hp) (h1 _)
        · exact absurd .replica (h1 _)
        · exact h
    · rcases he with ⟨c, x, rfl⟩ | ⟨q, rfl⟩ | ⟨q, rfl⟩ | rfl
      · exact alone (by rintro x ⟨⟩) (by rw [hx]) (by rw [hx]) (file (by simp) (by simp))
      · exact alone (by rintro x ⟨⟩) (by rw [hx]) (by rw [hx]) (file (by simp) (by simp))
      · rcases whole_file hst with ⟨q', h1, h⟩ | ⟨h1, -⟩ | ⟨h1, -, -⟩
        · simp only [Whole.Ev.recorded.injEq, Prod.mk.injEq] at h1
          rw [writeRecord, ← h1.1, ← h1.2] at h
          cases hp : packLog (newLog q.stamp ((q.objs.head?.bind text).getD []) 1 q.objs) with
          | none =>
            rw [hp] at h
            refine alone ?_ (by rw [hx]) (by rw [hx]) h
            intro x hx
            generalize hk : Whole.Ev.recorded (q.stamp, q.objs) = k at hx
            cases hx with
            | logged q2 b2 hp2 =>
              simp only [Whole.Ev.recorded.injEq, Prod.mk.injEq] at hk
              rw [← hk.1, ← hk.2, hp] at hp2
              cases hp2
            | _ => cases hk
          | some b =>
            rw [hp] at h
            refine both _ _ (.logged q b hp) (.logged b rfl) ⟨cl, ?_⟩
            rw [hstop, hx, h]
        · cases h1
        · exact absurd rfl (h1 _)
      · rcases whole_file hst with ⟨q', h1, h⟩ | ⟨-, h⟩ | ⟨-, h1, -⟩
        · cases h1
        · refine both _ _ .replica (.replicaFlush rfl (hm.resolve_right (by simp [hw]))) ⟨cl, ?_⟩
          rw [hstop, hx, h]
        · exact absurd rfl h1
  · obtain ⟨s', k1, k2⟩ := serve_alone (m := m) hv hs (fun w' hw' => by rw [hw] at hw'; cases hw') (by rw [hst]) (by rw [hst]) (by rw [hst])
    exact ⟨_, s', k1, rfl, k2⟩

theorem serve_exec {tr : List Full.Ev} {f : Full.Sys} (h : Exec (Full.Step ω) (Full.new d st) tr f) (hm : m = true ∨ .flushed ∉ wholeOf tr) :
    ∃ tr' s, Exec (Proc.Step m ω) (Proc.new d st) tr' s ∧ fullOf tr' = tr ∧ s.full = f ∧ Unstopped s := by
  revert hm
  refine h.inv (P := fun tr f => (m = true ∨ .flushed ∉ wholeOf tr) → ∃ tr' s, Exec (Proc.Step m ω) (Proc.new d st) tr' s ∧ fullOf tr' = tr ∧ s.full = f ∧ Unstopped s)
    (fun _ => ⟨[], _, .nil, rfl, rfl, serving_new⟩) ?_
  rintro tr f e f' hx ih hst hm
  rw [wholeOf_append, List.mem_append, not_or] at hm
  obtain ⟨tr', s, h1, h2, rfl, h3⟩ := ih (hm.imp id And.left)
  obtain ⟨n, -, k⟩ := Props.whole_net (full_exec hx).1
  obtain ⟨l, s', g1, g2, g3, g4⟩ := serve_step h3 k.sim.resp.cap hst (hm.imp id fun h hw => h.2 (by
    cases e <;> simp [Proc.within] at hw <;> subst hw <;> simp [wholeOf]))
  exact ⟨_, s', h1.snoc g1, by rw [fullOf_append, h2, g2], g3, g4⟩

end Verif
