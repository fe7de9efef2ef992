import Verif.Lemmas.Halt2
import Verif.Props.Isolated

/-!
C84: the process from its start to its end.
-/

namespace Verif.Props

open Verif Spec
open Verif.Fut (upd)

variable {m : Bool} {ω : Nat → Nat} {d : Bytes} {st : State} {tr : List Proc.Ev} {s s' : Proc.Sys}

/-- C84: what happens in a process is something that can happen in the server of C82, and what happens in stopping it something that can happen in the
shutdown of C47, and both have the same file. -/
theorem C84_parts (h : Exec (Proc.Step m ω) (Proc.new d st) tr s) :
    Exec (Full.Step ω) (Full.new d st) (fullOf tr) s.full ∧ Exec (Stop.Step ⟨m, true⟩ ω) (Stop.new d) (stopOf tr) s.stop ∧ s.stop.log = s.full.whole.file :=
  proc_exec h

/-- C84: and as long as nobody asks the process to stop, everything that can happen in the server of C82 can happen in it, except, without a master, that
a replica has the log flushed. -/
theorem C84_serves {tr : List Full.Ev} {f : Full.Sys} (h : Exec (Full.Step ω) (Full.new d st) tr f) (hm : m = true ∨ .flushed ∉ wholeOf tr) :
    ∃ tr' s, Exec (Proc.Step m ω) (Proc.new d st) tr' s ∧ fullOf tr' = tr ∧ s.full = f ∧ s.stop.shutdown = false ∧ shutdownOf (stopOf tr') = [] := by
  obtain ⟨tr', s, h1, h2, h3, h4⟩ := serve_exec h hm
  obtain ⟨cl, hc⟩ := h4.stop
  have : s.stop.shutdown = false := by rw [hc]; rfl
  exact ⟨tr', s, h1, h2, h3, this, ((stopInv (proc_exec h1).2.1).none this).1⟩

theorem mem_wrote {c n : Nat} {b : Bytes} {tr : List Pipe.Ev} : (n, c, b) ∈ writtenOf tr ↔ .wrote c n b ∈ tr := by
  induction tr with
  | nil => simp [writtenOf]
  | cons e tr ih => cases e <;> simp [writtenOf, ih]; grind

/-- C84: a request that is read once the topic `request` has been removed is never executed, let alone answered. -/
theorem C84_unheard {before after : List Proc.Ev} {i c n : Nat} {o : Resp} (h : Exec (Proc.Step m ω) (Proc.new d st) (before ++ .stop (.did i .removeRequest) :: after) s)
    (hr : .read c n o ∈ seenOver after) :
    (∀ env r, (n, env, r) ∉ doneIn (seenOver (before ++ .stop (.did i .removeRequest) :: after))) ∧
    ∀ c' b, (n, b) ∉ answersTo c' (seenOver (before ++ .stop (.did i .removeRequest) :: after)) := by
  have h0 := h
  rw [show before ++ Proc.Ev.stop (.did i .removeRequest) :: after = (before ++ [.stop (.did i .removeRequest)]) ++ after by simp] at h
  obtain ⟨s1, h1, h2⟩ := h.split
  have ht : s1.stop.requestTopic = false := by
    rw [(stopInv (proc_exec h1).2.1).req, stopOf_append, show stopOf [.stop (.did i .removeRequest)] = [.did i .removeRequest] from rfl, shutdownOf_snoc]
    simp
  have hn := (procInv h0).unheard n (unheard_after h2 ht hr)
  obtain ⟨p, k1, -⟩ := proc_pipe h0
  have ho := pipeOrder k1
  have hq : ∀ env r, .executed n env r ∉ pipeOf (seenOver (before ++ .stop (.did i .removeRequest) :: after)) := fun env r hx => hn.2 (ho.exe n env r hx)
  refine ⟨fun env r hx => ?_, fun c' b hx => ?_⟩
  · rw [doneIn_eq, mem_executedOf] at hx
    exact hq _ _ hx
  · obtain ⟨env, r, hx⟩ := ho.queued n (ho.wrote c' n b (mem_wrote.1 (mem_answersTo.1 hx)))
    exact hq _ _ hx

/-- C84: a request that is executed once the topic `response` has been removed is never answered. -/
theorem C84_unsaid {before after : List Proc.Ev} {i n : Nat} {env : Env} {r : Resp} (h : Exec (Proc.Step m ω) (Proc.new d st) (before ++ .stop (.did i .removeResponse) :: after) s)
    (hr : (n, env, r) ∈ doneIn (seenOver after)) (c : Nat) (b : Bytes) : (n, b) ∉ answersTo c (seenOver (before ++ .stop (.did i .removeResponse) :: after)) := by
  have h0 := h
  rw [show before ++ Proc.Ev.stop (.did i .removeResponse) :: after = (before ++ [.stop (.did i .removeResponse)]) ++ after by simp] at h
  obtain ⟨s1, h1, h2⟩ := h.split
  have ht : s1.stop.responseTopic = false := by
    rw [(stopInv (proc_exec h1).2.1).resp, stopOf_append, show stopOf [.stop (.did i .removeResponse)] = [.did i .removeResponse] from rfl, shutdownOf_snoc]
    simp
  rw [doneIn_eq, mem_executedOf, mem_pipeOf (by simp)] at hr
  have hn := (procInv h0).unsaid n (unsaid_after h2 ht hr)
  obtain ⟨p, k1, -⟩ := proc_pipe h0
  exact fun hx => hn.2 ((pipeOrder k1).wrote c n b (mem_wrote.1 (mem_answersTo.1 hx)))

/-- C84: once the engine has left its loop nothing is executed and what is stored stays as it is. -/
theorem C84_left {after : List Proc.Ev} (h : Exec (Proc.Step m ω) (Proc.new d st) tr s) (hl : s.left = true) (hx : Exec (Proc.Step m ω) s after s') :
    doneIn (seenOver after) = [] ∧ s'.full.whole.hub.db = s.full.whole.hub.db :=
  have k := left_still h hl hx
  ⟨k.2.2.2.2.1, k.2.2.1⟩

/-- C84: an engine that sees at the top of its loop that it is to stop leaves it, and one that has left does not come back. -/
theorem C84_ends (h : Exec (Proc.Step m ω) (Proc.new d st) tr s) : (.engineLeft ∈ tr → s.left = true) ∧
    (s.up → s.full.whole.hub.engine = .away → s.stop.engineShut = true → s.left = false → ∃ s', Proc.Step m ω s .engineLeft s' ∧ s'.left = true) := by
  refine ⟨?_, fun h1 h2 h3 h4 => ⟨_, .engineLeft h1 h4 h2 h3, rfl⟩⟩
  refine h.inv (P := fun tr s => .engineLeft ∈ tr → s.left = true) (by simp) ?_
  rintro tr s l s' - ih hst hm
  cases hst with
  | engineLeft => rfl
  | told => rfl
  | _ => exact ih (by simpa using hm)

theorem shutdownOf_append (a b : List Stop.Ev) : shutdownOf (a ++ b) = shutdownOf a ++ shutdownOf b := by
  induction a with
  | nil => rfl
  | cons e a ih => cases e <;> simp [shutdownOf, ih]

theorem mem_shutdownOf {a : Stop.Act} {tr : List Stop.Ev} : a ∈ shutdownOf tr ↔ ∃ i, .did i a ∈ tr := by
  induction tr with
  | nil => simp [shutdownOf]
  | cons e tr ih => cases e <;> simp [shutdownOf, ih]; grind

theorem mem_stopOf {x : Stop.Ev} {tr : List Proc.Ev} : x ∈ stopOf tr ↔ ∃ e ∈ tr, e = .stop x ∨ ∃ f, e = .both f x := by
  simp only [stopOf, List.mem_filterMap]
  constructor
  · rintro ⟨e, h1, h2⟩
    refine ⟨e, h1, ?_⟩
    cases e <;> simp at h2 <;> simp [h2]
  · rintro ⟨e, h1, h2⟩
    refine ⟨e, h1, ?_⟩
    rcases h2 with rfl | ⟨f, rfl⟩ <;> rfl

/-- C84: the engine leaves its loop only because the topic `request` has been removed. -/
theorem C84_leaves (h : Exec (Proc.Step m ω) (Proc.new d st) tr s) (hl : s.left = true) : ∃ i, .stop (.did i .removeRequest) ∈ tr := by
  have key : s.left = true → .removeRequest ∈ shutdownOf (stopOf tr) := by
    refine h.inv (P := fun tr s => s.left = true → .removeRequest ∈ shutdownOf (stopOf tr)) (by simp [Proc.new]) ?_
    rintro tr s e s' hx ih hs hl
    rw [stopOf_append, shutdownOf_append]
    cases hs with
    | full | both | stop => exact List.mem_append_left _ (ih hl)
    | told i => exact List.mem_append_right _ (by simp [stopOf, shutdownOf])
    | engineLeft _ _ _ he =>
      refine List.mem_append_left _ ?_
      have hm := (C47_parts (proc_exec hx).2.1).2.2.2.2.1 he
      obtain ⟨r, hr⟩ := C47_once (proc_exec hx).2.1
      cases hq : shutdownOf (stopOf tr) with
      | nil => rw [hq] at hm; cases hm
      | cons x l =>
        rw [hq] at hr
        obtain ⟨rfl, -⟩ := List.cons.inj hr
        simp
  obtain ⟨i, hi⟩ := mem_shutdownOf.1 (key hl)
  obtain ⟨e, he, rfl | ⟨f, rfl⟩⟩ := mem_stopOf.1 hi
  · exact ⟨i, he⟩
  · obtain ⟨b, a, rfl⟩ := List.append_of_mem he
    obtain ⟨s1, -, h2⟩ := h.split
    rw [show Proc.Ev.both f (.did i .removeRequest) :: a = [.both f (.did i .removeRequest)] ++ a from rfl] at h2
    obtain ⟨s2, h2, -⟩ := h2.split
    cases exec_single h2 with
    | both _ _ _ _ _ _ _ hp => cases hp

/-- C84: the exit of the process, a crash in stopping it, and a crash of the server are each the last thing that happens. -/
theorem C84_last {before after : List Proc.Ev} {e : Proc.Ev} (he : e = .stop .exit ∨ (∃ w, e = .stop (.crash w)) ∨ (∃ c, e = .full (.whole (.net (.feed c .crash)))) ∨
    ∃ n env, e = .full (.whole (.net (.pipe (.crash n env))))) (h : Exec (Proc.Step m ω) (Proc.new d st) (before ++ e :: after) s) : after = [] := by
  refine h.last (fun s => ¬ s.up) ?_ ?_
  · intro s s' hs hu
    rcases he with rfl | ⟨w, rfl⟩ | ⟨c, rfl⟩ | ⟨n, env, rfl⟩
    · cases hs with
      | stop _ t _ _ h => obtain ⟨-, -, h⟩ := h; cases h; simpa using hu.2.2
    · cases hs with
      | stop _ t _ _ h => obtain ⟨-, -, h⟩ := h; cases h <;> simpa using hu.2.1
    · cases hs with
      | full _ f _ _ h =>
        rcases full_within h with ⟨w, h1, h2⟩ | ⟨h1, -⟩
        · simp only [Proc.within, Option.some.injEq] at h1
          subst h1
          have := (whole_feed h2).2
          obtain ⟨x, -, -, -, h3⟩ := this
          have h4 : f.whole.dead = false := hu.1.1
          rw [h3 rfl] at h4
          cases h4
        · cases h1
    · cases hs with
      | full _ f _ _ h =>
        rcases full_within h with ⟨w, h1, h2⟩ | ⟨h1, -⟩
        · simp only [Proc.within, Option.some.injEq] at h1
          subst h1
          have h4 : f.whole.hub.crashed = false := hu.1.2
          generalize f.whole = x at h2 h4
          cases h2 with
          | pass _ _ _ hb => simp [Whole.between] at hb
          | crash _ _ _ _ _ hp => cases hp; simp at h4
        · cases h1
  · intro s l s' hd hs
    cases hs with
    | full _ _ h | both _ _ _ _ _ h | stop _ _ h | told _ _ h | engineLeft h => exact hd h

/-- C84: with replication the shutdown, once begun, can be completed at any moment, whatever the server is doing, as long as the process is there. -/
theorem C84_completes (h : Exec (Proc.Step true ω) (Proc.new d st) tr s) (hu : s.up) (hs : s.stop.shutdown = true) :
    ∃ after s', Exec (Proc.Step true ω) s after s' ∧ shutdownOf (stopOf (tr ++ after)) = shutdownSequence ∧ s'.up ∧ seenOver after = [] ∧ ∀ c, lineOf c (fullOf after) = [] :=
  proc_completes h hu hs

/-- C84: a process that is stopped well has written everything it ever will: the engine is between two requests, no writer waits, and the buffer of the file is empty. -/
theorem C84_settled (h : StoppedWell (Proc.Step m ω) (Proc.new d st) tr s) : Settled s.full.whole := (stopped_settled h).2

theorem flush_event {i : Nat} {e : Proc.Ev} (h : Proc.Step m ω s e s') (he : e = .stop (.did i .flush) ∨ ∃ f, e = .both f (.did i .flush)) :
    e = .both (.whole .flushed) (.did i .flush) := by
  cases h with
  | full => simp at he
  | engineLeft => simp at he
  | stop x t _ hx _ =>
    rcases he with he | ⟨f, he⟩
    · simp only [Proc.Ev.stop.injEq] at he; subst he; cases hx
    · cases he
  | told => simp at he
  | both e x w f t _ k1 k2 _ k3 _ =>
    rcases he with he | ⟨f, he⟩
    · cases he
    · simp only [Proc.Ev.both.injEq] at he
      obtain ⟨rfl, rfl⟩ := he
      cases k2
      cases e with
      | whole e => simp only [Proc.within, Option.some.injEq] at k1; subst k1; rfl
      | line => cases k1
      | both e c x =>
        simp only [Proc.within, Option.some.injEq] at k1; subst k1
        cases k3

/-- The engine can call `Receive`. -/
theorem engine_waits (h : Exec (Proc.Step m ω) (Proc.new d st) tr s) (hu : s.up) (hl : s.left = false) (hs : s.stop.engineShut = false)
    (he : s.full.whole.hub.engine = .away) :
    ∃ l s', Proc.Step m ω s l s' ∧ s'.full.whole.hub.engine = .waiting ∧ s'.stop = s.stop ∧ s'.left = false ∧ Unseen [l] ∧ s'.up := by
  obtain ⟨n, -, hseen⟩ := whole_net (full_exec (proc_exec h).1).1
  obtain ⟨htr, hx, -⟩ := hseen.hub
  have inv := hubInv hx
  have hf : (s.full.whole.hub.req.chans 0).receivers 0 = false := by
    by_contra hf
    rw [Bool.not_eq_false, inv.ears, he] at hf
    cases hf
  refine ⟨_, _, .full (.whole (.bus (.requests (.chan 0 (.recvCall 0))))) _ hu ?_
    (.whole _ _ rfl (.bus _ _ hu.1.1 rfl (.wait _ hu.1.2 he (.recvCall 0 0 _ (by simp [inv.req.made]) (.recvCall 0 inv.req.up hf inv.req.flag))))), rfl, rfl, hl, ⟨rfl, fun _ => rfl⟩, hu⟩
  intro w hw
  simp only [Proc.within, Option.some.injEq] at hw
  subst hw
  exact ⟨⟨by simp [Proc.requestMoves], by simp [Proc.responseMoves], fun _ => ⟨hl, hs⟩, by simp [Proc.engineTakes]⟩, by nofun⟩

/-- How it can be stopped when the engine is in `Receive`. -/
theorem waiting_stop (h : Exec (Proc.Step true ω) (Proc.new d st) tr s) (hu : s.up) (hn : s.stop.shutdown = false)
    (he : s.full.whole.hub.engine = .waiting ∨ s.left = true) :
    ∃ after s', Exec (Proc.Step true ω) s after s' ∧ (seenOver after = [] ∧ ∀ c, lineOf c (fullOf after) = []) ∧ shutdownOf (stopOf (tr ++ after)) = shutdownSequence ∧
      (s'.full.whole.file.failed = false → StoppedWell (Proc.Step true ω) (Proc.new d st) (tr ++ after) s') := by
  obtain ⟨n, hi⟩ := stop_idle (proc_exec h).2.1
  have hidle := hi (n + 1) (by omega)
  have a1 : Proc.Step true ω s (.stop (.call (n + 1))) _ := .stop _ _ hu rfl ⟨hu.2.1, hu.2.2, .call (n + 1) (by omega) hidle⟩
  have a2 : Proc.Step true ω _ (.stop (.won (n + 1))) _ := .stop (s := { s with stop := { s.stop with pcs := upd s.stop.pcs (n + 1) .called } }) _ _ hu rfl
    ⟨hu.2.1, hu.2.2, .won (n + 1) (by simp [upd]) hn⟩
  have a3 : ∃ s3, Proc.Step true ω { s with stop := { s.stop with shutdown := true, pcs := upd (upd s.stop.pcs (n + 1) .called) (n + 1) (.doing .removeRequest) } }
      (.stop (.did (n + 1) .removeRequest)) s3 ∧ s3.left = true ∧ s3.up ∧ s3.stop.shutdown = true ∧ s3.stop.pcs (n + 1) = .doing .removeResponse := by
    have hr := Stop.Run.removeRequest (cfg := ⟨true, true⟩) (ω := ω)
      (s := { s.stop with shutdown := true, pcs := upd (upd s.stop.pcs (n + 1) .called) (n + 1) (.doing .removeRequest) }) (n + 1) (by simp [upd])
    by_cases hl : s.left = true
    · exact ⟨_, .stop (s := { s with stop := { s.stop with shutdown := true, pcs := upd (upd s.stop.pcs (n + 1) .called) (n + 1) (.doing .removeRequest) } }) _ _ hu rfl
        ⟨hu.2.1, hu.2.2, hr⟩, hl, hu, rfl, by simp [upd]⟩
    · exact ⟨_, .told (s := { s with stop := { s.stop with shutdown := true, pcs := upd (upd s.stop.pcs (n + 1) .called) (n + 1) (.doing .removeRequest) } }) (n + 1) _ hu
        (by simpa using hl) (he.resolve_right hl) ⟨hu.2.1, hu.2.2, hr⟩, rfl, hu, rfl, by simp [upd]⟩
  obtain ⟨s3, a3, l3, u3, sh3, pc3⟩ := a3
  have x3 := (.cons a1 (.cons a2 (.one a3)) : Exec (Proc.Step true ω) s _ s3)
  obtain ⟨dr, s4, x4, p4, ⟨lg, q1⟩, q3, -, -, u4, q4, -, q5, -⟩ := proc_drain (m := true) (ω := ω) u3
  have h4 := (h.append x3).append x4
  obtain ⟨fin, s5, x5, g1, g2, g3⟩ := proc_completes h4 u4 (by rw [q1]; exact sh3)
  have hacts : shutdownOf (stopOf (tr ++ [.stop (.call (n + 1)), .stop (.won (n + 1)), .stop (.did (n + 1) .removeRequest)] ++ dr)) = [.removeRequest] :=
    (stopInv (proc_exec h4).2.1).pos (n + 1) _ (by rw [q1]; show Stop.Pc.before (s3.stop.pcs (n + 1)) = _; rw [pc3]; rfl)
  refine ⟨[.stop (.call (n + 1)), .stop (.won (n + 1)), .stop (.did (n + 1) .removeRequest)] ++ dr ++ fin, s5, (x3.append x4).append x5, ?_, ?_, fun hf => ?_⟩
  · exact Unseen.append (Unseen.append ⟨rfl, fun _ => rfl⟩ q4) g3
  · rw [← g1]; simp
  · rw [stopOf_append, shutdownOf_append, hacts] at g1
    have hm : Stop.Act.flush ∈ shutdownOf (stopOf fin) := by
      have : Stop.Act.flush ∈ [Stop.Act.removeRequest] ++ shutdownOf (stopOf fin) := by rw [g1]; decide
      simpa using this
    obtain ⟨i, hm⟩ := mem_shutdownOf.1 hm
    obtain ⟨e, he', hm'⟩ := mem_stopOf.1 hm
    obtain ⟨b, a, rfl⟩ := List.append_of_mem he'
    obtain ⟨s6, y1, y2⟩ := x5.split
    rw [show e :: a = [e] ++ a from rfl] at y2
    obtain ⟨s7, y2, y3⟩ := y2.split
    have y2 := exec_single y2
    have hlast := left_still h4 (by rw [q3, l3]) y1
    have hev := flush_event y2 hm'
    subst hev
    exact ⟨tr ++ [.stop (.call (n + 1)), .stop (.won (n + 1)), .stop (.did (n + 1) .removeRequest)] ++ dr ++ b, s6, i, s7, a, by simp, h4.append y1, hlast.1,
      hlast.2.2.2.1 p4, y2, y3, hf⟩

/-- C84: with replication, a process that nobody has asked to stop yet and whose engine has no request can be stopped well, if only nothing fails at the
file. Clients need not do anything for that, and see nothing of it. -/
theorem C84_can_stop (h : Exec (Proc.Step true ω) (Proc.new d st) tr s) (hu : s.up) (hn : s.stop.shutdown = false) (he : ∀ m, s.full.whole.hub.engine ≠ .has m) :
    ∃ after s', Exec (Proc.Step true ω) s after s' ∧ (seenOver after = [] ∧ ∀ c, lineOf c (fullOf after) = []) ∧ shutdownOf (stopOf (tr ++ after)) = shutdownSequence ∧
      (s'.full.whole.file.failed = false → StoppedWell (Proc.Step true ω) (Proc.new d st) (tr ++ after) s') := by
  cases hx : s.full.whole.hub.engine with
  | has m => exact absurd hx (he m)
  | waiting => exact waiting_stop h hu hn (.inl hx)
  | away =>
    by_cases hl : s.left = true
    · exact waiting_stop h hu hn (.inr hl)
    · have hi := stopInv (proc_exec h).2.1
      obtain ⟨l, s1, h1, h2, h3, h4, h5, h6⟩ := engine_waits h hu (by simpa using hl) (by rw [← Bool.not_eq_true, hi.eng, (hi.none hn).1]; simp) hx
      obtain ⟨after, s', g1, g2, g3, g4⟩ := waiting_stop (h.snoc h1) h6 (by rw [h3, hn]) (.inl h2)
      exact ⟨l :: after, s', .cons h1 g1, h5.cons g2, by simpa using g3, fun hf => by simpa using g4 hf⟩

/-- On a disk that takes every write nothing fails. -/
theorem whole_noFail {n : Nat} (hω : ∀ i, n ≤ ω i) (hn : 4096 ≤ n) {tr : List Whole.Ev} {w : Whole.Sys} (h : Exec (Whole.Step ω) (Whole.new d st) tr w)
    (hq : ∀ q ∈ begunIn tr, (requestLog q.1 q.2).length ≤ n) : w.file.failed = false := by
  have key : (∀ q ∈ w.pending, q ∈ begunIn tr ∧ isLogged q.2 = true) ∧ ((∀ q ∈ begunIn tr, (requestLog q.1 q.2).length ≤ n) → w.file.failed = false ∧
      w.file.buf.length ≤ PFile.bufSize) := by
    refine h.inv (P := fun tr w => (∀ q ∈ w.pending, q ∈ begunIn tr ∧ isLogged q.2 = true) ∧ ((∀ q ∈ begunIn tr, (requestLog q.1 q.2).length ≤ n) →
      w.file.failed = false ∧ w.file.buf.length ≤ PFile.bufSize)) ⟨by simp [Whole.new], fun _ => ⟨rfl, Nat.zero_le _⟩⟩ ?_
    rintro tr w l w' - ⟨h1, h2⟩ hst
    rw [begunIn_append]
    have h1' : ∀ q ∈ w.pending, q ∈ begunIn tr ++ begunIn [l] ∧ isLogged q.2 = true := fun q hq => ⟨List.mem_append_left _ (h1 q hq).1, (h1 q hq).2⟩
    have h2' : (∀ q ∈ begunIn tr ++ begunIn [l], (requestLog q.1 q.2).length ≤ n) → w.file.failed = false ∧ w.file.buf.length ≤ PFile.bufSize :=
      fun hq => h2 fun q hm => hq q (List.mem_append_left _ hm)
    cases hst with
    | receive k m id q =>
      refine ⟨fun x hx => ?_, h2'⟩
      dsimp only at hx
      split at hx
      · next hl =>
        rcases List.mem_append.1 hx with hx | hx
        · exact h1' x hx
        · rw [List.mem_singleton.1 hx]
          exact ⟨by simp [begunIn], hl⟩
      · exact h1' x hx
    | record q b a _ _ hp =>
      refine ⟨fun x hx => h1' x (by rw [hp]; simp only [List.mem_append, List.mem_cons] at hx ⊢; tauto), fun hq => ?_⟩
      obtain ⟨g1, g2⟩ := h1' (q.stamp, q.objs) (by rw [hp]; simp)
      obtain ⟨k1, k2⟩ := h2' hq
      exact ⟨writeRecord_ok hω hn k1 k2 g2 (hq _ g1), (writeRecord_took ω w.file g2).2 k2⟩
    | flush =>
      refine ⟨h1', fun hq => ?_⟩
      obtain ⟨k1, k2⟩ := h2' hq
      obtain ⟨e1, e2, -⟩ := flush_clean hω hn k1 k2
      exact ⟨e1, by rw [e2]; exact Nat.zero_le _⟩
    | _ => exact ⟨h1', h2'⟩
  exact (key.2 hq).1

theorem hub_idle {h h' : Hub.Sys} {e : Hub.Ev} (hs : Hub.Step h e h') (he : ∀ n, e ≠ .seen (.taken n)) (hi : ∀ k, h.engine ≠ .has k) : ∀ k, h'.engine ≠ .has k := by
  cases hs <;> simp_all

/-- An engine that gets nothing begins with nothing. -/
theorem still_begun {w w' : Whole.Sys} {ls : List Whole.Ev} (hx : Exec (Whole.Step ω) w ls w') (hi : ∀ k, w.hub.engine ≠ .has k) (hn : netOf ls = []) : begunIn ls = [] := by
  have key : netOf ls = [] → begunIn ls = [] ∧ ∀ k, w'.hub.engine ≠ .has k := by
    refine hx.inv (P := fun ls w' => netOf ls = [] → begunIn ls = [] ∧ ∀ k, w'.hub.engine ≠ .has k) (fun _ => ⟨rfl, hi⟩) ?_
    rintro ls w1 l w2 - ih hst hn
    rw [netOf_append, List.append_eq_nil_iff] at hn
    obtain ⟨h1, h2⟩ := ih hn.1
    have h3 := (idle_whole hst h2).2.2.2.1
    rw [begunIn_append, h1]
    refine ⟨by cases l <;> simp_all [begunIn], ?_⟩
    rcases whole_outer hst with ⟨x, hx, rfl⟩ | ⟨hx, -⟩
    · exact hub_idle hx (by rintro n rfl; simp [outer, netOf] at hn) h2
    · rw [hx]; exact h2
  exact (key hn).1

theorem proc_run {after : List Proc.Ev} (h : Exec (Proc.Step m ω) s after s') : Exec (Whole.Step ω) s.full.whole (wholeOf (fullOf after)) s'.full.whole := by
  refine h.inv (P := fun tr s' => Exec (Whole.Step ω) s.full.whole (wholeOf (fullOf tr)) s'.full.whole) .nil ?_
  rintro tr s1 e s2 - ih hs
  rw [fullOf_append, wholeOf_append]
  exact ih.append (full_exec (proc_step hs).1).1

/-- C84: on a disk that takes every write, it can always be stopped well. -/
theorem C84_stops_well {n : Nat} (hω : ∀ i, n ≤ ω i) (hn : 4096 ≤ n) (h : Exec (Proc.Step true ω) (Proc.new d st) tr s) (hu : s.up) (hs : s.stop.shutdown = false)
    (he : ∀ m, s.full.whole.hub.engine ≠ .has m) (hq : ∀ q ∈ begunIn (wholeOf (fullOf tr)), (requestLog q.1 q.2).length ≤ n) :
    ∃ after s', (seenOver after = [] ∧ ∀ c, lineOf c (fullOf after) = []) ∧ begunIn (wholeOf (fullOf after)) = [] ∧ StoppedWell (Proc.Step true ω) (Proc.new d st) (tr ++ after) s' := by
  obtain ⟨after, s', h1, h2, -, h4⟩ := C84_can_stop h hu hs he
  have hb := still_begun (proc_run h1) he h2.1
  refine ⟨after, s', h2, hb, h4 (whole_noFail hω hn (full_exec (proc_exec (h.append h1)).1).1 ?_)⟩
  rw [fullOf_append, wholeOf_append, begunIn_append, hb, List.append_nil]
  exact hq

/-- C84, over any number of processes on the same file that are stopped well, whatever the requests and however the writers overtake each other: the next one
executes again, process by process, those of the requests executed for the clients that leave a record, the ones of one process in some order. It holds the
result, or dies where this execution dies. What is missing from the full claim is refuted by `C84_false`. -/
theorem C84_restart_partial {trs : List (List Proc.Ev)} {d : Bytes} (hl : ProcLives (Proc.Step m) trs d) (hq : ∀ tr ∈ trs, Really (wholeOf (fullOf tr))) :
    ∃ hs ws, List.Forall₂ (fun tr h => Executed (seenOver tr) h) trs hs ∧ List.Forall₂ (fun w h => w.Perm (recorded h)) ws hs ∧
      ∀ envs, fromFile noDBs envs d = filledBy (serve State.empty (again envs ws.flatten)) := by
  have hn : NetLives Whole.Step (trs.map fun tr => wholeOf (fullOf tr)) d := by
    clear hq
    induction hl with
    | none => exact .none
    | next _ hb hw ih =>
      obtain ⟨h1, h2⟩ := stopped_settled hw
      rw [List.map_append]
      exact .next ih hb (full_exec (proc_exec h1).1).1 h2
  obtain ⟨hs, ws, h1, h2, h3⟩ := C81_exact hn (fun tr ht => by
    obtain ⟨tr', ht', rfl⟩ := List.mem_map.1 ht
    exact hq tr' ht')
  exact ⟨hs, ws, (List.forall₂_map_left_iff (R := fun tr h => Executed (netOf tr) h)).1 h1, h2, h3⟩

theorem calm_run {after : List Proc.Ev} (h : Exec (Proc.Calmly m ω) s after s') :
    Exec (Whole.Calmly ω) s.full.whole (wholeOf (fullOf after)) s'.full.whole := by
  refine h.inv (P := fun tr s' => Exec (Whole.Calmly ω) s.full.whole (wholeOf (fullOf tr)) s'.full.whole) .nil ?_
  rintro tr s1 e s2 - ih ⟨hs, hc⟩
  rw [fullOf_append, wholeOf_append]
  rcases proc_whole hs with ⟨h1, h2⟩ | ⟨w, h1, h2⟩
  · rw [h2, List.append_nil, h1]; exact ih
  · rw [h1] at hc ⊢
    exact ih.snoc ⟨h2, fun ⟨q, hq⟩ => hc q (by simp [hq])⟩

theorem calm_exec {after : List Proc.Ev} (h : Exec (Proc.Calmly m ω) s after s') : Exec (Proc.Step m ω) s after s' :=
  h.inv (P := fun tr s' => Exec (Proc.Step m ω) s tr s') .nil fun _ _ _ _ _ ih hs => ih.snoc hs.1

/-- C84, for requests in UTF-8 other than LTRIM and SPOP, over any number of processes on the same file that are stopped well, and in which every writer gets
to the file before the engine begins with the next request: the replies to all clients of all processes are those of one database that is never stopped, and
the next process begins with its contents. What is missing from the full claim is refuted by `C84_false`, `C34_false` and `C33_false`. -/
theorem C84_invisible_partial {trs : List (List Proc.Ev)} {d : Bytes} (hl : ProcLives (Proc.Calmly m) trs d) (hq : ∀ tr ∈ trs, Plainly (wholeOf (fullOf tr)))
    {envs : Nat → Env} (hfair : ∀ i, (envs i).ord.Fair) :
    ∃ hs a dbs, List.Forall₂ (fun tr h => Executed (seenOver tr) h) trs hs ∧
      Trace DB.empty (hs.flatten.map Req.objs) (trs.flatMap fun tr => (doneIn (seenOver tr)).map fun x => x.2.2) a ∧
      fromFile noDBs envs d = .ok dbs ∧ Abs (dbs 1) a := by
  have hn : NetLives Whole.Calmly (trs.map fun tr => wholeOf (fullOf tr)) d := by
    clear hq
    induction hl with
    | none => exact .none
    | next _ hb hw ih =>
      obtain ⟨before, s1, i, s2, after, rfl, h1, h2, h3, h4, h5, h6⟩ := hw
      obtain ⟨-, g⟩ := stopped_settled ⟨before, s1, i, s2, after, rfl, calm_exec h1, h2, h3, h4.1, calm_exec h5, h6⟩
      rw [List.map_append]
      exact .next ih hb (calm_run (h1.append (.cons h4 h5))) g
  obtain ⟨hs, a, dbs, h1, h2, h3⟩ := C81_restart_partial hn (fun tr ht => by
    obtain ⟨tr', ht', rfl⟩ := List.mem_map.1 ht
    exact hq tr' ht') hfair
  exact ⟨hs, a, dbs, (List.forall₂_map_left_iff (R := fun tr h => Executed (netOf tr) h)).1 h1, by rw [List.flatMap_map] at h2; exact h2, h3⟩

/-! ### what is lost in stopping -/

/-- What has only to do with stopping can happen whatever the server is doing. -/
theorem stop_lift (hu : s.full.up) {ls : List Stop.Ev} {t : Stop.Sys} (h : Exec (Stop.Step ⟨m, true⟩ ω) s.stop ls t) (ho : ∀ x ∈ ls, Proc.own x = true) :
    Exec (Proc.Step m ω) s (ls.map .stop) { s with stop := t } := by
  revert ho
  refine h.inv (P := fun ls t => (∀ x ∈ ls, Proc.own x = true) → Exec (Proc.Step m ω) s (ls.map .stop) { s with stop := t }) (fun _ => .nil) ?_
  rintro ls t1 x t2 - ih hst ho
  rw [List.map_append]
  exact (ih fun y hy => ho y (by simp [hy])).snoc (.stop (s := { s with stop := t1 }) x t2 ⟨hu, hst.1, hst.2.1⟩ (ho x (by simp)) hst)

/-- The writers that wait when nobody has written yet. -/
theorem quiet_pending {tr : List Whole.Ev} {w : Whole.Sys} (h : Exec (Whole.Step ω) (Whole.new d st) tr w) (hq : ∀ q, .recorded q ∉ tr) :
    w.pending = (begunIn tr).filter fun q => isLogged q.2 := by
  revert hq
  refine h.inv (P := fun tr w => (∀ q, .recorded q ∉ tr) → w.pending = (begunIn tr).filter fun q => isLogged q.2) (fun _ => rfl) ?_
  rintro tr w l w' - ih hst hq
  have ih := ih fun q hm => hq q (by simp [hm])
  rw [begunIn_append, List.filter_append, ← ih]
  cases hst with
  | receive n m id q =>
    simp only [begunIn, List.filterMap_cons, List.filterMap_nil, List.filter_cons, List.filter_nil]
    split <;> simp
  | record q => exact absurd (by simp) (hq (q.stamp, q.objs))
  | _ => simp [begunIn]

/-- A client sends one request and gets its reply, and nobody has written yet. -/
theorem one_proc_quiet' {u : Nat} (hu : u = 7 ∨ u = 8) {b : Bytes} {ws : List Bytes} {st' : State} {r : Resp} (hp : parse b = .ok (.array (req ws)) []) (hh : handle env0 st (req ws) = .ok (st', r)) :
    ∃ tr s, .flushed ∉ wholeOf (fullOf tr) ∧ Exec (Proc.Step m ω) (Proc.new d st) tr s ∧ seenOver tr = oneTrace b ws r u ∧ Unstopped s ∧ s.up ∧ s.full.whole.out u = r.encode ∧ s.full.whole.hub.db = st' ∧
      s.full.whole.begun = none ∧ (∀ m, s.full.whole.hub.engine ≠ .has m) ∧ (s.full.whole.hub.worker = .away ∨ s.full.whole.hub.worker = .waiting) ∧
      waiting s.full.whole.hub = 0 ∧ s.full.whole.file = PFile.new d ∧ (s.full.whole.pending = [(stamp0, req ws)].filter fun q => isLogged q.2) ∧
      begunIn (wholeOf (fullOf tr)) = [(stamp0, req ws)] ∧ ∀ c, ∀ x ∈ lineOf c (fullOf tr), smooth x = true := by
  obtain ⟨n, h1, h2, h3, h4, h5, h6, h7, h8⟩ := one_run' hu hp hh
  obtain ⟨ls, w, g1, g2, g3, g4⟩ := whole_quiet (ω := ω) (d := d) h1
  obtain ⟨es, f, k1, k2, k3, -, -, k4⟩ := lift_exec (ω := ω) (d := d) (st := st) .nil g1
    (fun c k hm => by have := mem_netOf.2 hm; rw [g2] at this; simp at this) (fun _ _ c _ => ⟨rfl, rfl, rfl⟩)
  obtain ⟨tr, s, q1, q2, rfl, q4⟩ := serve_exec (m := m) k1 (.inr (by rw [k2]; exact g3.1))
  obtain ⟨cl, hc⟩ := q4.stop
  have hb := seen_idle g4 h3
  subst k3
  refine ⟨tr, s, by rw [q2, k2]; exact g3.1, q1, by rw [seenOver, q2, seenIn, k2, g2], q4, ⟨⟨?_, ?_⟩, by rw [hc]; rfl, by rw [hc]; rfl⟩, by rw [← g4.out, h2], by rw [← g4.sim.db, h4], hb, ?_, ?_, ?_, ?_, ?_, ?_, ?_⟩
  · rw [← g4.dead, h7]
  · rw [← g4.sim.crashed, h8]
  · intro x hx
    have := g4.sim.engine
    rw [hx, h3] at this
    cases this
  · have := g4.sim.worker
    rw [h5] at this
    cases hw : s.full.whole.hub.worker <;> simp_all
  · rw [waiting, ← g4.sim.buffer, h6]; rfl
  · exact untouched_file g1 ⟨g3.1, g3.2.1⟩
  · rw [quiet_pending g1 g3.2.1, one_begun g1 g2 g3 hb]
  · rw [q2, k2, one_begun g1 g2 g3 hb]
  · rw [q2]; exact k4

theorem one_proc_quiet {b : Bytes} {ws : List Bytes} {st' : State} {r : Resp} (hp : parse b = .ok (.array (req ws)) []) (hh : handle env0 st (req ws) = .ok (st', r)) :
    ∃ tr s, .flushed ∉ wholeOf (fullOf tr) ∧ Exec (Proc.Step m ω) (Proc.new d st) tr s ∧ seenOver tr = oneTrace b ws r ∧ Unstopped s ∧ s.up ∧ s.full.whole.out 7 = r.encode ∧ s.full.whole.hub.db = st' ∧
      s.full.whole.begun = none ∧ (∀ m, s.full.whole.hub.engine ≠ .has m) ∧ (s.full.whole.hub.worker = .away ∨ s.full.whole.hub.worker = .waiting) ∧
      waiting s.full.whole.hub = 0 ∧ s.full.whole.file = PFile.new d ∧ (s.full.whole.pending = [(stamp0, req ws)].filter fun q => isLogged q.2) ∧
      begunIn (wholeOf (fullOf tr)) = [(stamp0, req ws)] ∧ ∀ c, ∀ x ∈ lineOf c (fullOf tr), smooth x = true :=
  one_proc_quiet' (.inl rfl) hp hh

theorem one_proc' {u : Nat} (hu : u = 7 ∨ u = 8) {b : Bytes} {ws : List Bytes} {st' : State} {r : Resp} (hp : parse b = .ok (.array (req ws)) []) (hh : handle env0 st (req ws) = .ok (st', r)) :
    ∃ tr s, Exec (Proc.Step m ω) (Proc.new d st) tr s ∧ seenOver tr = oneTrace b ws r u ∧ Unstopped s ∧ s.up ∧ s.full.whole.out u = r.encode ∧ s.full.whole.hub.db = st' ∧
      s.full.whole.begun = none ∧ (∀ m, s.full.whole.hub.engine ≠ .has m) ∧ (s.full.whole.hub.worker = .away ∨ s.full.whole.hub.worker = .waiting) ∧
      waiting s.full.whole.hub = 0 ∧ s.full.whole.file = PFile.new d ∧ (s.full.whole.pending = [(stamp0, req ws)].filter fun q => isLogged q.2) ∧
      begunIn (wholeOf (fullOf tr)) = [(stamp0, req ws)] ∧ ∀ c, ∀ x ∈ lineOf c (fullOf tr), smooth x = true := by
  obtain ⟨tr, s, -, h⟩ := one_proc_quiet' (m := m) (ω := ω) (d := d) hu hp hh
  exact ⟨tr, s, h⟩

theorem one_proc {b : Bytes} {ws : List Bytes} {st' : State} {r : Resp} (hp : parse b = .ok (.array (req ws)) []) (hh : handle env0 st (req ws) = .ok (st', r)) :
    ∃ tr s, Exec (Proc.Step m ω) (Proc.new d st) tr s ∧ seenOver tr = oneTrace b ws r ∧ Unstopped s ∧ s.up ∧ s.full.whole.out 7 = r.encode ∧ s.full.whole.hub.db = st' ∧
      s.full.whole.begun = none ∧ (∀ m, s.full.whole.hub.engine ≠ .has m) ∧ (s.full.whole.hub.worker = .away ∨ s.full.whole.hub.worker = .waiting) ∧
      waiting s.full.whole.hub = 0 ∧ s.full.whole.file = PFile.new d ∧ (s.full.whole.pending = [(stamp0, req ws)].filter fun q => isLogged q.2) ∧
      begunIn (wholeOf (fullOf tr)) = [(stamp0, req ws)] ∧ ∀ c, ∀ x ∈ lineOf c (fullOf tr), smooth x = true := by
  obtain ⟨tr, s, -, h⟩ := one_proc_quiet (m := m) (ω := ω) (d := d) hp hh
  exact ⟨tr, s, h⟩

/-- The full claim: the next process begins with what this one stores, when this one exits, no writer waits and nothing has failed at the file. -/
def KeptByStop : Prop := ∀ (ω : Nat → Nat) (tr : List Proc.Ev) (s : Proc.Sys) (envs : Nat → Env) (dbs : DBs), Exec (Proc.Step true ω) (Proc.new [] State.empty) tr s →
  s.stop.exited = true → s.full.whole.begun = none → s.full.whole.pending = [] → s.full.whole.file.failed = false → (∀ i, (envs i).ord.Fair) →
  fromFile noDBs envs s.full.whole.file.disk = .ok dbs → ∀ a, Abs s.full.whole.hub.db a → Abs (dbs 1) a

/-- `main` returns while another goroutine is on its way through `stop`. -/
theorem exit_stop {lg : PFile} {cl : List (Nat × Stop.Dyn)} {wk : Stop.Worker} (hw : wk = .top ∨ wk = .receiving) :
    ∃ ls t, Exec (Stop.Step ⟨true, true⟩ ω) { Stop.new [] with worker := wk, queue := [], log := lg, clients := cl } (ls ++ [.exit]) t ∧
      (∀ x ∈ ls ++ [.exit], Proc.own x = true) ∧ t.exited = true := by
  have up : ∀ t : Stop.Sys, t.crashed = false ∧ t.exited = false → ∀ x t', Stop.Run ⟨true, true⟩ ω t x t' → Stop.Step ⟨true, true⟩ ω t x t' :=
    fun t h x t' hr => ⟨h.1, h.2, hr⟩
  rcases hw with rfl | rfl
  · exact ⟨[.call 1, .won 1, .did 1 .removeRequest, .did 1 .removeResponse, .did 1 .closeListener, .did 1 .closeShut, .acceptorLeft, .workerLeft, .call 0, .lost 0], _,
      .cons (up _ ⟨rfl, rfl⟩ _ _ (.call 1 (by decide) rfl)) (.cons (up _ ⟨rfl, rfl⟩ _ _ (.won 1 rfl rfl)) (.cons (up _ ⟨rfl, rfl⟩ _ _ (.removeRequest 1 rfl))
      (.cons (up _ ⟨rfl, rfl⟩ _ _ (.removeResponse 1 rfl (Nat.zero_lt_succ 99))) (.cons (up _ ⟨rfl, rfl⟩ _ _ (.closeListener 1 rfl)) (.cons (up _ ⟨rfl, rfl⟩ _ _ (.closeShut 1 rfl rfl))
      (.cons (up _ ⟨rfl, rfl⟩ _ _ (.acceptorErr rfl rfl)) (.cons (up _ ⟨rfl, rfl⟩ _ _ (.workerShut 2 rfl rfl (by decide) rfl)) (.cons (up _ ⟨rfl, rfl⟩ _ _ (.mainCall rfl rfl rfl))
      (.cons (up _ ⟨rfl, rfl⟩ _ _ (.lost 0 rfl rfl)) (.one (up _ ⟨rfl, rfl⟩ _ _ (.exit rfl)))))))))))), by simp [Proc.own], rfl⟩
  · exact ⟨[.call 1, .won 1, .did 1 .removeRequest, .did 1 .removeResponse, .did 1 .closeListener, .did 1 .closeShut, .acceptorLeft, .workerLeft, .call 0, .lost 0], _,
      .cons (up _ ⟨rfl, rfl⟩ _ _ (.call 1 (by decide) rfl)) (.cons (up _ ⟨rfl, rfl⟩ _ _ (.won 1 rfl rfl)) (.cons (up _ ⟨rfl, rfl⟩ _ _ (.removeRequest 1 rfl))
      (.cons (up _ ⟨rfl, rfl⟩ _ _ (.removeResponse 1 rfl (Nat.zero_lt_succ 99))) (.cons (up _ ⟨rfl, rfl⟩ _ _ (.closeListener 1 rfl)) (.cons (up _ ⟨rfl, rfl⟩ _ _ (.closeShut 1 rfl rfl))
      (.cons (up _ ⟨rfl, rfl⟩ _ _ (.acceptorErr rfl rfl)) (.cons (up _ ⟨rfl, rfl⟩ _ _ (.workerRemoved [] rfl rfl)) (.cons (up _ ⟨rfl, rfl⟩ _ _ (.mainCall rfl rfl rfl))
      (.cons (up _ ⟨rfl, rfl⟩ _ _ (.lost 0 rfl rfl)) (.one (up _ ⟨rfl, rfl⟩ _ _ (.exit rfl)))))))))))), by simp [Proc.own], rfl⟩

/-- C84: a client has been told that its value is set, its record is written, the process exits as it should, and the next one does not have the value:
`main` returns while another goroutine is on the way to flush the log. -/
theorem C84_false : ¬ KeptByStop := by
  intro hk
  obtain ⟨tr, s, h1, -, h2, hu, -, h3, h4, -, h5, h6, h7, h8, -⟩ := one_proc (m := true) (ω := fun _ => 100000) (d := []) (st := State.empty) setBytes_parse rfl
  obtain ⟨dr, s1, x1, p1, ⟨lg, q1⟩, q3, q4, q5, u1, -, -, -, q6⟩ := proc_drain (m := true) (ω := fun _ => 100000) hu
  obtain ⟨cl, hc⟩ := h2.stop
  rw [hc, h6] at q1
  obtain ⟨ls, t, y1, y2, y3⟩ := exit_stop (ω := fun _ => 100000) (lg := lg) (cl := cl) (wk := phase s.full.whole.hub.worker) (by rcases h5 with h5 | h5 <;> rw [h5] <;> simp [phase])
  have z := (h1.append x1).append (stop_lift u1.1 (q1 ▸ y1) y2)
  have hfile : s1.full.whole.file = writeRecord (fun _ => 100000) (PFile.new []) set1 := by rw [q6, h8, h7]; rfl
  obtain ⟨a, -, t2⟩ := serve_trace (reqs := [(env0, req [b!"set", b!"k", b!"1"])]) abs_empty (by simpa using env0_fair) rfl
  have := hk _ _ _ (fun _ => env0) noDBs z y3 (q5.trans h4) p1 ?_ (fun _ => env0_fair) ?_ a ?_
  · have e1 := t2.strs b!"k"
    have e2 := this.strs b!"k"
    rw [← e1] at e2
    cases e2
  · show s1.full.whole.file.failed = false
    rw [hfile]
    decide +kernel
  · show fromFile noDBs _ s1.full.whole.file.disk = _
    rw [hfile, show (writeRecord (fun _ => 100000) (PFile.new []) set1).disk = [] by decide +kernel]
    rfl
  · show Abs s1.full.whole.hub.db a
    rw [q4, h3]
    exact t2

/-! ### that there is something to speak about -/

/-- What meets the hypotheses of `C84_parts`, `C84_can_stop` and `C84_stops_well`: a client has set a key and got its reply. -/
theorem set_proc : ∃ tr s, Exec (Proc.Step true fun _ => 100000) (Proc.new [] State.empty) tr s ∧ seenOver tr = setTrace ∧ s.up ∧ s.stop.shutdown = false ∧
    (∀ m, s.full.whole.hub.engine ≠ .has m) ∧ begunIn (wholeOf (fullOf tr)) = [(stamp0, req [b!"set", b!"k", b!"1"])] := by
  obtain ⟨tr, s, h1, h2, h3, h4, -, -, -, h5, -, -, -, -, h6, -⟩ := one_proc (m := true) (ω := fun _ => 100000) (d := []) (st := State.empty) setBytes_parse rfl
  obtain ⟨cl, hc⟩ := h3.stop
  exact ⟨tr, s, h1, h2, h4, by rw [hc]; rfl, h5, h6⟩

example : ∃ tr s, Exec (Proc.Step true fun _ => 100000) (Proc.new [] State.empty) tr s ∧ s.up ∧ s.stop.shutdown = false ∧ (∀ m, s.full.whole.hub.engine ≠ .has m) ∧
    (∀ q ∈ begunIn (wholeOf (fullOf tr)), (requestLog q.1 q.2).length ≤ 100000) ∧ seenOver tr = setTrace := by
  obtain ⟨tr, s, h1, h2, h3, h4, h5, h6⟩ := set_proc
  exact ⟨tr, s, h1, h3, h4, h5, by rw [h6]; intro q hq; rw [List.mem_singleton.1 hq]; exact set12_small set1 (by simp), h2⟩

/-- What meets the hypotheses of `C84_settled` and `C84_restart_partial`: after that it is stopped well. -/
example : ∃ tr s, StoppedWell (Proc.Step true fun _ => 100000) (Proc.new [] State.empty) tr s ∧ ProcLives (Proc.Step true) [tr] s.full.whole.file.disk ∧ Really (wholeOf (fullOf tr)) ∧
    seenOver tr = setTrace := by
  obtain ⟨tr, s, h1, h2, h3, h4, h5, h6⟩ := set_proc
  obtain ⟨after, s', g1, g2, g3⟩ := C84_stops_well (fun _ => Nat.le_refl _) (by decide) h1 h3 h4 h5
    (by rw [h6]; intro q hq; rw [List.mem_singleton.1 hq]; exact set12_small set1 (by simp))
  have hs : seenOver (tr ++ after) = setTrace := by rw [seenOver_append, h2, g1.1]; rfl
  exact ⟨tr ++ after, s', g3, .next .none ⟨_, _, fun _ => env0_fair, rfl, rfl⟩ g3,
    plainly_really (one_plain hs (by rw [fullOf_append, wholeOf_append, begunIn_append, h6, g2]; rfl) set1_ok), hs⟩

theorem pending_begun {tr : List Whole.Ev} {w : Whole.Sys} (h : Exec (Whole.Step ω) (Whole.new d st) tr w) : ∀ q ∈ w.pending, q ∈ begunIn tr := by
  refine h.inv (P := fun tr w => ∀ q ∈ w.pending, q ∈ begunIn tr) (by simp [Whole.new]) ?_
  rintro tr w l w' - ih hst q hq
  rw [begunIn_append, List.mem_append]
  cases hst with
  | receive k m id x =>
    dsimp only at hq
    split at hq
    · rcases List.mem_append.1 hq with hq | hq
      · exact .inl (ih q hq)
      · exact .inr (by simpa [begunIn] using hq)
    · exact .inl (ih q hq)
  | record x b a _ _ hp => exact .inl (ih q (by rw [hp]; simp only [List.mem_append, List.mem_cons] at hq ⊢; tauto))
  | _ => exact .inl (ih q hq)

/-- With one request nobody is overtaken. -/
theorem one_calm {after : List Proc.Ev} (h : Exec (Proc.Step m ω) (Proc.new d st) tr s) (hx : Exec (Proc.Step m ω) s after s')
    (hb : (begunIn (wholeOf (fullOf (tr ++ after)))).length ≤ 1) : Exec (Proc.Calmly m ω) s after s' := by
  revert hb
  refine hx.inv (P := fun after s' => (begunIn (wholeOf (fullOf (tr ++ after)))).length ≤ 1 → Exec (Proc.Calmly m ω) s after s') (fun _ => .nil) ?_
  rintro after s1 e s2 hx ih hs hb
  rw [← List.append_assoc, fullOf_append, wholeOf_append, begunIn_append, List.length_append] at hb
  refine (ih (by omega)).snoc ⟨hs, fun q hq => ?_⟩
  have h1 : q ∈ begunIn (wholeOf (fullOf [e])) := by
    simp only [begunIn, List.mem_filterMap]
    exact ⟨_, hq, rfl⟩
  have h2 := List.length_pos_of_mem h1
  have h3 : begunIn (wholeOf (fullOf (tr ++ after))) = [] := List.length_eq_zero_iff.1 (by omega)
  have h4 := pending_begun (full_exec (proc_exec (h.append hx)).1).1
  rw [h3] at h4
  exact List.eq_nil_iff_forall_not_mem.2 fun q hq => by cases h4 q hq

/-- What meets those of `C84_invisible_partial`. -/
example : ∃ tr d', ProcLives (Proc.Calmly true) [tr] d' ∧ Plainly (wholeOf (fullOf tr)) ∧ seenOver tr = setTrace := by
  obtain ⟨tr, s, h1, h2, h3, h4, h5, h6⟩ := set_proc
  obtain ⟨after, s', g1, g2, g3⟩ := C84_stops_well (fun _ => Nat.le_refl _) (by decide) h1 h3 h4 h5
    (by rw [h6]; intro q hq; rw [List.mem_singleton.1 hq]; exact set12_small set1 (by simp))
  have hs : seenOver (tr ++ after) = setTrace := by rw [seenOver_append, h2, g1.1]; rfl
  have hb : begunIn (wholeOf (fullOf (tr ++ after))) = [(stamp0, req [b!"set", b!"k", b!"1"])] := by
    rw [fullOf_append, wholeOf_append, begunIn_append, h6, g2]; rfl
  refine ⟨tr ++ after, _, .next (ω := fun _ => 100000) .none ⟨_, _, fun _ => env0_fair, rfl, rfl⟩ (s := s') ?_, one_plain hs hb set1_ok, hs⟩
  obtain ⟨b, s1, i, s2, a, e1, e2, e3, e4, e5, e6, e7⟩ := g3
  have hlen : (begunIn (wholeOf (fullOf (b ++ .both (.whole .flushed) (.did i .flush) :: a)))).length ≤ 1 := by rw [← e1, hb]; simp
  have hlen' := hlen
  rw [fullOf_append, wholeOf_append, begunIn_append, List.length_append] at hlen'
  refine ⟨b, s1, i, s2, a, e1, one_calm .nil e2 (by rw [List.nil_append]; omega), e3, e4, ⟨e5, by simp [fullOf, wholeOf]⟩, one_calm (e2.snoc e5) e6 (by simpa using hlen), e7⟩

/-- What meets those of `C84_serves`. -/
example : ∃ tr f, Exec (Full.Step ω) (Full.new d State.empty) tr f ∧ .flushed ∉ wholeOf tr ∧ seenIn tr = setTrace := by
  obtain ⟨n, h1, -⟩ := set_run
  obtain ⟨ls, w, g1, g2, g3, -⟩ := whole_quiet (ω := ω) (d := d) h1
  obtain ⟨es, f, k1, k2, -⟩ := lift_exec (ω := ω) (d := d) (st := State.empty) .nil g1
    (fun c k hm => by have := mem_netOf.2 hm; rw [g2] at this; simp at this) (fun _ _ c _ => ⟨rfl, rfl, rfl⟩)
  exact ⟨es, f, k1, by rw [k2]; exact g3.1, by rw [seenIn, k2, g2]⟩

/-- What in the server has nothing to do with the bus's deliveries or with stopping can happen while it is being stopped, too. -/
theorem full_lift (hc : s.stop.crashed = false) (hx : s.stop.exited = false) {es : List Full.Ev} {f : Full.Sys} (h : Exec (Full.Step ω) s.full es f)
    (hw : ∀ w ∈ wholeOf es, (∀ x, ¬ Proc.Pair w x) ∧ Proc.requestMoves w = none ∧ Proc.responseMoves w = none ∧ Proc.engineWaits w = false ∧ Proc.engineTakes w = false) :
    ∃ s', Exec (Proc.Step m ω) s (es.map .full) s' ∧ s'.full = f ∧ s'.stop = s.stop := by
  revert hw
  refine h.inv (P := fun es f => (∀ w ∈ wholeOf es, (∀ x, ¬ Proc.Pair w x) ∧ Proc.requestMoves w = none ∧ Proc.responseMoves w = none ∧ Proc.engineWaits w = false ∧
    Proc.engineTakes w = false) → ∃ s', Exec (Proc.Step m ω) s (es.map .full) s' ∧ s'.full = f ∧ s'.stop = s.stop) (fun _ => ⟨s, .nil, rfl, rfl⟩) ?_
  rintro es f1 e f2 - ih hst hw
  rw [wholeOf_append] at hw
  obtain ⟨s1, h1, h2, h3⟩ := ih fun w hm => hw w (by simp [hm])
  subst h2
  rw [List.map_append]
  refine ⟨_, h1.snoc (.full e f2 ⟨full_up hst, by rw [h3, hc], by rw [h3, hx]⟩ (fun w hm => ?_) hst), rfl, h3⟩
  obtain ⟨g1, g2, g3, g4, g5⟩ := hw w (by
    refine List.mem_append_right _ ?_
    cases e <;> simp [Proc.within] at hm <;> simp [wholeOf, hm])
  exact ⟨⟨by simp [g2], by simp [g3], by simp [g4], by simp [g5]⟩, g1⟩

/-- A process in which this can be seen at the network, and that nobody has asked to stop. -/
theorem serve_net {tr : List Net.Ev} {n : Net.Sys} (h : Exec Net.Step (Net.new st) tr n) (hr : ∀ c k, .pipe (.refused c k) ∉ tr) :
    ∃ tr' s, Exec (Proc.Step m ω) (Proc.new d st) tr' s ∧ seenOver tr' = tr ∧ Unstopped s ∧ Seen st s.full.whole n ∧ ∀ c, Open (s.full.lines c) := by
  obtain ⟨ls, w, g1, g2, g3, g4⟩ := whole_quiet (ω := ω) (d := d) h
  obtain ⟨es, f, k1, k2, k3, k4, -⟩ := lift_exec (ω := ω) (d := d) (st := st) .nil g1
    (fun c k hm => hr c k (by rw [← g2]; exact mem_netOf.2 hm)) (fun _ _ c _ => ⟨rfl, rfl, rfl⟩)
  obtain ⟨tr', s, q1, q2, rfl, q4⟩ := serve_exec (m := m) k1 (.inr (by rw [k2]; exact g3.1))
  subst k3
  exact ⟨tr', s, q1, by rw [seenOver, q2, seenIn, k2, g2], q4, g4, fun c => k4 c ⟨rfl, rfl, rfl⟩⟩

/-- The hypotheses of `C84_unheard`: a client sends a request in time, and it is read too late. -/
example : ∃ before after s o, Exec (Proc.Step m ω) (Proc.new d State.empty) (before ++ .stop (.did 1 .removeRequest) :: after) s ∧ .read 7 0 o ∈ seenOver after := by
  obtain ⟨n, h1, h2, h3, ⟨x, h4⟩, h5, h6⟩ : ∃ n, Exec Net.Step (Net.new State.empty) [.pipe (.connected 7), .feed 7 (.arrived setBytes)] n ∧ n.dead = false ∧
      n.pipe.crashed = false ∧ (∃ x, Feed.Step (n.feeds 7) (.read (.array (req [b!"set", b!"k", b!"1"]))) x) ∧ n.pipe.conns 7 = some b!"a" ∧ n.pipe.next = 0 :=
    ⟨_, .cons (.pipe _ _ rfl rfl (.connect 7 b!"a" rfl rfl (fun _ => by simp [Net.new, Pipe.new])))
      (.one (.feed 7 _ _ rfl rfl (by simp [upd]) rfl (.arrive _ rfl))), rfl, rfl, ⟨_, .read _ [] rfl setBytes_parse⟩, rfl, rfl⟩
  obtain ⟨tr, s, g1, -, g3, g4, g5⟩ := serve_net (m := m) (ω := ω) (d := d) h1 (by simp)
  obtain ⟨cl, hc⟩ := g3.stop
  have hf : s.full.up := ⟨by rw [← g4.dead, h2], by rw [← g4.sim.crashed, h3]⟩
  obtain ⟨htr, hx, -⟩ := g4.hub
  obtain ⟨k, h', hh⟩ := (C80_no_wait hx hf.2).1 7 b!"a" (.array (req [b!"set", b!"k", b!"1"])) (by rw [← g4.sim.conns, h5])
  have hk : k = 0 := by
    have := g4.sim.next
    rw [h6] at this
    generalize hr : s.full.whole.hub = hub at hh this
    cases hh
    exact this.symm
  subst hk
  have hw : Whole.Step ω s.full.whole (.net (.read 7 0 (.array (req [b!"set", b!"k", b!"1"])))) _ := .read 7 0 _ x h' hf.1 (by rw [← g4.feeds]; exact h4) hh
  obtain ⟨es, f, k1, k2, -⟩ := lift_exec (proc_exec g1).1 (.one hw) (by simp) (fun _ _ c _ => g5 c)
  obtain ⟨t, hst, t1, t2⟩ : ∃ t, Exec (Stop.Step ⟨m, true⟩ ω) s.stop [.call 1, .won 1, .did 1 .removeRequest] t ∧ t.crashed = false ∧ t.exited = false := by
    rw [hc]
    exact ⟨_, .cons ⟨rfl, rfl, .call 1 (by decide) rfl⟩ (.cons ⟨rfl, rfl, .won 1 rfl rfl⟩ (.one ⟨rfl, rfl, .removeRequest 1 rfl⟩)), rfl, rfl⟩
  have z := g1.append (stop_lift hf hst (by simp [Proc.own]))
  obtain ⟨s', y1, -⟩ := full_lift (m := m) (s := { s with stop := t }) t1 t2 k1 (by
    rw [k2]
    simp only [List.mem_singleton, forall_eq]
    exact ⟨by nofun, rfl, rfl, rfl, rfl⟩)
  refine ⟨tr ++ [.stop (.call 1), .stop (.won 1)], es.map .full, s', .array (req [b!"set", b!"k", b!"1"]), by simpa using z.append y1, ?_⟩
  have : fullOf (es.map .full) = es := by simp [fullOf, List.filterMap_map]
  rw [seenOver, this, seenIn, k2]
  simp [netOf]

/-- The hypotheses of `C84_unsaid`: the engine has taken a request in time, and executes it too late. -/
example : ∃ before after s env r, Exec (Proc.Step m ω) (Proc.new d State.empty) (before ++ .stop (.did 1 .removeResponse) :: after) s ∧ (0, env, r) ∈ doneIn (seenOver after) := by
  obtain ⟨n, h1, h2, h3, ⟨k, h4, h5⟩, h6⟩ : ∃ n, Exec Net.Step (Net.new State.empty)
      [.pipe (.connected 7), .feed 7 (.arrived setBytes), .read 7 0 (.array (req [b!"set", b!"k", b!"1"])), .pipe (.taken 0)] n ∧ n.dead = false ∧ n.pipe.crashed = false ∧
      (∃ k, n.pipe.engine = some (0, k) ∧ Pipe.parseRequest k = some (b!"a", req [b!"set", b!"k", b!"1"])) ∧ n.pipe.db = State.empty :=
    ⟨_, .cons (.pipe _ _ rfl rfl (.connect 7 b!"a" rfl rfl (fun _ => by simp [Net.new, Pipe.new])))
      (.cons (.feed 7 _ _ rfl rfl (by simp [upd]) rfl (.arrive _ rfl))
      (.cons (.read 7 0 _ _ _ rfl (.read _ [] rfl setBytes_parse) (.read 7 b!"a" _ rfl rfl))
      (.one (.pipe _ _ rfl rfl (.take 0 _ [] [] rfl rfl rfl))))), rfl, rfl, ⟨_, rfl, rfl⟩, rfl⟩
  obtain ⟨tr, s, g1, -, g3, g4, g5⟩ := serve_net (m := m) (ω := ω) (d := d) h1 (by simp)
  obtain ⟨cl, hc⟩ := g3.stop
  have hf : s.full.up := ⟨by rw [← g4.dead, h2], by rw [← g4.sim.crashed, h3]⟩
  obtain ⟨htr, hx, -⟩ := g4.hub
  have he : s.full.whole.hub.engine = .has (0, k) := by
    have := g4.sim.engine
    rw [h4] at this
    cases he : s.full.whole.hub.engine <;> simp_all
  obtain ⟨h', hh⟩ := (C80_no_wait hx hf.2).2 0 k b!"a" (req [b!"set", b!"k", b!"1"]) env0 _ (.simple b!"OK") he h5 (by rw [← g4.sim.db, h6]; rfl)
  obtain ⟨ls, w, hw, hls⟩ : ∃ ls w, Exec (Whole.Step ω) s.full.whole (ls ++ [.net (.pipe (.executed 0 env0 (.simple b!"OK")))]) w ∧
      (ls = [] ∨ ls = [.received (stamp0, req [b!"set", b!"k", b!"1"])]) := by
    by_cases hb : s.full.whole.begun = none
    · exact ⟨[.received (stamp0, req [b!"set", b!"k", b!"1"])], _, .cons (.receive 0 k b!"a" (stamp0, req [b!"set", b!"k", b!"1"]) hf.1 hf.2 he h5 hb)
        (.one (.execute 0 env0 _ h' hf.1 (by simp) hh)), .inr rfl⟩
    · exact ⟨[], _, .one (.execute 0 env0 _ h' hf.1 hb hh), .inl rfl⟩
  obtain ⟨es, f, k1, k2, -⟩ := lift_exec (proc_exec g1).1 hw (by rcases hls with rfl | rfl <;> simp) (fun _ _ c _ => g5 c)
  obtain ⟨t, hst, t1, t2⟩ : ∃ t, Exec (Stop.Step ⟨m, true⟩ ω) s.stop [.call 1, .won 1, .did 1 .removeRequest, .did 1 .removeResponse] t ∧ t.crashed = false ∧ t.exited = false := by
    rw [hc]
    exact ⟨_, .cons ⟨rfl, rfl, .call 1 (by decide) rfl⟩ (.cons ⟨rfl, rfl, .won 1 rfl rfl⟩ (.cons ⟨rfl, rfl, .removeRequest 1 rfl⟩
      (.one ⟨rfl, rfl, .removeResponseExpired 1 rfl⟩))), rfl, rfl⟩
  have z := g1.append (stop_lift hf hst (by simp [Proc.own]))
  obtain ⟨s', y1, -⟩ := full_lift (m := m) (s := { s with stop := t }) t1 t2 k1 (by
    rw [k2]
    rcases hls with rfl | rfl <;> simp only [List.nil_append, List.cons_append, List.mem_cons, List.not_mem_nil, or_false, forall_eq, forall_eq_or_imp]
    · exact ⟨by nofun, rfl, rfl, rfl, rfl⟩
    · exact ⟨⟨by nofun, rfl, rfl, rfl, rfl⟩, by nofun, rfl, rfl, rfl, rfl⟩)
  refine ⟨tr ++ [.stop (.call 1), .stop (.won 1), .stop (.did 1 .removeRequest)], es.map .full, s', env0, .simple b!"OK", by simpa using z.append y1, ?_⟩
  have : fullOf (es.map .full) = es := by simp [fullOf, List.filterMap_map]
  rw [seenOver, this, seenIn, k2]
  rcases hls with rfl | rfl <;> simp [netOf, doneIn]

/-- The hypotheses of `C84_left`, in a process that has been stopped well. -/
example : ∃ tr s after s', Exec (Proc.Step true fun _ => 100000) (Proc.new [] State.empty) tr s ∧ s.left = true ∧ Exec (Proc.Step true fun _ => 100000) s after s' ∧
    after ≠ [] ∧ doneIn (seenOver tr) ≠ [] := by
  obtain ⟨tr, s, h1, h2, h3, h4, h5, h6⟩ := set_proc
  obtain ⟨after, s', g1, g2, b, s1, i, s2, a, e1, e2, e3, e4, e5, e6, e7⟩ := C84_stops_well (fun _ => Nat.le_refl _) (by decide) h1 h3 h4 h5
    (by rw [h6]; intro q hq; rw [List.mem_singleton.1 hq]; exact set12_small set1 (by simp))
  refine ⟨b, s1, _ :: a, s', e2, e3, .cons e5 e6, by simp, ?_⟩
  have hs : seenOver (tr ++ after) = setTrace := by rw [seenOver_append, h2, g1.1]; rfl
  rw [e1, show b ++ Proc.Ev.both (.whole .flushed) (.did i .flush) :: a = (b ++ [.both (.whole .flushed) (.did i .flush)]) ++ a by simp, seenOver_append] at hs
  have hd : doneIn (seenOver a) = [] := (left_still (e2.snoc e5) (by rw [left_kept e5 e3]) e6).2.2.2.2.1
  have := congrArg doneIn hs
  rw [doneIn_append, hd, List.append_nil, seenOver_append] at this
  rw [show seenOver b = seenOver b ++ seenOver [.both (.whole .flushed) (.did i .flush)] from (List.append_nil _).symm, this]
  simp [doneIn]

/-- Those of `C84_last`. -/
example : ∃ before s, Exec (Proc.Step true ω) (Proc.new [] State.empty) (before ++ [.stop .exit]) s ∧ seenOver before = setTrace := by
  obtain ⟨tr, s, h1, h2, h3, hu, -, -, -, -, h5, h6, -⟩ := one_proc (m := true) (ω := ω) (d := []) (st := State.empty) setBytes_parse rfl
  obtain ⟨cl, hc⟩ := h3.stop
  rw [h6] at hc
  obtain ⟨ls, t, y1, y2, -⟩ := exit_stop (ω := ω) (lg := s.full.whole.file) (cl := cl) (wk := phase s.full.whole.hub.worker) (by rcases h5 with h5 | h5 <;> rw [h5] <;> simp [phase])
  have z := h1.append (stop_lift (m := true) hu.1 (hc ▸ y1) y2)
  refine ⟨tr ++ ls.map .stop, _, by simpa using z, ?_⟩
  have : fullOf (ls.map .stop) = [] := by simp [fullOf, List.filterMap_map]
  rw [seenOver_append, h2, seenOver, this]
  rfl

/-- Those of `C84_completes`. -/
example : ∃ tr s, Exec (Proc.Step true fun _ => 100000) (Proc.new [] State.empty) tr s ∧ s.up ∧ s.stop.shutdown = true ∧ seenOver tr = setTrace := by
  obtain ⟨tr, s, h1, h2, h3, h4, h5, -⟩ := set_proc
  obtain ⟨n, hi⟩ := stop_idle (proc_exec h1).2.1
  exact ⟨_, _, h1.append (stop_lift h3.1 (.cons ⟨h3.2.1, h3.2.2, .call (n + 1) (by omega) (hi _ (by omega))⟩ (.one ⟨h3.2.1, h3.2.2, .won (n + 1) (by simp [upd]) h4⟩))
    (by simp [Proc.own])), h3, rfl, by rw [seenOver_append, h2]; rfl⟩

end Verif.Props
