import Verif.Props.Proc

/-!
C84: what an engine still does that has been told to stop.
-/

namespace Verif.Props

open Verif Spec
open Verif.Fut (upd)

variable {m : Bool} {ω : Nat → Nat} {d : Bytes} {st : State} {tr : List Proc.Ev} {s s' : Proc.Sys}

/-- How many requests an engine can still execute without calling `Receive` again. -/
def inHand : Hub.Engine → Nat
  | .away => 0
  | .waiting | .has _ => 1

theorem shut_kept {cfg : Stop.Config} {s s' : Stop.Sys} {x : Stop.Ev} (hs : Stop.Step cfg ω s x s') : s.engineShut = true → s'.engineShut = true := by
  obtain ⟨-, -, hs⟩ := hs
  cases hs <;> simp_all

theorem engine_shut_kept {e : Proc.Ev} (hs : Proc.Step m ω s e s') : s.stop.engineShut = true → s'.stop.engineShut = true := by
  cases hs with
  | full | engineLeft => exact id
  | both _ _ _ _ _ _ _ _ _ _ h => exact shut_kept h
  | stop _ _ _ _ h | told _ _ _ _ _ h => exact shut_kept h

/-- What a step of the server does to the requests in the hands of the engine, if it does not call `Receive`. -/
theorem inHand_whole {w w' : Whole.Sys} {e : Whole.Ev} (hs : Whole.Step ω w e w') (he : Proc.engineWaits e = false) :
    (doneIn (netOf [e])).length + inHand w'.hub.engine ≤ inHand w.hub.engine := by
  rcases whole_outer hs with ⟨x, hx, rfl⟩ | ⟨hx, he'⟩
  · generalize w.hub = g at *
    generalize w'.hub = g' at *
    cases hx with
    | wait => cases he
    | requests e w _ hi => simp [outer, netOf, doneIn]
    | responses e w _ hi => simp [outer, netOf, doneIn]
    | take n name k w _ h1 => simp [outer, netOf, doneIn, h1, inHand]
    | ignore n k _ h1 => simp [outer, netOf, doneIn, h1, inHand]
    | execute n k id objs env db r w _ h1 => simp [outer, netOf, doneIn, h1, inHand]
    | _ => simp [outer, netOf, doneIn]
  · rw [hx]
    rcases he' with ⟨c, x, rfl⟩ | ⟨q, rfl⟩ | ⟨q, rfl⟩ | rfl <;> simp [netOf, doneIn]

theorem inHand_proc {e : Proc.Ev} (hs : Proc.Step m ω s e s') (hu : s.stop.engineShut = true) :
    (doneIn (seenOver [e])).length + inHand s'.full.whole.hub.engine ≤ inHand s.full.whole.hub.engine := by
  have calm : ∀ {w}, Proc.allowed s w → Proc.engineWaits w = false := by
    intro w ha
    by_contra hn
    have := (ha.2.2.1 (by simpa using hn)).2
    rw [hu] at this; cases this
  have e1 : seenOver [e] = netOf (wholeOf (fullOf [e])) := rfl
  rcases proc_whole hs with ⟨hw, e2⟩ | ⟨w, hw, hst⟩
  · rw [e1, e2, hw]; simp [netOf, doneIn]
  · rw [e1, hw]
    refine inHand_whole hst ?_
    cases hs with
    | full e f _ h1 h2 =>
      rcases full_within h2 with ⟨w', g1, -⟩ | ⟨g1, -⟩
      · have : w' = w := by cases e <;> simp [Proc.within] at g1 <;> subst g1 <;> simpa [fullOf, wholeOf] using hw
        subst this
        exact calm (h1 w' g1).1
      · cases e <;> simp [Proc.within] at g1
        simp [fullOf, wholeOf] at hw
    | both e x w' f t _ g1 _ h2 h3 _ =>
      have : w' = w := by cases e <;> simp [Proc.within] at g1 <;> subst g1 <;> simpa [fullOf, wholeOf] using hw
      subst this
      exact calm h2
    | stop | told | engineLeft => simp [fullOf, wholeOf] at hw

/-- C84: once the engine has been told to stop it executes one more request at most: the one it is at work on, or the one it is waiting for. -/
theorem C84_once_more {before after : List Proc.Ev} {i : Nat} (h : Exec (Proc.Step m ω) (Proc.new d st) (before ++ .stop (.did i .closeEngine) :: after) s) :
    (doneIn (seenOver after)).length ≤ 1 := by
  obtain ⟨s1, -, h2⟩ := h.split
  rw [show Proc.Ev.stop (.did i .closeEngine) :: after = [.stop (.did i .closeEngine)] ++ after from rfl] at h2
  obtain ⟨s2, h2, h3⟩ := h2.split
  have hu : s2.stop.engineShut = true := by
    cases exec_single h2 with
    | stop _ _ _ _ h => obtain ⟨-, -, h⟩ := h; cases h; rfl
  have key : s.stop.engineShut = true ∧ (doneIn (seenOver after)).length + inHand s.full.whole.hub.engine ≤ inHand s2.full.whole.hub.engine := by
    refine h3.inv (P := fun after s => s.stop.engineShut = true ∧ (doneIn (seenOver after)).length + inHand s.full.whole.hub.engine ≤ inHand s2.full.whole.hub.engine)
      ⟨hu, by simp [seenOver, fullOf, seenIn, wholeOf, netOf, doneIn]⟩ ?_
    rintro after s3 e s4 - ⟨k1, k2⟩ hs
    refine ⟨engine_shut_kept hs k1, ?_⟩
    have := inHand_proc hs k1
    rw [seenOver_append, doneIn_append, List.length_append]
    omega
  have : inHand s2.full.whole.hub.engine ≤ 1 := by cases s2.full.whole.hub.engine <;> simp [inHand]
  omega

/-- An engine at work of which nothing is seen stays at work. -/
theorem at_work {after : List Proc.Ev} (hx : Exec (Proc.Step m ω) s after s') {k : Wired.Mail (GoMap Pipe.Val)} (he : s.full.whole.hub.engine = .has k) (hq : seenOver after = []) :
    s'.full.whole.hub.engine = .has k ∧ s'.full.whole.hub.db = s.full.whole.hub.db := by
  revert hq
  refine hx.inv (P := fun after s' => seenOver after = [] → s'.full.whole.hub.engine = .has k ∧ s'.full.whole.hub.db = s.full.whole.hub.db) (fun _ => ⟨he, rfl⟩) ?_
  rintro after s1 e s2 - ih hs hq
  rw [seenOver_append, List.append_eq_nil_iff] at hq
  obtain ⟨k1, k2⟩ := ih hq.1
  have e1 : netOf (wholeOf (fullOf [e])) = [] := hq.2
  rcases proc_whole hs with ⟨hw, -⟩ | ⟨w, hw, hst⟩
  · rw [hw]; exact ⟨k1, k2⟩
  · rw [hw] at e1
    rcases whole_outer hst with ⟨x, hx, rfl⟩ | ⟨hx, -⟩
    · generalize s1.full.whole.hub = g at *
      generalize s2.full.whole.hub = g' at *
      cases hx <;> simp_all [outer, netOf]
    · rw [hx]; exact ⟨k1, k2⟩

/-- The hypotheses of `C84_once_more`, and one more request it is: the engine is at work on a request while the whole shutdown is done, and then executes it. -/
example : ∃ before i after s r, Exec (Proc.Step true ω) (Proc.new d State.empty) (before ++ .stop (.did i .closeEngine) :: after) s ∧ doneIn (seenOver after) = [(0, env0, r)] := by
  obtain ⟨n, h1, h2, h3, ⟨k, h4, h5⟩, h6⟩ : ∃ n, Exec Net.Step (Net.new State.empty)
      [.pipe (.connected 7), .feed 7 (.arrived setBytes), .read 7 0 (.array (req [b!"set", b!"k", b!"1"])), .pipe (.taken 0)] n ∧ n.dead = false ∧ n.pipe.crashed = false ∧
      (∃ k, n.pipe.engine = some (0, k) ∧ Pipe.parseRequest k = some (b!"a", req [b!"set", b!"k", b!"1"])) ∧ n.pipe.db = State.empty :=
    ⟨_, .cons (.pipe _ _ rfl rfl (.connect 7 b!"a" rfl rfl (fun _ => by simp [Net.new, Pipe.new])))
      (.cons (.feed 7 _ _ rfl rfl (by simp [upd]) rfl (.arrive _ rfl))
      (.cons (.read 7 0 _ _ _ rfl (.read _ [] rfl setBytes_parse) (.read 7 b!"a" _ rfl rfl))
      (.one (.pipe _ _ rfl rfl (.take 0 _ [] [] rfl rfl rfl))))), rfl, rfl, ⟨_, rfl, rfl⟩, rfl⟩
  obtain ⟨tr, s, g1, gt, g3, g4, g5⟩ := serve_net (m := true) (ω := ω) (d := d) h1 (by simp)
  obtain ⟨cl, hc⟩ := g3.stop
  have hf : s.full.up := ⟨by rw [← g4.dead, h2], by rw [← g4.sim.crashed, h3]⟩
  have he : s.full.whole.hub.engine = .has (0, k) := by
    have := g4.sim.engine
    rw [h4] at this
    cases he : s.full.whole.hub.engine <;> simp_all
  obtain ⟨t, hst, t1, t2, t3⟩ : ∃ t, Exec (Stop.Step ⟨true, true⟩ ω) s.stop [.call 1, .won 1] t ∧ t.crashed = false ∧ t.exited = false ∧ t.shutdown = true := by
    rw [hc]
    exact ⟨_, .cons ⟨rfl, rfl, .call 1 (by decide) rfl⟩ (.one ⟨rfl, rfl, .won 1 rfl rfl⟩), rfl, rfl, rfl⟩
  have z := g1.append (stop_lift hf hst (by simp [Proc.own]))
  obtain ⟨after, s1, x1, x2, x3, x4, x5⟩ := C84_completes z ⟨hf, t1, t2⟩ t3
  obtain ⟨y1, y2⟩ := at_work x1 he x4
  have z1 := z.append x1
  have hdb : s1.full.whole.hub.db = State.empty := by rw [y2]; show s.full.whole.hub.db = _; rw [← g4.sim.db, h6]
  obtain ⟨n', -, hseen⟩ := whole_net (full_exec (proc_exec z1).1).1
  obtain ⟨htr, hx, -⟩ := hseen.hub
  obtain ⟨h', hh⟩ := (C80_no_wait hx x3.1.2).2 0 k b!"a" (req [b!"set", b!"k", b!"1"]) env0 _ (.simple b!"OK") y1 h5 (by rw [hdb]; rfl)
  obtain ⟨ls, w, hw, hls⟩ : ∃ ls w, Exec (Whole.Step ω) s1.full.whole (ls ++ [.net (.pipe (.executed 0 env0 (.simple b!"OK")))]) w ∧
      (ls = [] ∨ ls = [.received (stamp0, req [b!"set", b!"k", b!"1"])]) := by
    by_cases hb : s1.full.whole.begun = none
    · exact ⟨[.received (stamp0, req [b!"set", b!"k", b!"1"])], _, .cons (.receive 0 k b!"a" (stamp0, req [b!"set", b!"k", b!"1"]) x3.1.1 x3.1.2 y1 h5 hb)
        (.one (.execute 0 env0 _ h' x3.1.1 (by simp) hh)), .inr rfl⟩
    · exact ⟨[], _, .one (.execute 0 env0 _ h' x3.1.1 hb hh), .inl rfl⟩
  obtain ⟨es, f, k1, k2, -⟩ := lift_exec (proc_exec z1).1 hw (by rcases hls with rfl | rfl <;> simp) (by rcases hls with rfl | rfl <;> simp [touches])
  obtain ⟨s', q1, -⟩ := full_lift (m := true) x3.2.1 x3.2.2 k1 (by
    rw [k2]
    rcases hls with rfl | rfl <;> simp only [List.nil_append, List.cons_append, List.mem_cons, List.not_mem_nil, or_false, forall_eq, forall_eq_or_imp]
    · exact ⟨by nofun, rfl, rfl, rfl, rfl⟩
    · exact ⟨⟨by nofun, rfl, rfl, rfl, rfl⟩, by nofun, rfl, rfl, rfl, rfl⟩)
  have hd : doneIn (seenOver (es.map .full)) = [(0, env0, .simple b!"OK")] := by
    have : fullOf (es.map .full) = es := by simp [fullOf, List.filterMap_map]
    rw [seenOver, this, seenIn, k2]
    rcases hls with rfl | rfl <;> simp [netOf, doneIn]
  obtain ⟨i, hi⟩ := mem_shutdownOf.1 (show Stop.Act.closeEngine ∈ shutdownOf (stopOf (tr ++ [.stop (.call 1), .stop (.won 1)] ++ after)) by
    have := x2
    simp only [List.map_cons, List.map_nil] at this
    rw [this]; simp [shutdownSequence])
  have split : ∃ b a, tr ++ [.stop (.call 1), .stop (.won 1)] ++ after = b ++ .stop (.did i .closeEngine) :: a := by
    obtain ⟨e, hm, rfl | ⟨f, rfl⟩⟩ := mem_stopOf.1 hi
    · exact List.append_of_mem hm
    · obtain ⟨b, a, e2⟩ := List.append_of_mem hm
      have z2 := z1
      simp only [List.map_cons, List.map_nil] at z2
      rw [e2] at z2
      obtain ⟨s3, -, h7⟩ := z2.split
      rw [show Proc.Ev.both f (.did i .closeEngine) :: a = [.both f (.did i .closeEngine)] ++ a from rfl] at h7
      obtain ⟨s4, h7, -⟩ := h7.split
      cases exec_single h7 with
      | both _ _ _ _ _ _ _ hp => cases hp
  obtain ⟨b, a, e2⟩ := split
  have z3 := z1.append q1
  simp only [List.map_cons, List.map_nil] at z3
  rw [e2] at z3
  refine ⟨b, i, a ++ es.map .full, s', .simple b!"OK", by simpa using z3, ?_⟩
  have hnone : doneIn (seenOver a) = [] := by
    have : doneIn (seenOver (tr ++ [.stop (.call 1), .stop (.won 1)] ++ after)) = [] := by
      rw [seenOver_append, seenOver_append, gt, x4]; rfl
    rw [e2, show b ++ Proc.Ev.stop (.did i .closeEngine) :: a = (b ++ [.stop (.did i .closeEngine)]) ++ a by simp, seenOver_append, doneIn_append, List.append_eq_nil_iff] at this
    exact this.2
  rw [seenOver_append, doneIn_append, hnone, hd]; rfl

end Verif.Props
