import Verif.Props.Restart
import Verif.Spec.Durable

/-! # C77 – what of the answered requests survives the end of the process -/

namespace Verif.Props

open Spec PFile

/-- C77: what was received before some moment at which everything was out of the buffer is executed again by the next server, whenever the process
ends later and whatever happens in between, apart from requests whose writers had not reached the file at that moment. It comes before everything
else the next server executes. -/
theorem C77_out {ω : Nat → Nat} {h : List Req} {e0 e : Engine} {p : PFile} (hr0 : Runs ω [] h e0) (ha : AllOut e0)
    (hr : Relation.ReflTransGen (Engine.Step ω) e0 e) (he : EndsWith ω e p) (ho : ∀ q ∈ h, q.Occurs) (envs : Nat → Env) :
    ∃ first later rest, (first ++ recorded e0.pending).Perm (recorded (h.take (received h e0))) ∧
      (first ++ later ++ rest).Perm (recorded (h.take (received h e))) ∧
      fromFile noDBs envs p.disk = filledBy (serve State.empty (again envs (first ++ later))) := by
  obtain ⟨done0, w0, i0⟩ := runInv hr0
  obtain ⟨done, w, hw, i⟩ := runInv_steps i0 hr
  obtain ⟨a1, -⟩ := runInv_recorded i0 ho
  obtain ⟨b1, b2⟩ := runInv_recorded i ho
  have hpre : p.disk <+: historyLog (recorded w) ∧ e.file.disk <+: p.disk := by
    have h6 := i.pre
    rw [List.nil_append, ← recorded_log] at h6
    rcases he with rfl | rfl
    · exact ⟨(List.prefix_append _ _).trans h6, List.prefix_rfl⟩
    · rw [← flush_bytes ω] at h6
      exact ⟨(List.prefix_append _ _).trans h6, flush_grows ω _⟩
  have hgrow : e0.file.disk <+: e.file.disk := by
    clear hpre he i hw b1 b2
    induction hr with
    | refl => exact List.prefix_rfl
    | tail _ hs ih => exact ih.trans (step_grows hs)
  have hdisk : e0.file.disk = historyLog (recorded w0) := by
    have := i0.file ha.1
    rwa [ha.2, List.append_nil, List.nil_append, ← recorded_log] at this
  have hfil : recorded w0 <+: recorded w := hw.filter _
  obtain ⟨n, err, hk, hp, -⟩ := parse_recorded b2 hpre.1
  have hn : (recorded w0).length ≤ n := by
    refine hk.2.2 _ hfil.length_le ?_
    rw [← List.prefix_iff_eq_take.1 hfil, ← hdisk]
    exact (hgrow.trans hpre.2).length_le
  obtain ⟨later, hlater⟩ : recorded w0 <+: (recorded w).take n :=
    List.prefix_of_prefix_length_le hfil (List.take_prefix _ _) (by rw [List.length_take]; exact Nat.le_min.2 ⟨hn, hfil.length_le⟩)
  refine ⟨recorded w0, later, (recorded w).drop n ++ recorded e.pending, a1, ?_, ?_⟩
  · rw [hlater, ← List.append_assoc, List.take_append_drop]
    exact b1
  · rw [hlater, fromFile, hp, build_started fun q hq => b2 q (List.mem_of_mem_take hq)]

theorem write_fits (ω : Nat → Nat) {p : PFile} {b : Bytes} (h : p.buf.length + b.length ≤ bufSize) (hf : p.failed = false) :
    write ω p b = ({ p with buf := p.buf ++ b }, b.length) := by
  have e : writeLoop ω 3 p b 0 = (p, b, 0) := by
    rw [writeLoop, if_neg]
    rintro ⟨h1, -⟩; omega
  simp [write, e, hf]

theorem log_mono {h : List Req} {m n : Nat} (hmn : m ≤ n) : (historyLog (h.take m)).length ≤ (historyLog (h.take n)).length := by
  obtain ⟨t, ht⟩ : h.take m <+: h.take n := List.take_prefix_take_left hmn
  rw [← ht, historyLog_append, List.length_append]; omega

theorem received_mono {ω : Nat → Nat} {h : List Req} {e e' : Engine} (hs : Engine.Step ω e e') : received h e ≤ received h e' := by
  unfold received
  cases hs with
  | receive ht hc => simp only [ht, List.length_cons]; omega
  | _ => exact Nat.le_refl _

/-- C77: as long as no replica has been served and the log is at most 4096 bytes longer than at the start, the file is what it was at the start: a
server that is killed then leaves nothing behind. -/
theorem C77_unserved {ω : Nat → Nat} {d : Bytes} {h : List Req} {e : Engine} (hr : Relation.ReflTransGen (Unserved ω) (Engine.start d h) e)
    (hl : (historyLog (h.take (received h e))).length ≤ 4096) : e.file.disk = d := by
  suffices H : Runs ω d h e ∧ e.file.disk = d ∧ e.file.failed = false from H.2.1
  induction hr with
  | refl => exact ⟨.refl, rfl, rfl⟩
  | @tail e e' _ hs ih =>
    obtain ⟨hs, hu⟩ := hs
    obtain ⟨h0, h1, h2⟩ := ih (Nat.le_trans (log_mono (received_mono hs)) hl)
    refine ⟨h0.tail hs, ?_⟩
    obtain ⟨done, w, hi⟩ := runInv h0
    cases hs with
    | receive ht hc => exact ⟨h1, h2⟩
    | execute hc hh => exact ⟨h1, h2⟩
    | @write before after q hp =>
      have hq : isLogged q.objs = true := by
        have : q ∈ logged (done ++ e.current.toList) := hi.perm.subset (by simp [hp])
        exact (List.mem_filter.1 this).2
      have hlen : (historyLog w).length + (requestLog q.stamp q.objs).length ≤ 4096 := by
        have h3 : (historyLog (w ++ e.pending)).length = (historyLog (logged (done ++ e.current.toList))).length := (hi.perm.flatMap_right _).length_eq
        rw [historyLog_logged, ← runInv_received hi, hp, historyLog_append, historyLog_append, show q :: after = [q] ++ after from rfl, historyLog_append,
          show historyLog [q] = requestLog q.stamp q.objs by simp [historyLog]] at h3
        simp only [List.length_append] at h3
        have : (historyLog (h.take (received h e))).length ≤ 4096 := hl
        omega
      have hbuf : e.file.buf.length = (historyLog w).length := by
        have := congrArg List.length (hi.file h2)
        rw [h1] at this
        simpa using this
      simp only [writeRecord]
      rw [requestLog, if_pos hq, logBytes] at hlen
      split
      · rename_i b hb
        rw [hb] at hlen
        rw [write_fits ω (by rw [hbuf]; exact hlen) h2]
        exact ⟨h1, h2⟩
      · exact ⟨h1, h2⟩
    | flush =>
      rcases hu with hu | hu
      · simp only at hu ⊢; rw [hu]; exact ⟨h1, h2⟩
      · exact absurd hu (Nat.lt_irrefl _)

/-- C77: the number of requests that are answered and lost has no bound, even if nothing was written wrongly: for every number of requests they may all
be answered before the first writer reaches the file. -/
theorem C77_many (ω : Nat → Nat) (n : Nat) : ∃ (h : List Req) (e : Engine), (∀ q ∈ h, q.Occurs) ∧ Runs ω [] h e ∧
    e.replies = List.replicate n (.simple b!"OK") ∧ e.file.disk = [] ∧ (e.file.flush ω).disk = [] := by
  have hs : ∀ (n : Nat) (st : State), (∃ a, Abs st a) → ∃ st', serve st (served (List.replicate n set1)) = .ok (st', List.replicate n (.simple b!"OK")) := by
    intro n
    induction n with
    | zero => exact fun st _ => ⟨st, rfl⟩
    | succ n ih =>
      rintro st ⟨a, ha⟩
      obtain ⟨out, hst, hob⟩ := handle_refines ha env0_fair (c := .set b!"k" b!"1") (request_req (n := b!"set") [b!"k", b!"1"])
      simp only [Step] at hst
      subst hst
      obtain ⟨st1, h1, h2⟩ := hob
      obtain ⟨st2, h3⟩ := ih st1 ⟨_, h2⟩
      refine ⟨st2, ?_⟩
      rw [List.replicate_succ, served, List.map_cons, serve, show handle set1.env st set1.objs = _ from h1]
      simp only
      rw [show serve st1 (List.map (fun q : Req => (q.env, q.objs)) (List.replicate n set1)) = _ from h3]
      rfl
  obtain ⟨st, hst⟩ := hs n State.empty ⟨_, abs_empty⟩
  refine ⟨List.replicate n set1, _, fun q hq => ?_, runs_serve ω [] [] _ [] _ _ [] _ [] hst, by simp, rfl, ?_⟩
  · rw [(List.mem_replicate.1 hq).2]; exact set1_ok.1
  · simp [PFile.flush, PFile.new]

/-- The full claim: a server that is at rest can be killed without loss. -/
def Durable : Prop := ∀ (ω : Nat → Nat) (h : List Req) (e : Engine) (a : DB),
  (∀ q ∈ h, q.Occurs ∧ ¬ q.Is b!"ltrim" ∧ ¬ q.Is b!"spop" ∧ ∀ o ∈ q.objs, TextObj o) → RunsUnhurried ω h e → Idle e → Abs e.db a →
  ∀ envs : Nat → Env, (∀ i, (envs i).ord.Fair) → ∃ dbs, fromFile noDBs envs e.file.disk = .ok dbs ∧ Abs (dbs 1) a

/-- C77, with the additional hypothesis that everything is out of the buffer. -/
theorem C77_rest_partial {ω : Nat → Nat} {h : List Req} {e : Engine} {a : DB}
    (ho : ∀ q ∈ h, q.Occurs ∧ ¬ q.Is b!"ltrim" ∧ ¬ q.Is b!"spop" ∧ ∀ o ∈ q.objs, TextObj o) (hr : RunsUnhurried ω h e) (hi : Idle e)
    (hd : Abs e.db a) (hout : AllOut e) {envs : Nat → Env} (hf : ∀ i, (envs i).ord.Fair) :
    ∃ dbs, fromFile noDBs envs e.file.disk = .ok dbs ∧ Abs (dbs 1) a := by
  obtain ⟨i1, i2, i3⟩ := hi
  have hrun : Runs ω [] h e := unhurried_runs hr
  obtain ⟨done, written, h1, h2, -⟩ := runInv hrun
  have hdone : done = h := by rw [h1, i1, i2]; simp
  subst hdone
  have hrec : received done e = done.length := by simp [received, i1]
  obtain ⟨n, dbs, s, b, g1, g2, g3, g4, g5, -, g6, -⟩ := C59_crash_partial hr (.inl rfl) ho h2 hf
  obtain ⟨L, -, k2, -, -, -, -, k3, -⟩ := unhurried_inv hr
  have hL := k3 hout.1
  rw [hout.2, List.append_nil] at hL
  rw [i3, ← hL] at k2
  simp only [historyLog, List.flatMap_nil, List.append_nil] at k2
  have hn : n = done.length := by
    have := g6 done.length (by omega) (by rw [k2, hrec]; rfl)
    omega
  rw [hn, List.take_length, h2] at g3
  obtain ⟨rfl, -⟩ := Prod.mk.inj (Outcome.ok.inj g3)
  cases abs_unique g4 hd
  exact ⟨dbs, g2, g5⟩

/-- C77 is false: after one SET, answered and written by its writer, the next server knows nothing of it. -/
theorem C77_false : ¬ Durable := by
  intro H
  have hr : RunsUnhurried (fun _ => 100000) [set1] _ := .tail (.tail (.tail .refl ⟨.receive rfl rfl, .inr rfl⟩) ⟨.execute rfl rfl, .inl rfl⟩)
    ⟨.write (before := []) (after := []) rfl, .inl rfl⟩
  obtain ⟨out, hst, hob⟩ := handle_refines abs_empty env0_fair (c := .set b!"k" b!"1") (request_req (n := b!"set") [b!"k", b!"1"])
  simp only [Step] at hst
  subst hst
  obtain ⟨st1, h1, h2⟩ := hob
  cases h1
  obtain ⟨dbs, g1, g2⟩ := H _ _ _ _ (by simpa using set1_ok) hr ⟨rfl, rfl, rfl⟩ h2 (fun _ => env0) (fun _ => env0_fair)
  cases g1
  exact not_same_int (by decide) (differ h2 g2 [b!"k"] b!"exists" (by decide) rfl rfl)

/-- The hypotheses of `C77_out` and `C77_rest_partial`: a replica has been served after a SET. -/
example : ∃ e, RunsUnhurried (fun _ => 100000) [set1] e ∧ Idle e ∧ AllOut e ∧ e.file.disk = historyLog [set1] ∧ e.replies = [.simple b!"OK"] := by
  refine ⟨_, .tail (.tail (.tail (.tail .refl ⟨.receive rfl rfl, .inr rfl⟩) ⟨.execute rfl rfl, .inl rfl⟩)
    ⟨.write (before := []) (after := []) rfl, .inl rfl⟩) ⟨.flush, .inl rfl⟩, ⟨rfl, rfl, rfl⟩, ?_, ?_, rfl⟩
  · unfold AllOut; decide +kernel
  · decide +kernel

/-- The hypotheses of `C77_unserved`. -/
example : ∃ e, Relation.ReflTransGen (Unserved fun _ => 100000) (Engine.start b!"old" [set1]) e ∧ e.replies = [.simple b!"OK"] ∧ e.pending = [] ∧
    (historyLog ([set1].take (received [set1] e))).length ≤ 4096 := by
  refine ⟨_, .tail (.tail (.tail .refl ⟨.receive rfl rfl, .inl rfl⟩) ⟨.execute rfl rfl, .inl rfl⟩) ⟨.write (before := []) (after := []) rfl, .inr ?_⟩,
    rfl, rfl, ?_⟩
  · decide
  · decide +kernel

end Verif.Props
