import Verif.Props.Mirror
import Verif.Lemmas.Restart

/-! # C33, C59, C63 – what a server started on any log holds

`C33_rebuilds_partial`, `C59_crash_partial` and `C63_own_partial` exclude what makes their claims false. The theorems here exclude nothing: they say exactly which
requests the next server executes. -/

namespace Verif.Props

open Spec PFile

/-- C33: whatever the requests were, a server started on their log executes again, in the same order and with new iteration orders and random
choices, exactly those that leave a record: well-formed requests for a command in `loggedNames` all of whose strings are UTF-8. It holds the result
in database 1 and nothing elsewhere, or dies where this execution dies. -/
theorem C33_exact {h : List Req} (ho : ∀ q ∈ h, q.Occurs) (envs : Nat → Env) :
    fromFile noDBs envs (historyLog h) = filledBy (serve State.empty (again envs (recorded h))) := fromFile_recorded ho envs

theorem recorded_logged (l : List Req) : recorded (logged l) = recorded l := by
  unfold recorded logged
  rw [List.filter_filter]
  apply List.filter_congr
  intro q _
  by_cases hq : q.Recorded
  · simp [hq, ((recorded_iff q).1 hq).1]
  · simp [hq]

theorem runInv_received {h : List Req} {d : Bytes} {e : Engine} {done written : List Req} {st : State} (hi : RunInv d h e done written st) :
    h.take (received h e) = done ++ e.current.toList := by
  unfold received
  conv => lhs; rw [hi.split]
  rw [List.take_append_of_le_length (by simp only [hi.split, List.length_append]; omega), List.take_of_length_le]
  simp only [hi.split, List.length_append]; omega

theorem runInv_recorded {h : List Req} {d : Bytes} {e : Engine} {done written : List Req} {st : State} (hi : RunInv d h e done written st) (ho : ∀ q ∈ h, q.Occurs) :
    (recorded written ++ recorded e.pending).Perm (recorded (h.take (received h e))) ∧ ∀ q ∈ recorded written, q.Occurs ∧ q.Recorded := by
  refine ⟨?_, fun q hq => ?_⟩
  · rw [runInv_received hi, ← recorded_logged (done ++ e.current.toList)]
    have := hi.perm.filter (fun q => @decide q.Recorded (Classical.propDecidable _))
    rw [List.filter_append] at this
    exact this
  · obtain ⟨g1, g2⟩ := recorded_mem.1 hq
    refine ⟨ho q ?_, g2⟩
    have : q ∈ logged (done ++ e.current.toList) := hi.perm.subset (by simp [g1])
    rw [hi.split]
    exact List.mem_append_left _ (List.mem_filter.1 this).1

/-- The file at any moment of any run. -/
theorem run_written {ω : Nat → Nat} {h : List Req} {e : Engine} (hr : Runs ω [] h e) (ho : ∀ q ∈ h, q.Occurs) :
    ∃ written, (written ++ recorded e.pending).Perm (recorded (h.take (received h e))) ∧ (∀ q ∈ written, q.Occurs ∧ q.Recorded) ∧
      e.file.disk ++ e.file.buf <+: historyLog written ∧ (e.file.failed = false → e.file.disk ++ e.file.buf = historyLog written) ∧
      e.file.buf.length ≤ bufSize := by
  obtain ⟨done, written, hi⟩ := runInv hr
  obtain ⟨h1, h2⟩ := runInv_recorded hi ho
  have h4 := hi.file
  have h6 := hi.pre
  simp only [List.nil_append] at h4 h6
  exact ⟨recorded written, h1, h2, by rwa [recorded_log], by rwa [recorded_log], hi.room⟩

theorem kept_log {w : List Req} (n : Nat) : historyLog (w.take n) = ((w.map fun q => requestLog q.stamp q.objs).take n).flatten := by
  rw [← List.map_take]; rfl

/-- A beginning of the records of `w` holds the first `n` of them; it is read without an error iff less than four bytes follow them. -/
theorem parse_recorded {w : List Req} (hw : ∀ q ∈ w, q.Occurs ∧ q.Recorded) {b : Bytes} (hb : b <+: historyLog w) :
    ∃ n err, Kept w b.length n ∧ parseLog b = ((w.take n).map reqLog, err) ∧
      (err = false ↔ ∃ short, b = historyLog (w.take n) ++ short ∧ short.length < 4) := by
  have hp : Packed (w.map reqLog) (w.map fun q => requestLog q.stamp q.objs) := by
    rw [Packed, List.forall₂_map_left_iff, List.forall₂_map_right_iff, List.forall₂_same]
    intro q hq
    exact logged_packed (hw q hq).1 (hw q hq).2.2.2 ((recorded_iff q).1 (hw q hq).2).1
  have hfl : (w.map fun q => requestLog q.stamp q.objs).flatten = historyLog w := rfl
  obtain ⟨n, hc⟩ := complete_exists (w.map fun q => requestLog q.stamp q.objs) b.length
  have hpar := parse_cut hp hc
  rw [hfl, ← List.prefix_iff_eq_take.1 hb, ← List.map_take, ← kept_log, List.length_map] at hpar
  obtain ⟨c1, c2, c3⟩ := hc
  rw [List.length_map] at c1 c3
  rw [← kept_log] at c2
  refine ⟨n, _, ⟨c1, c2, fun i hi => by rw [kept_log]; exact c3 i hi⟩, hpar, ?_⟩
  have hpre : historyLog (w.take n) <+: b := by
    refine List.prefix_of_prefix_length_le ?_ hb c2
    conv => rhs; rw [← List.take_append_drop n w, historyLog_append]
    exact List.prefix_append _ _
  obtain ⟨short, rfl⟩ := hpre
  rw [decide_eq_false_iff_not, List.length_append]
  constructor
  · intro hn
    refine ⟨short, rfl, ?_⟩
    by_cases hl : n < w.length
    · omega
    · have e : w.take n = w := List.take_of_length_le (by omega)
      rw [e] at hb
      have := hb.length_le
      rw [List.length_append] at this
      omega
  · rintro ⟨short', e, hs⟩
    have e := List.append_cancel_left e
    subst e
    omega

/-- C59: the process ends at any moment of any run of any requests. What is in the file is the beginning of the records of `written`, which with
the requests whose writers have not reached the file yet is a rearrangement of those received that leave a record. A server started on the file
executes again the first `n` of `written`, where `n` counts every record that is completely in the file; unless writing has failed, at most one
buffer is missing. Which rearrangements can happen is said by `C34_all_orders`. -/
theorem C59_exact {ω : Nat → Nat} {h : List Req} {e : Engine} {p : PFile} (hr : Runs ω [] h e) (he : EndsWith ω e p)
    (ho : ∀ q ∈ h, q.Occurs) (envs : Nat → Env) :
    ∃ written n, (written ++ recorded e.pending).Perm (recorded (h.take (received h e))) ∧ p.disk <+: historyLog written ∧
      n ≤ written.length ∧ fromFile noDBs envs p.disk = filledBy (serve State.empty (again envs (written.take n))) ∧
      (∀ m, m ≤ written.length → (historyLog (written.take m)).length ≤ p.disk.length → m ≤ n) ∧
      (e.file.failed = false → (historyLog written).length ≤ p.disk.length + 4096) := by
  obtain ⟨w, h1, h2, h3, h4, h5⟩ := run_written hr ho
  have hb : p.disk ++ p.buf = e.file.disk ++ e.file.buf ∧ p.buf.length ≤ e.file.buf.length := by
    rcases he with rfl | rfl
    · exact ⟨rfl, le_refl _⟩
    · exact ⟨flush_bytes ω _, flush_len ω _⟩
  have hpre : p.disk <+: historyLog w := (List.prefix_append _ _).trans (hb.1 ▸ h3)
  obtain ⟨n, err, hk, hp, -⟩ := parse_recorded h2 hpre
  refine ⟨w, n, h1, hpre, hk.1, ?_, hk.2.2, fun hf => ?_⟩
  · rw [fromFile, hp, build_started fun q hq => h2 q (List.mem_of_mem_take hq)]
  · have := h4 hf
    have h7 := hb.2
    rw [← this, ← hb.1, List.length_append]
    simp only [bufSize] at h5
    omega

theorem receive_error {b : Bytes} (hb : b.length < 2 ^ 32) : (receive (transfer b)).2 = none ↔ (parseLog b).2 = false := by
  by_cases h0 : b = []
  · subst h0
    exact ⟨fun _ => by rw [parse_short (by simp)], fun _ => rfl⟩
  · have := receive_transfer h0 hb []
    rw [List.append_nil] at this
    rw [this]
    generalize parseLog b = x
    obtain ⟨vs, e⟩ := x
    cases e <;> simp

theorem serve_parts (st : State) (qs qs' : List (Env × List Resp)) :
    serve st (qs ++ qs') =
      match serve st qs with
      | .ok (st', rs) =>
        match serve st' qs' with
        | .ok (st'', rs') => .ok (st'', rs ++ rs')
        | .panic => .panic
        | .diverge => .diverge
      | .panic => .panic
      | .diverge => .diverge := by
  induction qs generalizing st with
  | nil =>
    simp only [List.nil_append, serve]
    cases serve st qs' <;> rfl
  | cons q qs ih =>
    obtain ⟨env, objs⟩ := q
    rw [List.cons_append, serve, serve]
    cases handle env st objs with
    | panic => rfl
    | diverge => rfl
    | ok x =>
      obtain ⟨st1, r⟩ := x
      simp only [ih]
      cases serve st1 qs with
      | panic => rfl
      | diverge => rfl
      | ok y =>
        obtain ⟨st2, rs⟩ := y
        simp only
        cases serve st2 qs' <;> rfl

/-- C63: a replica with any database file of its own is started while the master runs in any way on any requests and any part of what the master
sends arrives. The replica executes again its own recorded requests and then `taken`: nothing if it reports an error, and otherwise exactly the
requests whose records it got, which are among those the master has received and recorded, each at most once. -/
theorem C63_exact {ω : Nat → Nat} {g h : List Req} {tr : List Master.Ev} {s : Master.Sys} {c : Nat} {got : Bytes}
    (hr : Exec (Master.Step (Engine.Step ω) ω) (Master.new (Engine.start [] h) true) tr s) (hg : got <+: s.stream c)
    (ho : ∀ q ∈ g ++ h, q.Occurs) (hd : s.engine.file.disk.length < 2 ^ 32) (envs envs' : Nat → Env) :
    ∃ taken rest, (taken ++ rest).Perm (recorded (h.take (received h s.engine))) ∧
      syncExternal envs envs' (some (historyLog g)) (some got) = filledBy (serve State.empty (again envs (recorded g) ++ again envs' taken)) ∧
      ((receive got).2 = none ∧ (∃ short, got = transfer (historyLog taken ++ short) ∧ short.length < 4) ∨
        (receive got).2 ≠ none ∧ taken = []) := by
  obtain ⟨w, h1, h2, h3, -⟩ := run_written (mirror_runs (fun _ => .flush) rfl hr) fun q hq => ho q (by simp [hq])
  obtain ⟨b, -, hb, hs⟩ := sendInv_stream (sendInv_exec step_grows (sendInv_new _ _ c) rfl hr) List.nil_prefix
  have hbl : b.length < 2 ^ 32 := Nat.lt_of_le_of_lt hb.length_le hd
  obtain ⟨n, err, hk, hp, hsh⟩ := parse_recorded h2 (hb.trans ((List.prefix_append _ _).trans h3))
  have hown : fromFile (fun _ => State.empty) envs (historyLog g) = _ := C33_exact (fun q hq => ho q (by simp [hq])) envs
  have key : ∃ taken rest, (taken ++ rest).Perm w ∧
      ((receive got).2 = none ∧ (receive got).1 = taken.map reqLog ∧ (∃ short, got = transfer (historyLog taken ++ short) ∧ short.length < 4) ∨
        (receive got).2 ≠ none ∧ taken = []) := by
    cases hx : (receive got).2 with
    | some e => exact ⟨[], w, .refl _, .inr ⟨by simp, rfl⟩⟩
    | none =>
      rcases receive_prefix hbl (hg.trans hs) with hi | rfl
      · rw [hi] at hx; cases hx
      · have e1 := receive_whole hbl
        have e2 : err = false := by
          have := (receive_error hbl).1 hx
          rwa [hp] at this
        obtain ⟨short, rfl, hl⟩ := hsh.1 e2
        exact ⟨w.take n, w.drop n, by rw [List.take_append_drop], .inl ⟨rfl, by rw [e1, hp], short, rfl, hl⟩⟩
  obtain ⟨taken, rest, k1, k2⟩ := key
  refine ⟨taken, rest ++ recorded s.engine.pending, ?_, ?_, ?_⟩
  · rw [← List.append_assoc]
    exact (k1.append_right _).trans h1
  · have ht : ∀ q ∈ taken, q.Occurs ∧ q.Recorded := fun q hq => h2 q (k1.subset (by simp [hq]))
    rw [syncExternal, hown, serve_parts]
    cases serve State.empty (again envs (recorded g)) with
    | panic => rfl
    | diverge => rfl
    | ok x =>
      obtain ⟨st, rs⟩ := x
      simp only [filledBy, Outcome.bind_ok, fromMaster]
      generalize receive got = r at *
      obtain ⟨vs, _ | er⟩ := r
      · rcases k2 with ⟨-, hv, -⟩ | ⟨hv, -⟩
        · simp only at hv ⊢
          rw [hv, build_again ht, if_pos rfl]
          cases serve st (again envs' taken) with
          | panic => rfl
          | diverge => rfl
          | ok y =>
            simp only
            congr 1
            funext i
            split <;> rfl
        · exact absurd rfl hv
      · rcases k2 with ⟨hv, -⟩ | ⟨-, rfl⟩
        · cases hv
        · simp [again, serve]
  · rcases k2 with ⟨a1, -, a2⟩ | a
    · exact .inl ⟨a1, a2⟩
    · exact .inr a

def assorted : List Req := [sent [b!"Set", b!"k", b!"v"], sent [b!"set", b!"k", [0xFF]], sent [b!"get", b!"k"], sent [b!"set", b!"k"], sent [b!"ltrim", b!"l", b!"0", b!"0"]]

/-- A history for `C33_exact` of which only the first request leaves a record. -/
example : (∀ q ∈ assorted, q.Occurs) ∧ recorded assorted = [sent [b!"Set", b!"k", b!"v"]] := by
  constructor
  · simp only [assorted, List.forall_mem_cons, List.not_mem_nil, false_imp_iff, implies_true, and_true]
    exact ⟨sent_occurs, sent_occurs, sent_occurs, sent_occurs, sent_occurs⟩
  · have h1 : (sent [b!"Set", b!"k", b!"v"]).Recorded := (recorded_iff _).2 ⟨by decide, sent_text⟩
    have h2 : ¬ (sent [b!"set", b!"k", [0xFF]]).Recorded := fun h => by
      have := h.2.2 (.bulk [0xFF]) (by simp [sent, req])
      cases this with | bulk h => exact absurd ((Proto.utf8Valid_iff _).2 h) (by decide)
    have h3 : ¬ (sent [b!"get", b!"k"]).Recorded := fun h => absurd ((recorded_iff _).1 h).1 (by decide)
    have h4 : ¬ (sent [b!"set", b!"k"]).Recorded := fun h => absurd ((recorded_iff _).1 h).1 (by decide)
    have h5 : ¬ (sent [b!"ltrim", b!"l", b!"0", b!"0"]).Recorded := fun h => absurd ((recorded_iff _).1 h).1 (by decide)
    simp [recorded, assorted, h1, h2, h3, h4, h5]

/-- A run for `C59_exact` whose writers overtake each other. -/
example : ∃ e, Runs (fun _ => 100000) [] [set1, set2] e ∧ e.pending = [set1] ∧ EndsWith (fun _ => 100000) e (e.file.flush fun _ => 100000) := by
  refine ⟨_, .tail (.tail (.tail (.tail .refl (.receive rfl rfl)) (.execute rfl rfl)) (.receive rfl rfl)) (.write (before := [set1]) (after := []) rfl), rfl, .inr rfl⟩
example : ∀ q ∈ [set1, set2], q.Occurs := by
  simp only [List.forall_mem_cons, List.not_mem_nil, false_imp_iff, implies_true, and_true]
  exact ⟨set1_ok.1, set2_ok.1⟩

/-- The runs of `C63_idle_partial`, of which Props/Mirror.lean gives one that sends two records, are runs for `C63_exact`. -/
theorem serving_any {ω : Nat → Nat} {h : List Req} {tr : List Master.Ev} {s : Master.Sys} (hr : Serving ω h tr s) :
    Exec (Master.Step (Engine.Step ω) ω) (Master.new (Engine.start [] h) true) tr s := by
  induction hr with
  | nil => exact .nil
  | snoc _ hs ih =>
    refine ih.snoc ?_
    cases hs with
    | engine he => exact .engine he.1
    | accept c h1 h2 => exact .accept c h1 h2
    | acceptFails h1 => exact .acceptFails h1
    | noFile c h1 h2 => exact .noFile c h1 h2
    | enter c h1 h2 => exact .enter c h1 h2
    | list c h1 => exact .list c h1
    | create c h1 => exact .create c h1
    | flush c h1 h2 => exact .flush c h1 h2
    | flushFails c h1 h2 => exact .flushFails c h1 h2
    | openRaw c h1 => exact .openRaw c h1
    | copy c h1 => exact .copy c h1
    | prepare c b h1 => exact .prepare c b h1
    | send c b n k h1 h2 h3 => exact .send c b n k h1 h2 h3
    | finish c b n h1 h2 => exact .finish c b n h1 h2
    | fail c h1 => exact .fail c h1
    | broke c => exact .broke c ‹_›

end Verif.Props
