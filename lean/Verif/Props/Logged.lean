import Verif.Spec.Logged
import Verif.Props.Heard
import Verif.Props.Fleet

/-! # C90 – in the end what was done is on the disk -/

namespace Verif.Props

open Spec
open Fut (upd)

variable {ω : Nat → Nat} {d : Bytes} {st : State} {s s' : Full.Sys} {a0 : DB}

theorem recordedIn_append (a b : List Whole.Ev) : recordedIn (a ++ b) = recordedIn a ++ recordedIn b := List.filterMap_append

/-- Where the records are. -/
structure LogAt (d : Bytes) (tr : List Whole.Ev) (w : Whole.Sys) : Prop where
  perm : (recordedIn tr ++ w.pending).Perm ((begunIn tr).filter fun q => isLogged q.2)
  file : w.file.failed = false → w.file.disk ++ w.file.buf = d ++ (recordedIn tr).flatMap fun q => requestLog q.1 q.2
  room : w.file.buf.length ≤ PFile.bufSize

theorem logAt {tr : List Whole.Ev} {w : Whole.Sys} (h : Exec (Whole.Step ω) (Whole.new d st) tr w) : LogAt d tr w := by
  refine h.inv (P := LogAt d) ⟨by simp [recordedIn, begunIn, Whole.new], fun _ => by simp [Whole.new, PFile.new, recordedIn], Nat.zero_le _⟩ ?_
  rintro tr w e w' - ⟨h1, h2, h3⟩ hs
  have same : ∀ {w' : Whole.Sys}, recordedIn [e] = [] → begunIn [e] = [] → w'.pending = w.pending → w'.file = w.file → LogAt d (tr ++ [e]) w' := by
    intro w' k1 k2 k3 k4
    exact ⟨by rw [recordedIn_append, begunIn_append, k1, k2, k3]; simpa using h1, by rw [recordedIn_append, k1, k4]; simpa using h2, by rw [k4]; exact h3⟩
  cases hs with
  | receive n m id q =>
    refine ⟨?_, by simpa [recordedIn] using h2, h3⟩
    rw [recordedIn_append, begunIn_append, List.filter_append, show recordedIn [.received q] = [] from rfl, List.append_nil, show begunIn [.received q] = [q] from rfl]
    cases hl : isLogged q.2 with
    | false => simpa [hl] using h1
    | true =>
      simp only [hl, if_true, List.filter_cons, List.filter_nil]
      rw [← List.append_assoc]
      exact h1.append_right [q]
  | record q before after _ _ hp =>
    have hl : isLogged q.objs = true := by
      have : (q.stamp, q.objs) ∈ (begunIn tr).filter fun q => isLogged q.2 := h1.subset (by rw [hp]; simp)
      exact (List.mem_filter.1 this).2
    obtain ⟨g1, g2⟩ := writeRecord_took ω w.file (q := q) hl
    refine ⟨?_, fun hf => ?_, g2 h3⟩
    · rw [recordedIn_append, begunIn_append, show recordedIn [.recorded (q.stamp, q.objs)] = [(q.stamp, q.objs)] from rfl,
        show begunIn [.recorded (q.stamp, q.objs)] = [] from rfl, List.append_nil, List.append_assoc]
      refine List.Perm.trans ?_ h1
      rw [hp]
      show (recordedIn tr ++ (q.stamp, q.objs) :: (before ++ after)).Perm _
      exact List.perm_middle.symm.append_left _
    · rw [(g1 hf).1, h2 (g1 hf).2, recordedIn_append, List.flatMap_append, show recordedIn [.recorded (q.stamp, q.objs)] = [(q.stamp, q.objs)] from rfl]
      simp
  | flush =>
    refine ⟨by simpa [recordedIn, begunIn] using h1, fun hf => ?_, Nat.le_trans (PFile.flush_len _ _) h3⟩
    have : w.file.failed = false := by
      cases hp : w.file.failed
      · rfl
      · rw [PFile.flush_stuck ω _ hp, hp] at hf; cases hf
    rw [recordedIn_append, show recordedIn [.flushed] = [] from rfl, List.append_nil, PFile.flush_bytes, h2 this]
  | _ => exact same rfl rfl rfl rfl

variable {r : Run (Full.Step ω) (Full.new d st)}

theorem log_at (r : Run (Full.Step ω) (Full.new d st)) (j : Nat) : LogAt d (wholeOf (r.until j)) (r.state j).whole := logAt (full_exec (run_exec r j)).1

theorem begun_mono (r : Run (Full.Step ω) (Full.new d st)) {i j : Nat} (h : i ≤ j) : begunIn (wholeOf (r.until i)) <+: begunIn (wholeOf (r.until j)) := by
  obtain ⟨t, ht⟩ := until_le r h
  rw [ht, wholeOf_append, begunIn_append]
  exact List.prefix_append _ _

theorem recorded_mono (r : Run (Full.Step ω) (Full.new d st)) {i j : Nat} (h : i ≤ j) : recordedIn (wholeOf (r.until i)) <+: recordedIn (wholeOf (r.until j)) := by
  obtain ⟨t, ht⟩ := until_le r h
  rw [ht, wholeOf_append, recordedIn_append]
  exact List.prefix_append _ _

open Classical in
theorem count_recorded (hu : r.Lives) (hw : r.FairToWriters) (q : Whole.Record) (i : Nat) : ∀ m,
    m ≤ ((begunIn (wholeOf (r.until i))).filter fun q => isLogged q.2).count q → ∃ j, i ≤ j ∧ m ≤ (recordedIn (wholeOf (r.until j))).count q := by
  intro m
  induction m with
  | zero => exact fun _ => ⟨i, Nat.le_refl i, Nat.zero_le _⟩
  | succ m ih =>
    intro hm
    obtain ⟨j, hj, hc⟩ := ih (by omega)
    by_contra hn
    have hn : ∀ k, i ≤ k → (recordedIn (wholeOf (r.until k))).count q ≤ m := fun k hk => by
      by_contra h
      exact hn ⟨k, hk, by omega⟩
    obtain ⟨k, l, h1, h2, h3⟩ := hw q j fun k hk => by
      have hp := (log_at r k).perm.count_eq q
      have hb := (((begun_mono r (show i ≤ k by omega)).sublist.filter fun q => isLogged q.2).count_le q)
      have := hn k (by omega)
      rw [List.count_append] at hp
      obtain ⟨before, after, hs⟩ := List.append_of_mem (List.count_pos_iff.1 (show 0 < (r.state k).whole.pending.count q by omega))
      exact ⟨_, _, .record, .whole _ _ rfl (.record ⟨q.1, env0, q.2⟩ before after (hu k).1 (hu k).2 hs)⟩
    cases h3
    have e : recordedIn (wholeOf (r.until (k + 1))) = recordedIn (wholeOf (r.until k)) ++ [q] := by
      rw [until_succ, h2, wholeOf_append, recordedIn_append]; rfl
    have h4 := hn (k + 1) (by omega)
    have h5 := (recorded_mono r h1).sublist.count_le q
    rw [e, List.count_append] at h4
    simp at h4
    omega

/-- C90: every record that was begun is given to the file in the end, if the process lives and no writer is forgotten. -/
theorem C90_recorded (hu : r.Lives) (hw : r.FairToWriters) (i : Nat) :
    ∃ j, ((begunIn (wholeOf (r.until i))).filter fun q => isLogged q.2).Subperm (recordedIn (wholeOf (r.until j))) := by
  classical
  suffices h : ∀ l : List Whole.Record, (∀ q ∈ l, q ∈ (begunIn (wholeOf (r.until i))).filter fun q => isLogged q.2) → ∃ j, ∀ q ∈ l,
      ((begunIn (wholeOf (r.until i))).filter fun q => isLogged q.2).count q ≤ (recordedIn (wholeOf (r.until j))).count q by
    obtain ⟨j, hj⟩ := h _ fun _ h => h
    exact ⟨j, List.subperm_ext_iff.2 hj⟩
  intro l
  induction l with
  | nil => exact fun _ => ⟨0, by simp⟩
  | cons q l ih =>
    intro hl
    obtain ⟨j, hj⟩ := ih fun q hq => hl q (by simp [hq])
    obtain ⟨k, -, hk⟩ := count_recorded hu hw q i _ (Nat.le_refl _)
    refine ⟨j + k, fun q' hq' => ?_⟩
    rcases List.mem_cons.1 hq' with rfl | hq'
    · exact Nat.le_trans hk ((recorded_mono r (show k ≤ j + k by omega)).sublist.count_le _)
    · exact Nat.le_trans (hj q' hq') ((recorded_mono r (show j ≤ j + k by omega)).sublist.count_le _)

/-- What the records and the file are changed by. -/
theorem whole_kept {w w' : Whole.Sys} {l : Whole.Ev} (h : Whole.Step ω w l w') : (w'.file = w.file ∨ (∃ q, l = .recorded q) ∨ l = .flushed) ∧
    (w'.pending = w.pending ∨ (∃ q, l = .recorded q) ∨ ∃ m, w.hub.engine = .has m) ∧ (w'.file.failed = false → w.file.failed = false) := by
  cases h with
  | receive _ _ _ q _ _ hm => exact ⟨.inl rfl, .inr (.inr ⟨_, hm⟩), id⟩
  | record q before after _ _ hp =>
    refine ⟨.inr (.inl ⟨_, rfl⟩), .inr (.inl ⟨_, rfl⟩), fun hf => ?_⟩
    simp only [writeRecord] at hf
    split at hf
    · cases hp : w.file.failed
      · rfl
      · rw [((PFile.write_took ω w.file _).1.stuck hp).1, hp] at hf; cases hf
    · exact hf
  | flush =>
    refine ⟨.inr (.inr rfl), .inl rfl, fun hf => ?_⟩
    cases hp : w.file.failed
    · rfl
    · rw [PFile.flush_stuck ω _ hp, hp] at hf; cases hf
  | _ => exact ⟨.inl rfl, .inl rfl, id⟩

/-- The goroutines on the way of the requests leave the file alone, and start writers only when the engine has something to do. -/
theorem done_file {g : Goroutine} {e : Full.Ev} (hs : Full.Step ω s e s') (hd : DoneBy g e) :
    s'.whole.file = s.whole.file ∧ (s'.whole.pending = s.whole.pending ∨ ∃ m, s.whole.hub.engine = .has m) := by
  have hn : Proc.within e ≠ some .flushed ∧ ∀ q, Proc.within e ≠ some (.recorded q) := by
    cases hd with
    | spread b | call b => cases b <;> simp [inTopic, Proc.within]
    | _ => simp [inTopic, onTheWay, Proc.within]
  rcases full_within hs with ⟨w, g1, g2⟩ | ⟨-, g2⟩
  · obtain ⟨k1, k2, -⟩ := whole_kept g2
    refine ⟨?_, ?_⟩
    · rcases k1 with k1 | ⟨q, rfl⟩ | rfl
      · exact k1
      · exact absurd g1 (hn.2 q)
      · exact absurd g1 hn.1
    · rcases k2 with k2 | ⟨q, rfl⟩ | k2
      · exact .inl k2
      · exact absurd g1 (hn.2 q)
      · exact .inr k2
  · rw [g2]; exact ⟨rfl, .inl rfl⟩

/-- A file that has failed stays so. -/
theorem not_failed (r : Run (Full.Step ω) (Full.new d st)) {j k : Nat} (h : j ≤ k) (hk : (r.state k).whole.file.failed = false) : (r.state j).whole.file.failed = false := by
  induction k, h using Nat.le_induction with
  | base => exact hk
  | succ k h ih =>
    refine ih ?_
    rcases r.next k with ⟨l, h1, h2⟩ | ⟨h1, h2⟩
    · rcases full_within h2 with ⟨w, -, g2⟩ | ⟨-, g2⟩
      · exact (whole_kept g2).2.2 hk
      · rw [← g2]; exact hk
    · rw [← h2]; exact hk

/-- What has been given to the file is on the disk once the disk is long enough. -/
theorem on_disk (hd : r.DiskWorks) {i j k : Nat} (hs : ((begunIn (wholeOf (r.until i))).filter fun q => isLogged q.2).Subperm (recordedIn (wholeOf (r.until j))))
    (hj : j ≤ k) (hl : (d ++ (recordedIn (wholeOf (r.until j))).flatMap fun q => requestLog q.1 q.2).length ≤ (r.state k).whole.file.disk.length) :
    r.OnDisk k (begunIn (wholeOf (r.until i))) := by
  refine ⟨recordedIn (wholeOf (r.until j)) ++ (begunIn (wholeOf (r.until i))).filter fun q => !isLogged q.2, ?_, ?_⟩
  · obtain ⟨l, h1, h2⟩ := hs
    refine ⟨l ++ (begunIn (wholeOf (r.until i))).filter fun q => !isLogged q.2, ?_, h2.append_right _⟩
    exact (h1.append_right _).trans (List.filter_append_perm _ _)
  · have e : ((begunIn (wholeOf (r.until i))).filter fun q => !isLogged q.2).flatMap (fun q => requestLog q.1 q.2) = [] := by
      rw [List.flatMap_eq_nil_iff]
      intro q hq
      have := (List.mem_filter.1 hq).2
      simp only [Bool.not_eq_true'] at this
      simp [requestLog, this]
    rw [List.flatMap_append, e, List.append_nil]
    obtain ⟨t, ht⟩ := recorded_mono r hj
    refine List.prefix_of_prefix_length_le (l₃ := d ++ (recordedIn (wholeOf (r.until k))).flatMap fun q => requestLog q.1 q.2) ?_ ?_ hl
    · rw [← ht, List.flatMap_append, ← List.append_assoc]
      exact List.prefix_append _ _
    · rw [← (log_at r k).file (hd k)]
      exact List.prefix_append _ _

/-- C90: everything the engine has begun to execute is on the disk in the end, as far as it is logged, if moreover the disk works and the log is flushed
again and again, as it is when replicas join. What is missing from the full claim is refuted by `C90_false`. -/
theorem C90_flushed_partial (hu : r.Lives) (hw : r.FairToWriters) (hd : r.DiskWorks) (hf : r.Flushes) (i : Nat) :
    ∃ j, r.OnDisk j (begunIn (wholeOf (r.until i))) := by
  obtain ⟨j, hj⟩ := C90_recorded hu hw i
  obtain ⟨k, h1, h2⟩ := hf j
  refine ⟨k + 1, on_disk hd hj (show j ≤ k + 1 by omega) ?_⟩
  have hb : (r.state (k + 1)).whole.file.buf = [] := by
    have hs := run_step r h2
    have hfail := hd (k + 1)
    generalize r.state (k + 1) = s' at hs hfail
    cases hs with
    | whole _ w _ h => cases h with | flush => exact PFile.flush_done _ _ hfail
  have h3 := (log_at r (k + 1)).file (hd (k + 1))
  rw [hb, List.append_nil] at h3
  rw [h3]
  obtain ⟨t, ht⟩ := recorded_mono r (show j ≤ k + 1 by omega)
  rw [← ht, List.flatMap_append]
  simp

theorem subperm_length {α : Type} (f : α → Bytes) {a b : List α} (h : a.Subperm b) : (a.flatMap f).length ≤ (b.flatMap f).length := by
  obtain ⟨l, h1, h2⟩ := h
  rw [(h1.flatMap_right f).length_eq.symm]
  exact (h2.flatMap f).length_le

/-- C90: or if there is always more to log. What is missing from the full claim is refuted by `C90_false`. -/
theorem C90_busy_partial (hu : r.Lives) (hw : r.FairToWriters) (hd : r.DiskWorks) (hb : r.Busy) (i : Nat) :
    ∃ j, r.OnDisk j (begunIn (wholeOf (r.until i))) := by
  obtain ⟨j, hj⟩ := C90_recorded hu hw i
  obtain ⟨m, hm⟩ := hb (PFile.bufSize + ((recordedIn (wholeOf (r.until j))).flatMap fun q => requestLog q.1 q.2).length)
  obtain ⟨k, hk⟩ := C90_recorded hu hw m
  refine ⟨j + k, on_disk hd hj (by omega) ?_⟩
  have h1 := (log_at r (j + k)).file (hd (j + k))
  have h2 := (log_at r (j + k)).room
  have h3 := subperm_length (fun q => requestLog q.1 q.2) (hk.trans (recorded_mono r (show k ≤ j + k by omega)).sublist.subperm)
  have h4 : ((begunIn (wholeOf (r.until m))).filter fun q => isLogged q.2).flatMap (fun q => requestLog q.1 q.2) =
      (begunIn (wholeOf (r.until m))).flatMap (fun q => requestLog q.1 q.2) := by
    generalize begunIn (wholeOf (r.until m)) = l
    induction l with
    | nil => rfl
    | cons q l ih =>
      rw [List.flatMap_cons, ← ih]
      cases hl : isLogged q.2 <;> simp [List.filter_cons, hl, requestLog]
  rw [h4] at h3
  have := congrArg List.length h1
  simp only [List.length_append] at this ⊢
  omega

theorem forall₂_mem_left {α β : Type} {R : α → β → Prop} {as : List α} {bs : List β} (h : List.Forall₂ R as bs) {a : α} (ha : a ∈ as) : ∃ b ∈ bs, R a b := by
  induction h with
  | nil => cases ha
  | cons h _ ih =>
    rcases List.mem_cons.1 ha with rfl | ha
    · exact ⟨_, by simp, h⟩
    · obtain ⟨b, hb, hr⟩ := ih ha
      exact ⟨b, by simp [hb], hr⟩

/-- What a client asked for and was executed has been begun. -/
theorem executed_begun {tr : List Whole.Ev} {w : Whole.Sys} (hx : Exec (Whole.Step ω) (Whole.new d st) tr w) {n c : Nat} {env : Env} {re o : Resp} {objs : List Resp}
    (h1 : .read c n o ∈ netOf tr) (h2 : .pipe (.executed n env re) ∈ netOf tr) (ho : ArrayOf o objs) : ∃ stamp, (stamp, objs) ∈ begunIn tr := by
  obtain ⟨h, g1, g2, -⟩ := whole_logs (U := False) (hx.inv (P := fun tr w => Exec (Goes False ω) (Whole.new d st) tr w) .nil
    fun _ _ _ _ _ ih hst => ih.snoc ⟨hst, False.elim⟩)
  obtain ⟨s, k1, -⟩ := whole_net hx
  obtain ⟨-, k2, -, -, k3⟩ := net_split k1
  have hd : (n, env, re) ∈ doneIn (netOf tr) := by
    generalize netOf tr = t at h2
    induction t with
    | nil => cases h2
    | cons e t ih =>
      rcases List.mem_cons.1 h2 with rfl | h3
      · simp [doneIn]
      · cases e with
        | pipe e =>
          have := ih h3
          cases e <;> simp [doneIn, this]
        | _ => simpa [doneIn] using ih h3
  obtain ⟨q, hq, -, c', o', hq', ho'⟩ := forall₂_mem_left g2 hd
  obtain ⟨-, rfl⟩ := asker_unique k2 ((mem_askedBy k3).1 hq') ((mem_askedBy k3).1 (asked_mem h1))
  refine ⟨q.stamp, ?_⟩
  rw [g1]
  refine List.mem_append_left _ (List.mem_map.2 ⟨q, hq, ?_⟩)
  have : q.objs = objs := by
    rcases ho with rfl | ⟨rfl, rfl⟩ <;> rcases ho' with h | ⟨h, h'⟩ <;> simp_all
  rw [← this]
  rfl

/-- C90: so then, what a client asked for is there in the end if it is executed. What is missing from the full claim is refuted by `C90_false`. -/
theorem C90_kept_partial (hu : r.Lives) (hw : r.FairToWriters) (hd : r.DiskWorks) (hb : r.Flushes ∨ r.Busy) {i n c : Nat} {env : Env} {re o : Resp} {objs : List Resp} (h1 : .read c n o ∈ seenIn (r.until i))
    (h2 : .pipe (.executed n env re) ∈ seenIn (r.until i)) (ho : ArrayOf o objs) : ∃ j stamp, r.OnDisk j [(stamp, objs)] := by
  obtain ⟨j, rs, g1, g2⟩ := hb.elim (fun hb => C90_flushed_partial hu hw hd hb i) (fun hb => C90_busy_partial hu hw hd hb i)
  obtain ⟨stamp, hs⟩ := executed_begun (full_exec (run_exec r i)).1 h1 h2 ho
  exact ⟨j, stamp, rs, (List.singleton_subperm_iff.2 hs).trans g1, g2⟩

/-- C90: what is on the disk stays there. -/
theorem C90_stays {i j : Nat} {qs : List Whole.Record} (h : r.OnDisk i qs) (hj : i ≤ j) : r.OnDisk j qs := by
  obtain ⟨rs, h1, h2⟩ := h
  refine ⟨rs, h1, ?_⟩
  refine lasts r (fun s => d ++ rs.flatMap (fun q => requestLog q.1 q.2) <+: s.whole.file.disk) h2 (fun j l _ ih he => ih.trans ?_) hj
  exact exec_grows (full_step (run_step r he)).1

/-! ### what is not -/

/-- The full claim: in every fair execution without end in which the disk works, everything that is begun is on the disk in the end. -/
def AllOnDisk : Prop := ∀ (ω : Nat → Nat) (d : Bytes) (st : State) (r : Run (Full.Step ω) (Full.new d st)), r.Lives → r.Sane → r.FairToAll → r.FairToWriters → r.DiskWorks →
  ∀ i, ∃ j, r.OnDisk j (begunIn (wholeOf (r.until i)))

/-- When all that was asked has been executed the engine has nothing to do. -/
theorem engine_rests {tr : List Full.Ev} (h : Exec (Full.Step ω) (Full.new d st) tr s)
    (hx : ∀ n c o, (n, c, o) ∈ requestsOf (pipeOf (seenIn tr)) → ∃ env r, (n, env, r) ∈ executedOf (pipeOf (seenIn tr))) (m) : s.whole.hub.engine ≠ .has m := by
  intro hm
  obtain ⟨k, g1, g2⟩ := whole_net (full_exec h).1
  have hp := (net_split g1).2.1
  have hpe := g2.sim.engine
  rw [hm] at hpe
  have k1 := (pipeInv hp).one m.1
  have k2 := (pipeInv hp).reads m.1
  have k3 : 0 < cnt k.pipe.engine.toList m.1 := cnt_pos.2 ⟨m.2, by simp [hpe]⟩
  obtain ⟨⟨c, o⟩, k4⟩ := cnt_pos.1 (show 0 < cnt (requestsOf (pipeOf (netOf (wholeOf tr)))) m.1 by omega)
  obtain ⟨env, re, k5⟩ := hx _ _ _ k4
  have k6 : 0 < cnt (executedOf (pipeOf (netOf (wholeOf tr)))) m.1 := cnt_pos.2 ⟨_, k5⟩
  omega

/-- A client has set a key and has got its reply, the record has been written to the file, and nobody is at work. -/
theorem set_recorded (ω : Nat → Nat) (d : Bytes) : ∃ tr s, Exec (Full.Step ω) (Full.new d State.empty) tr s ∧ s.up ∧ seenIn tr = setTrace ∧
    begunIn (wholeOf tr) = [(stamp0, req [b!"set", b!"k", b!"1"])] ∧ s.whole.pending = [] ∧ s.whole.file = writeRecord ω (PFile.new d) set1 := by
  obtain ⟨n, h1, h2, h3, h4, h5, h6, h7, h8⟩ := one_run (st := State.empty) setBytes_parse rfl
  obtain ⟨ls, w, g1, g2, g3, g4⟩ := whole_quiet (ω := ω) (d := d) h1
  obtain ⟨es, f, k1, k2, k3, -⟩ := lift_exec (ω := ω) (d := d) (st := State.empty) .nil g1
    (fun c k hm => by have := mem_netOf.2 hm; rw [g2] at this; simp at this) (fun _ _ c _ => ⟨rfl, rfl, rfl⟩)
  have hb := one_begun g1 g2 g3 (seen_idle g4 h3)
  subst k3
  have hq : f.whole.pending = [(stamp0, req [b!"set", b!"k", b!"1"])] := by
    rw [quiet_pending g1 g3.2.1, hb]; rfl
  have hf : f.whole.file = PFile.new d := untouched_file g1 ⟨g3.1, g3.2.1⟩
  have hu : f.up := ⟨by rw [g4.dead] at h7; exact h7, by rw [g4.sim.crashed] at h8; exact h8⟩
  have hs : Full.Step ω f (.whole (.recorded (stamp0, req [b!"set", b!"k", b!"1"]))) _ := .whole _ _ rfl (.record set1 [] [] hu.1 hu.2 hq)
  refine ⟨_, _, k1.snoc hs, hu, ?_, ?_, rfl, by rw [← hf]⟩
  · rw [seenIn_append, seenIn, k2, g2]; rfl
  · rw [wholeOf_append, begunIn_append, k2, hb]; rfl

/-- C90 is false: a client has been told that its value is set, the record has been given to the file, and it stays in the buffer for ever. -/
theorem C90_false : ¬ AllOnDisk := by
  intro hall
  obtain ⟨tr, s, h1, h2, h3, h4, h5, h6⟩ := set_recorded (fun _ => 100000) []
  have hx : ∀ n c o, (n, c, o) ∈ requestsOf (pipeOf (seenIn tr)) → ∃ env r, env.ord.Fair ∧ (n, env, r) ∈ executedOf (pipeOf (seenIn tr)) := by
    rw [h3]
    intro n c o h
    simp [pipeOf, requestsOf] at h
    obtain ⟨rfl, rfl, rfl⟩ := h
    exact ⟨env0, .simple b!"OK", env0_fair, by simp [pipeOf, executedOf]⟩
  obtain ⟨r, g1, g2, g3, g4, g5, g6⟩ := calm h1 h2 hx
  have still : ∀ j, requestsOf (pipeOf (seenIn (r.until (tr.length + j)))) = requestsOf (pipeOf (seenIn tr)) ∧
      (r.state (tr.length + j)).whole.pending = [] ∧ (r.state (tr.length + j)).whole.file = s.whole.file := by
    intro j
    induction j with
    | zero => rw [Nat.add_zero, g1, g2]; exact ⟨rfl, h5, rfl⟩
    | succ j ih =>
      obtain ⟨i1, i2, i3⟩ := ih
      rw [← Nat.add_assoc]
      rcases r.next (tr.length + j) with ⟨l, k1, k2⟩ | ⟨k1, k2⟩
      · obtain ⟨g, hd⟩ := g6 _ _ (by omega) k1
        refine ⟨?_, ?_, (done_file k2 hd).1.trans i3⟩
        · rw [until_succ, k1, Option.toList_some, seenIn_append, pipeOf_append, requestsOf_append, i1, done_reads hd, List.append_nil]
        · rcases (done_file k2 hd).2 with h | ⟨m, hm⟩
          · rw [h, i2]
          · refine absurd hm (engine_rests (run_exec r (tr.length + j)) (fun n c o hq => ?_) m)
            rw [i1] at hq
            obtain ⟨env, re, -, k5⟩ := hx _ _ _ hq
            obtain ⟨t, ht⟩ := until_le r (show tr.length ≤ tr.length + j by omega)
            rw [ht, g1, seenIn_append, pipeOf_append, executedOf_append]
            exact ⟨env, re, List.mem_append_left _ k5⟩
      · rw [until_succ, k1, k2]; simpa using ⟨i1, i2, i3⟩
  have hfile : ∀ j, (r.state (tr.length + j)).whole.file = writeRecord (fun _ => 100000) (PFile.new []) set1 := fun j => (still j).2.2.trans h6
  have w1 : r.FairToWriters := by
    intro q i hi
    obtain ⟨l, s', hl, hs⟩ := hi (tr.length + i) (by omega)
    cases hl
    cases hs with
    | whole _ w _ h =>
      cases h with
      | record q before after _ _ hp => rw [(still i).2.1] at hp; simp at hp
  have w2 : r.DiskWorks := fun j => not_failed r (show j ≤ tr.length + j by omega) (by rw [hfile]; decide +kernel)
  obtain ⟨j, hj⟩ := hall _ _ _ r g4 g5 g3 w1 w2 tr.length
  obtain ⟨rs, k1, k2⟩ := C90_stays hj (show j ≤ tr.length + j by omega)
  rw [hfile, show (writeRecord (fun _ => 100000) (PFile.new []) set1).disk = [] by decide +kernel, List.nil_append, List.prefix_nil, List.flatMap_eq_nil_iff] at k2
  rw [g1, h4, List.singleton_subperm_iff] at k1
  exact absurd (k2 _ k1) (by decide +kernel)

/-! ### That there is something to speak about -/

theorem exec_path {S L : Type} {step : S → L → S → Prop} {s s' : S} {tr : List L} (h : Exec step s tr s') :
    ∃ f : Nat → S, f 0 = s ∧ f tr.length = s' ∧ ∀ i l, tr[i]? = some l → step (f i) l (f (i + 1)) := by
  induction h with
  | nil => exact ⟨fun _ => s, rfl, rfl, by simp⟩
  | @snoc tr s1 s2 l h1 h2 ih =>
    obtain ⟨f, g1, g2, g3⟩ := ih
    refine ⟨fun i => if i ≤ tr.length then f i else s2, by simpa using g1, by simp, fun i x hi => ?_⟩
    rcases Nat.lt_trichotomy i tr.length with h | h | h
    · rw [List.getElem?_append_left h] at hi
      simpa [Nat.le_of_lt h, Nat.succ_le_of_lt h] using g3 i x hi
    · subst h
      simp at hi
      subst hi
      simpa [g2] using h2
    · rw [List.getElem?_eq_none (by simp; omega)] at hi
      cases hi

/-- Where an execution without end is that consists of pieces of these lengths. -/
def place (len : Nat → Nat) : Nat → Nat × Nat
  | 0 => (0, 0)
  | i + 1 => if (place len i).2 + 1 < len (place len i).1 then ((place len i).1, (place len i).2 + 1) else ((place len i).1 + 1, 0)

/-- What can always go on can go on for ever. -/
theorem endless {S L : Type} {step : S → L → S → Prop} {s0 : S} (P : Nat → List L → S → Prop) (h0 : P 0 [] s0)
    (hs : ∀ k tr s, Exec step s0 tr s → P k tr s → ∃ es s', es ≠ [] ∧ Exec step s es s' ∧ P (k + 1) (tr ++ es) s') :
    ∃ r : Run step s0, ∀ k, ∃ i, k ≤ i ∧ P k (r.until i) (r.state i) := by
  let Good := fun k => { x : List L × S // Exec step s0 x.1 x.2 ∧ P k x.1 x.2 }
  have hs : ∀ k (x : Good k), ∃ es, ∃ y : Good (k + 1), es ≠ [] ∧ y.1.1 = x.1.1 ++ es ∧ Exec step x.1.2 es y.1.2 := by
    rintro k ⟨⟨tr, s⟩, h1, h2⟩
    obtain ⟨es, s', g1, g2, g3⟩ := hs k tr s h1 h2
    exact ⟨es, ⟨(tr ++ es, s'), h1.append g2, g3⟩, g1, rfl, g2⟩
  choose more next hne htr hex using hs
  let at' : ∀ k, Good k := fun k => Nat.rec ⟨([], s0), .nil, h0⟩ (fun k x => next k x) k
  let es : Nat → List L := fun k => more k (at' k)
  have e1 : ∀ k, es k ≠ [] := fun k => hne k _
  have e2 : ∀ k, (at' (k + 1)).1.1 = (at' k).1.1 ++ es k := fun k => htr k _
  have e3 : ∀ k, Exec step (at' k).1.2 (es k) (at' (k + 1)).1.2 := fun k => hex k _
  choose f f1 f2 f3 using fun k => exec_path (e3 k)
  let len : Nat → Nat := fun k => (es k).length
  let pl := place len
  have hpl : ∀ i, (pl i).2 < len (pl i).1 := by
    intro i
    induction i with
    | zero => exact List.length_pos_iff.2 (e1 0)
    | succ i ih =>
      show (place len (i + 1)).2 < len (place len (i + 1)).1
      rw [place]
      split
      · assumption
      · exact List.length_pos_iff.2 (e1 _)
  let r : Run step s0 :=
    { state := fun i => f (pl i).1 (pl i).2
      ev := fun i => (es (pl i).1)[(pl i).2]?
      start := f1 0
      next := fun i => by
        refine .inl ⟨_, List.getElem?_eq_getElem (hpl i), ?_⟩
        have h := f3 (pl i).1 (pl i).2 _ (List.getElem?_eq_getElem (hpl i))
        have e : f (pl (i + 1)).1 (pl (i + 1)).2 = f (pl i).1 ((pl i).2 + 1) := by
          show f (place len (i + 1)).1 (place len (i + 1)).2 = _
          rw [place]
          split
          · rfl
          · next hn =>
            have := hpl i
            have h1 : (pl i).2 + 1 = (es (pl i).1).length := by
              have hn : ¬ (pl i).2 + 1 < len (pl i).1 := hn
              show _ = len (pl i).1
              omega
            rw [h1, f2]
            exact f1 _
        rw [e]
        exact h }
  refine ⟨r, fun k => ?_⟩
  suffices h : ∃ i, k ≤ i ∧ pl i = (k, 0) ∧ r.until i = (at' k).1.1 by
    obtain ⟨i, hi, h1, h2⟩ := h
    refine ⟨i, hi, ?_⟩
    rw [h2, show r.state i = (at' k).1.2 by show f (pl i).1 (pl i).2 = _; rw [h1]; exact f1 k]
    exact (at' k).2.2
  induction k with
  | zero => exact ⟨0, Nat.le_refl 0, rfl, rfl⟩
  | succ k ih =>
    obtain ⟨i, hi, h1, h2⟩ := ih
    have walk : ∀ o, o < len k → pl (i + o) = (k, o) ∧ r.until (i + o) = (at' k).1.1 ++ (es k).take o := by
      intro o
      induction o with
      | zero => exact fun _ => ⟨h1, by simpa using h2⟩
      | succ o ih =>
        intro ho
        obtain ⟨g1, g2⟩ := ih (by omega)
        refine ⟨?_, ?_⟩
        · show place len (i + o + 1) = _
          rw [place, show place len (i + o) = (k, o) from g1]
          exact if_pos ho
        · rw [← Nat.add_assoc, until_succ, g2, show r.ev (i + o) = (es k)[o]? by show (es (pl (i + o)).1)[(pl (i + o)).2]? = _; rw [g1],
            List.append_assoc, List.take_add_one]
    have hl : 0 < len k := List.length_pos_iff.2 (e1 k)
    obtain ⟨g1, g2⟩ := walk (len k - 1) (by omega)
    refine ⟨i + (len k - 1) + 1, by omega, ?_, ?_⟩
    · show place len (i + (len k - 1) + 1) = _
      rw [place, show place len (i + (len k - 1)) = (k, len k - 1) from g1]
      exact if_neg (show ¬ len k - 1 + 1 < len k by omega)
    · rw [until_succ, g2, show r.ev (i + (len k - 1)) = (es k)[len k - 1]? by show (es (pl (i + (len k - 1))).1)[(pl (i + (len k - 1))).2]? = _; rw [g1],
        List.append_assoc, ← List.take_add_one, e2]
      congr 1
      exact List.take_of_length_le (by show len k ≤ _; omega)

/-- Going backwards: what happens, happens while the process lives. -/
theorem lives_of (r : Run (Full.Step ω) (Full.new d st)) (h : ∀ j, ∃ i, j ≤ i ∧ (r.state i).up) : r.Lives := by
  intro j
  obtain ⟨i, hi, hu⟩ := h j
  induction i, hi using Nat.le_induction with
  | base => exact hu
  | succ i hi ih =>
    refine ih ?_
    rcases r.next i with ⟨l, -, h2⟩ | ⟨-, h2⟩
    · exact up_before h2
    · rw [← h2]; exact hu

/-- No writer is forgotten if again and again none is waiting. -/
theorem writers_of (r : Run (Full.Step ω) (Full.new d st)) (h : ∀ j, ∃ i, j ≤ i ∧ (r.state i).whole.pending = []) : r.FairToWriters := by
  intro q i hi
  obtain ⟨j, hj, hp⟩ := h i
  obtain ⟨l, s', hl, hs⟩ := hi j hj
  cases hl
  cases hs with
  | whole _ w _ h =>
    cases h with
    | record q before after _ _ hp' => rw [hp] at hp'; simp at hp'

/-- What meets the hypotheses of `C90_recorded` and `C90_flushed_partial`, and for the record that `C90_false` speaks about: the log is flushed again and
again after a client has set a key. -/
example : ∃ (r : Run (Full.Step fun _ => 100000) (Full.new [] State.empty)) (i : Nat), r.Lives ∧ r.FairToWriters ∧ r.DiskWorks ∧ r.Flushes ∧
    begunIn (wholeOf (r.until i)) = [(stamp0, req [b!"set", b!"k", b!"1"])] ∧ .read 7 0 (.array (req [b!"set", b!"k", b!"1"])) ∈ seenIn (r.until i) ∧
    .pipe (.executed 0 env0 (.simple b!"OK")) ∈ seenIn (r.until i) := by
  obtain ⟨tr, s, h1, h2, h3, h4, h5, h6⟩ := set_recorded (fun _ => 100000) []
  let s1 : Full.Sys := { s with whole := { s.whole with file := s.whole.file.flush fun _ => 100000 } }
  have e1 : (s.whole.file.flush fun _ => 100000).flush (fun _ => 100000) = s.whole.file.flush fun _ => 100000 := by
    rw [h6]
    have h1 : (writeRecord (fun _ => 100000) (PFile.new []) set1 |>.flush fun _ => 100000).buf = [] := by decide +kernel
    rw [PFile.flush.eq_1 _ (PFile.flush _ _), h1]
    simp
  have k1 : Full.Step (fun _ => 100000) s (.whole .flushed) s1 := .whole _ _ rfl (.flush h2.1 h2.2)
  have k2 : Full.Step (fun _ => 100000) s1 (.whole .flushed) s1 := by
    have : Full.Step (fun _ => 100000) s1 (.whole .flushed) _ := .whole _ _ rfl (.flush (s := s1.whole) h2.1 h2.2)
    rwa [show ({ s1 with whole := { s1.whole with file := s1.whole.file.flush fun _ => 100000 } } : Full.Sys) = s1 by
      show ({ s1 with whole := { s1.whole with file := (s.whole.file.flush fun _ => 100000).flush fun _ => 100000 } } : Full.Sys) = s1
      rw [e1]] at this
  let r0 : Run (Full.Step fun _ => 100000) s :=
    { state := fun | 0 => s | _ + 1 => s1
      ev := fun _ => some (.whole .flushed)
      start := rfl
      next := fun | 0 => .inl ⟨_, rfl, k1⟩ | _ + 1 => .inl ⟨_, rfl, k2⟩ }
  obtain ⟨r, g1, g2⟩ := run_after h1 r0
  have hs : ∀ j, r.state (tr.length + (j + 1)) = s1 := fun j => (g2 (j + 1)).1
  refine ⟨r, tr.length, lives_of r fun j => ⟨tr.length + (j + 1), by omega, by rw [hs j]; exact h2⟩, writers_of r fun j => ⟨tr.length + (j + 1), by omega, by rw [hs j]; exact h5⟩,
    fun j => not_failed r (show j ≤ tr.length + (j + 1) by omega) ?_, fun j => ⟨tr.length + j, by omega, (g2 j).2⟩, by rw [g1, h4], ?_, ?_⟩
  · rw [hs j]
    show (s.whole.file.flush fun _ => 100000).failed = false
    rw [h6]
    decide +kernel
  · rw [g1, h3]; simp
  · rw [g1, h3]; simp

/-- What is stored after the key has been set. -/
def oneKey : State := match handle env0 State.empty (req [b!"set", b!"k", b!"1"]) with
  | .ok (st, _) => st
  | _ => State.empty

theorem oneKey_set : handle env0 oneKey (req [b!"set", b!"k", b!"1"]) = .ok (oneKey, .simple b!"OK") := by rfl

/-- A server that waits for the next request of connection 7. -/
structure Attentive (n : Net.Sys) : Prop where
  dead : n.dead = false
  crashed : n.pipe.crashed = false
  engine : n.pipe.engine = none
  worker : n.pipe.worker = none
  requests : n.pipe.requests = []
  responses : n.pipe.responses = []
  buffer : n.pipe.buffer = []
  conn : n.pipe.conns 7 = some b!"a"
  client : n.pipe.clients.get b!"a" = some 7
  feed : n.feeds 7 = Feed.new
  db : n.pipe.db = oneKey

/-- Once more the key is set. -/
theorem once_more {n : Net.Sys} (h : Attentive n) : ∃ tr n', Exec Net.Step n tr n' ∧ Attentive n' ∧ tr ≠ [] ∧ (∀ c k, .pipe (.refused c k) ∉ tr) ∧
    (∀ c k o, .read c k o ∈ tr → o = .array (req [b!"set", b!"k", b!"1"])) ∧ (doneIn tr).length = 1 := by
  obtain ⟨feeds, ⟨conns, clients, next, requests, engine, db, responses, buffer, worker, crashed⟩, out, dead⟩ := n
  obtain ⟨h1, h2, h3, h4, h5, h6, h7, h8, h9, h10, h11⟩ := h
  simp only at h1 h2 h3 h4 h5 h6 h7 h8 h9 h10 h11
  subst h1 h2 h3 h4 h5 h6 h7 h11
  refine ⟨[.feed 7 (.arrived setBytes), .read 7 next (.array (req [b!"set", b!"k", b!"1"])), .pipe (.taken next),
    .pipe (.executed next env0 (.simple b!"OK")), .pipe (.queued next), .pipe (.answering next), .pipe (.wrote 7 next (Resp.simple b!"OK").encode)], _,
    .cons (.feed 7 _ _ rfl rfl (by simp [h8]) rfl (.arrive setBytes (by simp [h10, Feed.new])))
    (.cons (.read 7 next _ _ _ rfl (.read _ [] (by simp [upd, h10, Feed.new]) (by simp only [upd, if_true, h10]; exact setBytes_parse)) (.read 7 b!"a" _ rfl h8))
    (.cons (.pipe _ _ rfl rfl (.take next _ [] [] rfl rfl rfl))
    (.cons (.pipe _ _ rfl rfl (.execute next _ b!"a" _ env0 _ _ rfl rfl rfl oneKey_set))
    (.cons (.pipe _ _ rfl rfl (.queue next _ [] [] rfl rfl (Nat.zero_lt_succ 99)))
    (.cons (.pipe _ _ rfl rfl (.answer next _ [] b!"a" (.simple b!"OK") 7 rfl rfl rfl rfl h9))
    (.one (.pipe _ _ rfl rfl (.write next 7 _ rfl rfl)))))))), ⟨rfl, rfl, rfl, rfl, rfl, rfl, rfl, h8, h9, ?_, rfl⟩, by simp, by simp, by simp, rfl⟩
  simp [upd, h10, Feed.new]

/-- All writers write. -/
theorem drain (hu : s.up) : ∃ es s', Exec (Full.Step ω) s es s' ∧ s'.up ∧ s'.whole.pending = [] ∧ s'.lines = s.lines ∧ seenIn es = [] ∧ begunIn (wholeOf es) = [] ∧
    (∀ n, Seen st s.whole n → Seen st s'.whole n) := by
  generalize hp : s.whole.pending = p
  induction p generalizing s with
  | nil => exact ⟨[], s, .nil, hu, hp, rfl, rfl, rfl, fun _ h => h⟩
  | cons q p ih =>
    have hs : Full.Step ω s (.whole (.recorded q)) _ := .whole _ _ rfl (.record ⟨q.1, env0, q.2⟩ [] p hu.1 hu.2 hp)
    obtain ⟨es, s', h1, h2, h3, h4, h5, h6, h7⟩ := ih (s := { s with whole := { s.whole with pending := [] ++ p, file := writeRecord ω s.whole.file ⟨q.1, env0, q.2⟩ } }) hu rfl
    exact ⟨_, s', .cons hs h1, h2, h3, h4, h5, h6, fun n ⟨k1, k2, k3, k4, k5, k6⟩ => h7 n ⟨k1, k2, k3, k4, k5, k6⟩⟩

/-- What is true again and again when a client sets a key again and again: the `k`-th time has been answered. -/
structure OverAndOver (k : Nat) (tr : List Full.Ev) (s : Full.Sys) : Prop where
  seen : ∃ n, Seen oneKey s.whole n ∧ Attentive n
  lines : ∀ c, Open (s.lines c)
  pending : s.whole.pending = []
  reads : ∀ c n o, .read c n o ∈ seenIn tr → o = .array (req [b!"set", b!"k", b!"1"])
  stamps : ∀ q ∈ begunIn (wholeOf tr), q.1 = stamp0
  done : (doneIn (seenIn tr)).length = k

theorem over_up {k : Nat} {tr : List Full.Ev} (h : OverAndOver k tr s) : s.up := by
  obtain ⟨n, h1, h2⟩ := h.seen
  exact ⟨by rw [← h1.dead, h2.dead], by rw [← h1.sim.crashed, h2.crashed]⟩

/-- What has been begun then. -/
theorem over_begun {k : Nat} {tr : List Full.Ev} (hx : Exec (Full.Step ω) (Full.new d oneKey) tr s) (h : OverAndOver k tr s) :
    begunIn (wholeOf tr) = List.replicate k (stamp0, req [b!"set", b!"k", b!"1"]) := by
  obtain ⟨n, h1, h2⟩ := h.seen
  obtain ⟨hh, e, g1, g2, -⟩ := C81_log (full_exec hx).1 (seen_idle h1 h2.engine)
  rw [List.eq_replicate_iff, ← g2, List.length_map, ← g1.length_eq, ← seenIn]
  refine ⟨h.done, fun q hq => ?_⟩
  have hst := h.stamps q (by rw [← g2]; exact hq)
  obtain ⟨q', hq', rfl⟩ := List.mem_map.1 hq
  obtain ⟨x, hx', -, c, o, ho, ha⟩ := forall₂_mem_left g1.flip hq'
  have := h.reads c x.1 o (mem_asked ho)
  subst this
  rcases ha with ha | ⟨ha, -⟩
  · injection ha with ha
    exact Prod.ext hst ha.symm
  · cases ha

/-- What clients see can go on with all writers writing in the end. -/
theorem over_by {tr : List Full.Ev} (hx : Exec (Full.Step ω) (Full.new d oneKey) tr s) {n n' : Net.Sys} {ls : List Net.Ev} (h1 : Seen oneKey s.whole n)
    (hl : ∀ c, Open (s.lines c)) (hr : ∀ c n o, .read c n o ∈ seenIn tr → o = .array (req [b!"set", b!"k", b!"1"])) (hst : ∀ q ∈ begunIn (wholeOf tr), q.1 = stamp0)
    (g1 : Exec Net.Step n ls n') (g2 : Attentive n') (g3 : ls ≠ []) (g4 : ∀ c k, .pipe (.refused c k) ∉ ls)
    (g5 : ∀ c k o, .read c k o ∈ ls → o = .array (req [b!"set", b!"k", b!"1"])) :
    ∃ es s', es ≠ [] ∧ Exec (Full.Step ω) s es s' ∧ OverAndOver ((doneIn (seenIn tr)).length + (doneIn ls).length) (tr ++ es) s' := by
  obtain ⟨lw, w', b1, b2, b3, b4⟩ : ∃ lw w', Exec (Whole.Step ω) s.whole lw w' ∧ netOf lw = ls ∧ Quiet lw ∧ Seen oneKey w' n' := by
    refine g1.inv (P := fun ls n' => ∃ lw w', Exec (Whole.Step ω) s.whole lw w' ∧ netOf lw = ls ∧ Quiet lw ∧ Seen oneKey w' n') ⟨[], _, .nil, rfl, by simp [Quiet], h1⟩ ?_
    rintro ls n1 e n2 - ⟨lw, w1, h1, h2, h3, h3'⟩ hst
    obtain ⟨lw', w2, g1, g2, g3, g4⟩ := seen_back (ω := ω) h3' hst
    exact ⟨lw ++ lw', w2, h1.append g1, by rw [netOf_append, h2, g2], h3.append g3, g4⟩
  obtain ⟨es, s1, k1, k2, k3, k4, -⟩ := lift_exec hx b1 (fun c k hm => g4 c k (by rw [← b2]; exact mem_netOf.2 hm)) (fun _ _ c _ => hl c)
  subst k3
  have hu : s1.up := ⟨by rw [← b4.dead, g2.dead], by rw [← b4.sim.crashed, g2.crashed]⟩
  obtain ⟨ds, s2, q1, q2, q3, q4, q5, q6, q7⟩ := drain (ω := ω) (st := oneKey) hu
  have hseen : seenIn (es ++ ds) = ls := by rw [seenIn_append, q5, List.append_nil, seenIn, k2, b2]
  refine ⟨es ++ ds, s2, fun e => g3 (by rw [← hseen, e]; rfl), k1.append q1, ⟨n', q7 n' b4, g2⟩, fun c => by rw [q4]; exact k4 c (hl c), q3, ?_, ?_, ?_⟩
  · intro c n o hm
    rw [seenIn_append, hseen, List.mem_append] at hm
    exact hm.elim (hr c n o) (g5 c n o)
  · intro q hq
    rw [wholeOf_append, begunIn_append, wholeOf_append, begunIn_append, q6, List.append_nil, List.mem_append] at hq
    refine hq.elim (hst q) fun hq => b3.2.2 q ?_
    rw [k2] at hq
    obtain ⟨x, hx, hx'⟩ := List.mem_filterMap.1 hq
    cases x <;> simp at hx'
    subst hx'
    exact hx
  · rw [seenIn_append, hseen, doneIn_append, List.length_append]

theorem over_more {k : Nat} {tr : List Full.Ev} (hx : Exec (Full.Step ω) (Full.new d oneKey) tr s) (h : OverAndOver k tr s) :
    ∃ es s', es ≠ [] ∧ Exec (Full.Step ω) s es s' ∧ OverAndOver (k + 1) (tr ++ es) s' := by
  obtain ⟨n, h1, h2⟩ := h.seen
  obtain ⟨ls, n', g1, g2, g3, g4, g5, g6⟩ := once_more h2
  have := over_by hx h1 h.lines h.reads h.stamps g1 g2 g3 g4 g5
  rwa [h.done, g6] at this

/-- What meets the hypotheses of `C90_busy_partial`: a client sets a key again and again. -/
example : ∃ r : Run (Full.Step fun _ => 100000) (Full.new [] oneKey), r.Lives ∧ r.FairToWriters ∧ r.DiskWorks ∧ r.Busy := by
  obtain ⟨r, hr⟩ := endless (step := Full.Step fun _ => 100000) (s0 := Full.new [] oneKey) (fun k tr s => match k with | 0 => tr = [] ∧ s = Full.new [] oneKey | k + 1 => OverAndOver k tr s) ⟨rfl, rfl⟩ (by
    rintro (_ | k) tr s hx hp
    · obtain ⟨rfl, rfl⟩ := hp
      exact over_by (n := Net.new oneKey) .nil seen_new (fun c => ⟨rfl, rfl, rfl⟩) (by simp [seenIn, wholeOf, netOf]) (by simp [wholeOf, begunIn])
        (.one (.pipe _ _ rfl rfl (.connect 7 b!"a" rfl rfl (fun _ => by simp [Net.new, Pipe.new])))) ⟨rfl, rfl, rfl, rfl, rfl, rfl, rfl, rfl, rfl, rfl, rfl⟩
        (by simp) (by simp) (by simp)
    · exact over_more hx hp)
  have often : ∀ j, ∃ i, j ≤ i ∧ OverAndOver j (r.until i) (r.state i) := fun j => by
    obtain ⟨i, h1, h2⟩ := hr (j + 1)
    exact ⟨i, by omega, h2⟩
  refine ⟨r, lives_of r fun j => (often j).imp fun i h => ⟨h.1, over_up h.2⟩, writers_of r fun j => (often j).imp fun i h => ⟨h.1, h.2.pending⟩, fun j => ?_, fun N => ?_⟩
  · obtain ⟨i, h1, h2⟩ := often j
    refine not_failed r h1 (whole_noFail (n := 100000) (fun _ => Nat.le_refl _) (by decide) (full_exec (run_exec r i)).1 fun q hq => ?_)
    rw [over_begun (run_exec r i) h2] at hq
    rw [List.eq_of_mem_replicate hq]
    exact set12_small set1 (by simp)
  · obtain ⟨i, h1, h2⟩ := often N
    refine ⟨i, ?_⟩
    rw [over_begun (run_exec r i) h2, List.flatMap_replicate, List.length_flatten, List.map_replicate, List.sum_replicate_nat]
    exact Nat.le_mul_of_pos_right N (by decide +kernel)

end Verif.Props
