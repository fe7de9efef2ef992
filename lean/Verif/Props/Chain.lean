import Verif.Props.Lives
import Verif.Spec.Chain

/-! C95: replicas of replicas. -/

namespace Verif.Props

open Spec PFile
open Fut (upd)

variable {ω : Nat → Nat} {st : State} {k g h : List Req}

theorem recorded_append (a b : List Req) : recorded (a ++ b) = recorded a ++ recorded b := List.filter_append ..

/-- The file of a server that holds anything at the start. -/
theorem written_on {e : Engine} (hr : Relation.ReflTransGen (Engine.Step ω) (Engine.startOn (historyLog k) st h) e) (ho : ∀ q ∈ k ++ h, q.Occurs) :
    ∃ w, (w ++ recorded e.pending).Perm (recorded (h.take (received h e))) ∧ (∀ q ∈ recorded k ++ w, q.Occurs ∧ q.Recorded) ∧
      e.file.disk ++ e.file.buf <+: historyLog (recorded k ++ w) ∧ (e.file.failed = false → e.file.disk ++ e.file.buf = historyLog (recorded k ++ w)) := by
  obtain ⟨done, written, -, hi⟩ := runInv_steps (runInv_startOn (historyLog k) st h) hr
  obtain ⟨h1, h2⟩ := runInv_recorded hi fun q hq => ho q (by simp [hq])
  have e1 : historyLog (recorded k ++ recorded written) = historyLog k ++ historyLog written := by rw [historyLog_append, recorded_log, recorded_log]
  refine ⟨recorded written, h1, fun q hq => ?_, by rw [e1]; exact hi.pre, fun hf => by rw [e1]; exact hi.file hf⟩
  rcases List.mem_append.1 hq with hq | hq
  · obtain ⟨g1, g2⟩ := recorded_mem.1 hq
    exact ⟨ho q (by simp [g1]), g2⟩
  · exact h2 q hq

/-- Whoever has not been flushed for has got nothing. -/
def Early' : Master.Pc → Prop
  | .absent | .accepted | .entered | .listed | .created => True
  | _ => False

/-- What is sent begins with what was in the file at the start. -/
theorem sent_begins {e : Engine} {tr : List Master.Ev} {s : Master.Sys} {c : Nat} (hx : Exec (Master.Step (Engine.Step ω) ω) (Master.new e true) tr s) :
    e.file.disk <+: s.engine.file.disk ∧ (SendInv e.file.disk c s ∨ Early' (s.pcs c) ∧ s.stream c = []) := by
  refine hx.inv (P := fun _ s => e.file.disk <+: s.engine.file.disk ∧ (SendInv e.file.disk c s ∨ Early' (s.pcs c) ∧ s.stream c = [])) ?_ ?_
  · exact ⟨List.prefix_rfl, .inr ⟨trivial, rfl⟩⟩
  · rintro tr s l s' hx ⟨i1, i2⟩ hs
    have hf := mirror_file hx
    have grows : e.file.disk <+: s'.engine.file.disk := by
      refine i1.trans ?_
      cases hs with
      | engine he => simp only [Master.noLog, hf, Master.new, if_true]; exact step_grows he
      | flush d hp hff => exact flush_grows ω _
      | flushFails d hp hff => exact flush_grows ω _
      | _ => exact List.prefix_rfl
    refine ⟨grows, ?_⟩
    rcases i2 with i2 | ⟨i2, i3⟩
    · exact .inl (sendInv_step step_grows i2 hf hs)
    · have other : ∀ {d : Nat} {p : Master.Pc}, d ≠ c → upd s.pcs d p c = s.pcs c := fun hd => by simp [upd, hd.symm]
      have otherS : ∀ {d : Nat} {b : Bytes}, d ≠ c → upd s.stream d b c = s.stream c := fun hd => by simp [upd, hd.symm]
      cases hs with
      | engine he => exact .inr ⟨i2, i3⟩
      | acceptFails => exact .inr ⟨i2, i3⟩
      | broke d => exact .inr ⟨i2, i3⟩
      | noFile d hp hff => rw [hf] at hff; cases hff
      | flush d hp hff =>
        by_cases hd : d = c
        · subst hd; exact .inl (by simp only [SendInv, upd, if_true]; exact ⟨grows, i3⟩)
        · exact .inr ⟨by simpa only [other hd] using i2, i3⟩
      | flushFails d hp hff =>
        by_cases hd : d = c
        · subst hd; exact .inl (by simp only [SendInv, Master.leave, upd, if_true]; exact ⟨_, List.prefix_rfl, grows, by rw [i3]; exact List.nil_prefix⟩)
        · exact .inr ⟨by simpa only [Master.leave, other hd] using i2, i3⟩
      | finish d b n hp hn =>
        by_cases hd : d = c
        · subst hd; rw [hp] at i2; exact i2.elim
        · exact .inr ⟨by simpa only [Master.leave, other hd] using i2, i3⟩
      | fail d hp =>
        by_cases hd : d = c
        · subst hd; exact .inl (by simp only [SendInv, Master.leave, upd, if_true]; exact ⟨_, List.prefix_rfl, grows, by rw [i3]; exact List.nil_prefix⟩)
        · exact .inr ⟨by simpa only [Master.leave, other hd] using i2, i3⟩
      | send d b n k hp _ hn =>
        by_cases hd : d = c
        · subst hd; rw [hp] at i2; exact i2.elim
        · exact .inr ⟨by simpa only [other hd] using i2, by simpa only [otherS hd] using i3⟩
      | accept d _ hp =>
        by_cases hd : d = c
        · subst hd; exact .inr ⟨by simp [upd, Early'], i3⟩
        · exact .inr ⟨by simpa only [other hd] using i2, i3⟩
      | enter d hp _ =>
        by_cases hd : d = c
        · subst hd; exact .inr ⟨by simp [upd, Early'], i3⟩
        · exact .inr ⟨by simpa only [other hd] using i2, i3⟩
      | list d hp =>
        by_cases hd : d = c
        · subst hd; exact .inr ⟨by simp [upd, Early'], i3⟩
        · exact .inr ⟨by simpa only [other hd] using i2, i3⟩
      | create d hp =>
        by_cases hd : d = c
        · subst hd; exact .inr ⟨by simp [upd, Early'], i3⟩
        · exact .inr ⟨by simpa only [other hd] using i2, i3⟩
      | openRaw d hp =>
        by_cases hd : d = c
        · subst hd; rw [hp] at i2; exact i2.elim
        · exact .inr ⟨by simpa only [other hd] using i2, i3⟩
      | copy d hp =>
        by_cases hd : d = c
        · subst hd; rw [hp] at i2; exact i2.elim
        · exact .inr ⟨by simpa only [other hd] using i2, i3⟩
      | prepare d b hp =>
        by_cases hd : d = c
        · subst hd; rw [hp] at i2; exact i2.elim
        · exact .inr ⟨by simpa only [other hd] using i2, i3⟩

/-- A replica is served completely by a master that has just started and has nothing to do. -/
theorem served_whole (ω : Nat → Nat) (D : Bytes) (st : State) : ∃ tr s, Exec (Master.Step (Engine.Step ω) ω) (Master.new (Engine.startOn D st []) true) tr s ∧ Idle s.engine ∧
    AllOut s.engine ∧ .finished 0 ∈ tr ∧ s.stream 0 = transfer D ∧ s.engine.db = st ∧ s.engine.file.disk = D := by
  have e1 := Exec.snoc (step := Master.Step (Engine.Step ω) ω) (.nil (s0 := Master.new (Engine.startOn D st []) true)) (.accept 0 rfl rfl)
  have e2 := Exec.snoc e1 (.enter 0 (by simp [upd]) rfl)
  have e3 := Exec.snoc e2 (.list 0 (by simp [upd]))
  have e4 := Exec.snoc e3 (.create 0 (by simp [upd]))
  have e5 := Exec.snoc e4 (.flush 0 (by simp [upd]) rfl)
  have e6 := Exec.snoc e5 (.openRaw 0 (by simp [upd]))
  have e7 := Exec.snoc e6 (.copy 0 (by simp [upd]))
  have e8 := Exec.snoc e7 (.prepare 0 D (by simp [upd]; rfl))
  have e9 := Exec.snoc e8 (.send 0 D 0 (transfer D).length (by simp [upd]) rfl (Nat.le_of_eq (Nat.zero_add _)))
  have e10 := Exec.snoc e9 (.finish 0 D (transfer D).length (by simp [upd]) rfl)
  exact ⟨_, _, e10, ⟨rfl, rfl, rfl⟩, ⟨rfl, rfl⟩, by simp, by simp [Master.leave, upd, Master.new], rfl, rfl⟩

/-- C95: what a replica takes from its master is what the master itself was asked, before and since it was started, whatever the master had taken from others when it
was started (`st`). -/
theorem C95_exact {tr : List Master.Ev} {s : Master.Sys} {c : Nat} {got : Bytes}
    (hr : Exec (Master.Step (Engine.Step ω) ω) (Master.new (Engine.startOn (historyLog k) st h) true) tr s) (hg : got <+: s.stream c)
    (ho : ∀ q ∈ k ++ g ++ h, q.Occurs) (hd : s.engine.file.disk.length < 2 ^ 32) (envs envs' : Nat → Env) :
    ∃ taken rest, (taken ++ rest).Perm (recorded (h.take (received h s.engine))) ∧
      ((receive got).2 = none ∧ syncExternal envs envs' (some (historyLog g)) (some got) =
          filledBy (serve State.empty (again envs (recorded g) ++ again envs' (recorded k ++ taken))) ∨
        (receive got).2 ≠ none ∧ syncExternal envs envs' (some (historyLog g)) (some got) = filledBy (serve State.empty (again envs (recorded g)))) := by
  obtain ⟨w, h1, h2, h3, -⟩ := written_on (mirror_runs (fun _ => .flush) rfl hr) fun q hq => ho q (by simp at hq ⊢; tauto)
  have hown : fromFile (fun _ => State.empty) envs (historyLog g) = _ := C33_exact (fun q hq => ho q (by simp [hq])) envs
  obtain ⟨b, hD, hb, hs⟩ : ∃ b, historyLog k <+: b ∧ b <+: s.engine.file.disk ∧ s.stream c <+: transfer b := by
    obtain ⟨g1, g2 | ⟨-, g2⟩⟩ := sent_begins (c := c) hr
    · exact sendInv_stream g2 g1
    · exact ⟨_, List.prefix_rfl, g1, by rw [g2]; exact List.nil_prefix⟩
  have hbl : b.length < 2 ^ 32 := Nat.lt_of_le_of_lt hb.length_le hd
  obtain ⟨n, err, hk, hp, hsh⟩ := parse_recorded h2 (hb.trans ((List.prefix_append _ _).trans h3))
  have hn : (recorded k).length ≤ n := by
    refine hk.2.2 _ (by simp) ?_
    rw [List.take_append_of_le_length (le_refl _), List.take_length, recorded_log]
    exact hD.length_le
  have key : ∃ taken rest, (taken ++ rest).Perm w ∧
      ((receive got).2 = none ∧ (receive got).1 = (recorded k ++ taken).map reqLog ∨ (receive got).2 ≠ none) := by
    cases hx : (receive got).2 with
    | some e => exact ⟨[], w, .refl _, .inr (by simp)⟩
    | none =>
      rcases receive_prefix hbl (hg.trans hs) with hi | rfl
      · rw [hi] at hx; cases hx
      · have e1 := receive_whole hbl
        have e2 : err = false := by
          have := (receive_error hbl).1 hx
          rwa [hp] at this
        refine ⟨w.take (n - (recorded k).length), w.drop (n - (recorded k).length), by rw [List.take_append_drop], .inl ⟨rfl, ?_⟩⟩
        rw [e1, hp]
        simp only
        rw [List.take_append, List.take_of_length_le hn]
  obtain ⟨taken, rest, k1, k2⟩ := key
  refine ⟨taken, rest ++ recorded s.engine.pending, ?_, ?_⟩
  · rw [← List.append_assoc]
    exact (k1.append_right _).trans h1
  · have ht : ∀ q ∈ recorded k ++ taken, q.Occurs ∧ q.Recorded := fun q hq => by
      rcases List.mem_append.1 hq with hq | hq
      · exact h2 q (by simp [hq])
      · exact h2 q (List.mem_append_right _ (k1.subset (by simp [hq])))
    rcases k2 with ⟨a1, a2⟩ | a
    · refine .inl ⟨a1, ?_⟩
      rw [syncExternal, hown, serve_parts]
      cases serve State.empty (again envs (recorded g)) with
      | panic => rfl
      | diverge => rfl
      | ok x =>
        obtain ⟨st, rs⟩ := x
        simp only [filledBy, Outcome.bind_ok, fromMaster]
        generalize receive got = r at *
        obtain ⟨vs, er⟩ := r
        simp only at a1 a2 ⊢
        subst a1 a2
        simp only
        rw [build_again ht, if_pos rfl]
        cases serve st (again envs' (recorded k ++ taken)) with
        | panic => rfl
        | diverge => rfl
        | ok y =>
          simp only
          congr 1
          funext i
          split <;> rfl
    · refine .inr ⟨a, ?_⟩
      rw [syncExternal, hown]
      cases serve State.empty (again envs (recorded g)) with
      | panic => rfl
      | diverge => rfl
      | ok x =>
        obtain ⟨st, rs⟩ := x
        simp only [filledBy, Outcome.bind_ok, fromMaster]
        generalize receive got = r at *
        obtain ⟨vs, _ | er⟩ := r
        · exact absurd rfl a
        · rfl

/-- The hypotheses above are met: a server that was asked SET k 1 in an earlier life and holds SET k 2 from its master serves a replica that was asked SET k 1 too. -/
example : ∃ (st : State) (tr : List Master.Ev) (s : Master.Sys) (t : State), handle env0 st (req [b!"get", b!"k"]) = .ok (t, .bulk b!"2") ∧
    Exec (Master.Step (Engine.Step fun _ => 0) fun _ => 0) (Master.new (Engine.startOn (historyLog [set1]) st []) true) tr s ∧
    s.stream 0 = transfer (historyLog [set1]) ∧ (receive (s.stream 0)).2 = none ∧ (∀ q ∈ [set1] ++ [set1] ++ [], q.Occurs) ∧ s.engine.file.disk.length < 2 ^ 32 := by
  obtain ⟨st, t, -, h0⟩ : ∃ st t, serve State.empty (served [set2]) = .ok (st, [.simple b!"OK"]) ∧ handle env0 st (req [b!"get", b!"k"]) = .ok (t, .bulk b!"2") :=
    ⟨_, _, rfl, rfl⟩
  obtain ⟨tr, s, h1, h2, h3, h4, h5, h6, h7⟩ := served_whole (fun _ => 0) (historyLog [set1]) st
  refine ⟨st, tr, s, t, h0, h1, h5, ?_, ?_, ?_⟩
  · rw [h5]; decide +kernel
  · simpa using set1_ok.1
  · rw [h7]; decide +kernel

/-- C95: what a server has taken from its master is gone when it is started again without it, unless it was asked for it itself. -/
theorem C95_forgets {e : Engine} (hr : Relation.ReflTransGen (Engine.Step ω) (Engine.startOn (historyLog k) st h) e) (ho : ∀ q ∈ k ++ h, q.Occurs) (hi : Idle e)
    (ha : AllOut e) (envs : Nat → Env) :
    ∃ w, w.Perm (recorded h) ∧ syncExternal envs envs (some e.file.disk) none = filledBy (serve State.empty (again envs (recorded k ++ w))) := by
  obtain ⟨w, h1, h2, -, h3⟩ := written_on hr ho
  have e1 : received h e = h.length := by simp [received, hi.1, hi.2.1]
  rw [e1, List.take_length, hi.2.2] at h1
  have h4 := h3 ha.1
  rw [ha.2, List.append_nil] at h4
  refine ⟨w, by simpa [recorded] using h1, ?_⟩
  rw [syncExternal, h4]
  have h5 : fromFile noDBs envs (historyLog (recorded k ++ w)) = _ := fromFile_recorded (fun q hq => (h2 q hq).1) envs
  have h6 : recorded (recorded k ++ w) = recorded k ++ w := recorded_self fun q hq => (h2 q hq).2
  rw [h6] at h5
  rw [show (fun _ => State.empty : DBs) = noDBs from rfl, h5]
  cases serve State.empty (again envs (recorded k ++ w)) <;> rfl

/-- The hypotheses above are met: a server that was asked SET k 1 in an earlier life, has taken an element of a list from its master and is asked SET k 2. -/
example : ∃ (st : State) (e : Engine), serve State.empty (served [push]) = .ok (st, [.int 1]) ∧
    Relation.ReflTransGen (Engine.Step fun _ => 4096) (Engine.startOn (historyLog [set1]) st [set2]) e ∧ (∀ q ∈ [set1] ++ [set2], q.Occurs) ∧ Idle e ∧ AllOut e := by
  obtain ⟨st, st', h0, h1⟩ : ∃ st st', serve State.empty (served [push]) = .ok (st, [.int 1]) ∧ handle set2.env st set2.objs = .ok (st', .simple b!"OK") :=
    ⟨_, _, rfl, rfl⟩
  obtain ⟨e, g1, g2, g3, -⟩ := short_life_on (d := historyLog [set1]) set2_ok.1 set2_recorded h1 (by decide +kernel) (by decide +kernel)
  exact ⟨st, e, h0, Relation.ReflTransGen.mono (r := Unhurried fun _ => 4096) (p := Engine.Step fun _ => 4096) (fun _ _ h => h.1) _ _ g1, by simpa using ⟨set1_ok.1, set2_ok.1⟩, g2, g3⟩

/-- C95 is false: a server with an empty file that has taken SET k 1 from its master and answers 1 to GET k passes nothing of it on: its own replica answers that there
is no k. -/
theorem C95_false : ¬ PassedOn := by
  intro H
  have ok : ∀ q ∈ [] ++ [set1], q.Occurs ∧ ¬ q.Is b!"ltrim" ∧ ¬ q.Is b!"spop" ∧ ∀ o ∈ q.objs, TextObj o := by
    simpa using set1_ok
  obtain ⟨dbs, a, g1, g2, g3, -⟩ := C63_own_partial (g := []) (h := [set1]) ok rfl rfl (by decide +kernel) (envs := fun _ => env0) (envs' := fun _ => env0) (fun _ => env0_fair)
    (fun _ => env0_fair)
  obtain ⟨tr, s, h1, h2, h3, h4, h5, h6, -⟩ := served_whole (fun _ => 0) [] (dbs 1)
  obtain ⟨dbs', k1, k2⟩ := H (fun _ => 0) [] [] _ _ _ dbs tr s 0 (by simp) (fun _ => env0_fair) (fun _ => env0_fair) g1 h1 h2 h3 h4
  rw [h5] at k1
  have e : syncExternal (fun _ => env0) (fun _ => env0) (some []) (some (transfer [])) = .ok noDBs := rfl
  rw [e] at k1
  cases k1
  obtain ⟨out, hst, hob⟩ := handle_refines g3 env0_fair (c := .get b!"k") (request_req (n := b!"get") [b!"k"])
  simp only [Step] at hst
  subst hst
  obtain ⟨t, ht, -⟩ := hob
  have hd := differ g2 g3 [b!"k"] b!"get" (by decide) (r := .bulk b!"1") rfl ht
  rw [h6] at k2
  obtain ⟨st', hst'⟩ := k2 _ _ _ _ ht
  rcases hd with hr | ⟨⟨_, e⟩, _⟩
  · rw [← hr] at hst'
    have : handle env0 (noDBs 1) (req [b!"get", b!"k"]) = .ok (State.empty, .nullBulk) := rfl
    have e2 : Outcome.ok (st', Resp.bulk b!"1") = .ok (State.empty, .nullBulk) := hst'.symm.trans this
    cases e2
  · cases e

end Verif.Props
