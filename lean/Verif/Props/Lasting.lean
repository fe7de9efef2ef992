import Verif.Props.Survives

/-! # C78 – servers that go on after crashes -/

namespace Verif.Props

open Spec

/-- The same requests, executed in other surroundings. -/
def inEnvs (envs : Nat → Env) (w : List Req) : List Req := w.mapIdx fun i q => { q with env := envs i }

theorem inEnvs_served (envs : Nat → Env) (w : List Req) : served (inEnvs envs w) = again envs w := by
  refine List.ext_getElem (by simp [served, inEnvs, again]) fun i h1 h2 => ?_
  simp [served, inEnvs, again]

theorem inEnvs_log (envs : Nat → Env) (w : List Req) : historyLog (inEnvs envs w) = historyLog w := by
  induction w generalizing envs with
  | nil => rfl
  | cons q w ih =>
    have e : inEnvs envs (q :: w) = { q with env := envs 0 } :: inEnvs (fun i => envs (i + 1)) w := by simp [inEnvs, List.mapIdx_cons]
    have f : ∀ q h, historyLog (q :: h) = requestLog q.stamp q.objs ++ historyLog h := fun q h => by rw [historyLog, List.flatMap_cons]; rfl
    rw [e, f, f, ih]

theorem inEnvs_mem {envs : Nat → Env} {w : List Req} {q : Req} (h : q ∈ inEnvs envs w) : ∃ q' ∈ w, ∃ i, q = { q' with env := envs i } := by
  obtain ⟨i, hi, rfl⟩ := List.mem_mapIdx.1 h
  exact ⟨_, List.getElem_mem hi, i, rfl⟩

/-- C78, for requests in UTF-8 other than LTRIM and SPOP: servers before it may have ended at any moments at which the file held nothing but complete records; a server then serves its requests, every writer
getting to the file before the next request is received, and ends at rest with everything on the disk. The next server holds exactly what it held. What is missing of `Lasting` are servers started on a
file that ends with a part of a record: refuted by `C78_false`. -/
theorem C78_lasting_partial {hs : List (List Req)} {d d' : Bytes} {ω : Nat → Nat} {st : State} {h : List Req} {e : Engine} {a : DB} (hl : EndedUncut hs d) (hb : Begins d st)
    (ho : ∀ h' ∈ h :: hs, ∀ q ∈ h', q.Occurs ∧ ¬ q.Is b!"ltrim" ∧ ¬ q.Is b!"spop" ∧ ∀ o ∈ q.objs, TextObj o)
    (hr : Relation.ReflTransGen (Unhurried ω) (Engine.startOn d st h) e) (hi : Idle e) (ha : AllOut e) (hd : e.file.disk = d') (hdb : Abs e.db a)
    {envs : Nat → Env} (hf : ∀ i, (envs i).ord.Fair) : ∃ dbs, fromFile noDBs envs d' = .ok dbs ∧ Abs (dbs 1) a ∧ ∀ i, i ≠ 1 → dbs i = State.empty := by
  obtain ⟨w, hw, rfl⟩ := uncut_written hl fun h' hh q hq => (ho h' (List.mem_cons_of_mem _ hh) q hq).1
  have hfile := (life_file ⟨ω, st, e, hb, hr, hi, ha, rfl, hd⟩).1
  obtain ⟨envs0, dbs0, hf0, hb0, rfl⟩ := hb
  obtain ⟨done, written, -, hinv⟩ := runInv_steps (runInv_startOn _ _ h) (Relation.ReflTransGen.mono (r := Unhurried ω) (p := Engine.Step ω) (fun _ _ h => h.1) _ _ hr)
  have hsplit := hinv.split
  rw [hi.1, hi.2.1] at hsplit
  simp only [Option.toList_none, List.append_nil] at hsplit
  subst hsplit
  rw [fromFile_recorded (fun q hq => (hw q hq).1), recorded_self fun q hq => (hw q hq).2.1] at hb0
  cases es : serve State.empty (again envs0 w) with
  | panic => rw [es] at hb0; cases hb0
  | diverge => rw [es] at hb0; cases hb0
  | ok x =>
    obtain ⟨st0, rs0⟩ := x
    rw [es] at hb0
    cases hb0
    have hall : serve State.empty (served (inEnvs envs0 w ++ h)) = .ok (e.db, rs0 ++ e.replies) := by
      rw [show served (inEnvs envs0 w ++ h) = served (inEnvs envs0 w) ++ served h from List.map_append, inEnvs_served, serve_append es]
      have := hinv.served
      simp only [if_true] at this
      rw [this]
    obtain ⟨dbs, a', g1, g2, g3, g4⟩ := C33_rebuilds_partial _ _ _ (fun q hq => by
      rcases List.mem_append.1 hq with hq | hq
      · obtain ⟨q', hq', i, rfl⟩ := inEnvs_mem hq
        obtain ⟨o1, -, h', o2, o3⟩ := hw q' hq'
        obtain ⟨p1, p2, p3, p4⟩ := ho h' (List.mem_cons_of_mem _ o2) q' o3
        exact ⟨⟨hf0 i, o1.wire, o1.time, o1.id, o1.host, o1.small⟩, p2, p3, p4⟩
      · exact ho h (by simp) q hq) hall envs hf
    cases abs_unique g2 hdb
    rw [historyLog_append, inEnvs_log, ← hfile] at g1
    exact ⟨dbs, g1, g3, g4⟩

/-- A server is killed after a SET and before this is logged; the next one gets another SET and ends at rest. -/
example : ∃ e, EndedUncut [[set1]] [] ∧ Begins [] State.empty ∧ Relation.ReflTransGen (Unhurried fun _ => 4096) (Engine.startOn [] State.empty [set2]) e ∧ Idle e ∧ AllOut e ∧
    e.file.disk = historyLog [set2] ∧ (∃ a, Abs e.db a) ∧
    ∀ h' ∈ [[set2], [set1]], ∀ q ∈ h', q.Occurs ∧ ¬ q.Is b!"ltrim" ∧ ¬ q.Is b!"spop" ∧ ∀ o ∈ q.objs, TextObj o := by
  have hb : Begins [] State.empty := ⟨fun _ => env0, noDBs, fun _ => env0_fair, rfl, rfl⟩
  obtain ⟨st1, h1⟩ : ∃ st1, handle set1.env State.empty set1.objs = .ok (st1, okReply) := ⟨_, rfl⟩
  have hr : Relation.ReflTransGen (Engine.Step fun _ => 100) (Engine.startOn [] State.empty [set1]) _ := .tail (.tail .refl (.receive rfl rfl)) (.execute rfl h1)
  have hu : EndedUncut ([] ++ [[set1]]) [] := .next .none hb hr (.inl rfl) ⟨[], [], .nil, rfl⟩
  obtain ⟨st2, h2⟩ : ∃ st2, handle set2.env State.empty set2.objs = .ok (st2, okReply) := ⟨_, rfl⟩
  obtain ⟨e, g1, g2, g3, -, g4, g5⟩ := short_life_on (d := []) set2_ok.1 set2_recorded h2 (by decide +kernel) (by decide +kernel)
  refine ⟨e, hu, hb, g1, g2, g3, g5, ?_, ?_⟩
  · have hs : serve State.empty (served [set2]) = .ok (st2, [okReply]) := by simp [serve, served, h2]
    obtain ⟨a, -, ha⟩ := serve_trace abs_empty (by simpa [served] using set2_ok.1.fair) hs
    exact ⟨a, by rw [g4]; exact ha⟩
  · simpa using ⟨set2_ok, set1_ok⟩

end Verif.Props
