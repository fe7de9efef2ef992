import Verif.Spec.Start
import Verif.Props.Stop
import Verif.Props.Replay
import Verif.Props.LogOrder

/-! # C65 – what a configuration starts -/

namespace Verif.Props

open Spec

variable {w : World} {envs envs' : Nat → Env} {c : Config} {s : Started}

/-- C65: the server fails to start exactly when its port cannot be listened on (or replaying its file kills it, see `C65_replay`). -/
theorem C65_fails : c.init w envs envs' = .ok none ↔ c.port ≠ 0 ∧ ¬ Usable w c.port := by
  unfold Config.init World.listen Usable
  by_cases h0 : c.port = 0
  · simp only [h0, if_true]
    generalize syncExternal _ _ _ _ = x
    cases x <;> simp [Bind.bind, Outcome.bind]
  · by_cases h1 : 0 < c.port ∧ c.port < 65536 ∧ w.free c.port = true
    · rw [if_neg h0, if_pos ⟨h1.1, h1.2.1, h1.2.2, by simp⟩]
      simp only [h0, h1, ne_eq]
      generalize syncExternal _ _ _ _ = x
      cases x <;> simp [Bind.bind, Outcome.bind]
    · rw [if_neg h0, if_neg (by tauto)]
      simp [h0, h1]

/-- What a start that succeeds consists of. -/
theorem init_ok (h : c.init w envs envs' = .ok (some s)) :
    ∃ port, w.listen none c.port = some port ∧ s.port = port ∧ s.replicas = w.newMaster port c.enginePort ∧
      s.file = (if c.databaseFile = [] then none else (w.file c.databaseFile).map fun _ => c.databaseFile) ∧
      syncExternal envs envs' (if c.databaseFile = [] then none else some ((w.file c.databaseFile).getD []))
        (if c.masterAddress = [] then none else w.remote c.masterAddress) = .ok s.dbs := by
  unfold Config.init at h
  cases hl : w.listen none c.port with
  | none => rw [hl] at h; cases h
  | some port =>
    rw [hl] at h
    simp only at h
    by_cases hf : c.databaseFile = []
    · simp only [hf, if_true] at h ⊢
      generalize hx : syncExternal _ _ _ _ = x at h ⊢
      cases x <;> simp only [Bind.bind, Outcome.bind, Outcome.ok.injEq, Option.some.injEq, reduceCtorEq] at h
      subst h
      exact ⟨port, rfl, rfl, rfl, rfl, rfl⟩
    · simp only [hf, if_false] at h ⊢
      generalize hx : syncExternal _ _ _ _ = x at h ⊢
      cases x <;> simp only [Bind.bind, Outcome.bind, Outcome.ok.injEq, Option.some.injEq, reduceCtorEq] at h
      subst h
      exact ⟨port, rfl, rfl, rfl, rfl, rfl⟩

/-- C65: clients are served on the configured port (0: one the system picks). -/
theorem C65_port (h : c.init w envs envs' = .ok (some s)) : s.port = if c.port = 0 then w.pick else c.port := by
  obtain ⟨port, h1, h2, -⟩ := init_ok h
  rw [h2]
  unfold World.listen at h1
  grind

/-- C65: replicas are served on the port the configuration asks for if that can be listened on, and otherwise not at all. In particular never on the
clients' port. -/
theorem C65_replicas (h : c.init w envs envs' = .ok (some s)) (p : Int) :
    s.replicas = some p ↔ ReplicaPort c p ∧ Usable w p ∧ p ≠ s.port := by
  obtain ⟨port, h1, h2, h3, -⟩ := init_ok h
  rw [h3, h2]
  unfold World.newMaster World.listen Config.enginePort ReplicaPort Usable
  grind

/-- C65: which database file is open. -/
theorem C65_file (h : c.init w envs envs' = .ok (some s)) (f : Bytes) :
    s.file = some f ↔ c.databaseFile = f ∧ f ≠ [] ∧ ∃ d, w.file f = some d := by
  obtain ⟨port, -, -, -, h4, -⟩ := init_ok h
  rw [h4]
  split
  · simp_all
  · rename_i hf
    cases hx : w.file c.databaseFile with
    | none =>
      simp only [Option.map_none, reduceCtorEq, false_iff]
      rintro ⟨rfl, -, d, hd⟩
      rw [hx] at hd; cases hd
    | some d =>
      simp only [Option.map_some, Option.some.injEq]
      exact ⟨fun e => ⟨e, e ▸ hf, d, e ▸ hx⟩, fun e => e.1⟩

/-- C65: without a master the database is what replaying the file gives, and a server that cannot open it starts empty. -/
theorem C65_replay (h : c.init w envs envs' = .ok (some s)) (hm : c.masterAddress = []) (hf : c.databaseFile ≠ []) :
    fromFile noDBs envs ((w.file c.databaseFile).getD []) = .ok s.dbs := by
  obtain ⟨port, -, -, -, -, h5⟩ := init_ok h
  rw [if_neg hf, if_pos hm] at h5
  simp only [syncExternal] at h5
  generalize hx : fromFile (fun _ => State.empty) envs _ = x at h5
  cases x <;> simp only [Bind.bind, Outcome.bind, Outcome.ok.injEq, reduceCtorEq] at h5
  rw [← h5]
  exact hx

/-- C65: a server restarted on the log of the requests `g` (under the conditions of C33) holds what they led to. -/
theorem C65_restart {g : List Req} {st : State} {rs : List Resp} (h : c.init w envs envs' = .ok (some s)) (hm : c.masterAddress = [])
    (hf : c.databaseFile ≠ []) (hg : w.file c.databaseFile = some (historyLog g))
    (ho : ∀ q ∈ g, q.Occurs ∧ ¬ q.Is b!"ltrim" ∧ ¬ q.Is b!"spop" ∧ ∀ o ∈ q.objs, TextObj o)
    (hs : serve State.empty (served g) = .ok (st, rs)) (he : ∀ i, (envs i).ord.Fair) :
    ∃ a, Abs st a ∧ Abs (s.dbs 1) a ∧ ∀ i, i ≠ 1 → s.dbs i = State.empty := by
  have h1 := C65_replay h hm hf
  rw [hg, Option.getD_some] at h1
  obtain ⟨dbs, a, e1, e2, e3, e4⟩ := C33_rebuilds_partial g _ _ ho hs envs he
  have e1 : fromFile noDBs envs (historyLog g) = .ok dbs := e1
  rw [e1] at h1
  cases h1
  exact ⟨a, e2, e3, e4⟩

/-- C65: a replica without a database file takes nothing from its master: it does not even ask. -/
theorem C65_ignored (h : c.init w envs envs' = .ok (some s)) (hf : c.databaseFile = []) : s.dbs = noDBs := by
  obtain ⟨port, -, -, -, -, h5⟩ := init_ok h
  rw [if_pos hf] at h5
  simp only [syncExternal, Outcome.ok.injEq] at h5
  exact h5.symm

/-- The full claim: a server whose configuration asks for replicas serves them. -/
def ServesReplicas : Prop := ∀ (w : World) (envs envs' : Nat → Env) (c : Config) (s : Started), c.init w envs envs' = .ok (some s) →
    c.enableReplica = true → ∃ p, s.replicas = some p

/-- C65 is false: after port 65535 there is no next one, and the server starts all the same. -/
theorem C65_edge (h : c.init w envs envs' = .ok (some s)) (hp : c.port = 65535) (hr : c.replicaPort ≤ 0) : s.replicas = none := by
  refine Option.eq_none_iff_forall_ne_some.2 fun p hp' => ?_
  obtain ⟨⟨-, h1⟩, ⟨-, h2, -⟩, -⟩ := (C65_replicas h p).1 hp'
  omega

/-- A machine on which nothing else runs, without files and masters. -/
def alone : World := { free := fun _ => true, pick := 40000, file := fun _ => some [], remote := fun _ => none }

theorem C65_false : ¬ ServesReplicas := by
  intro H
  obtain ⟨p, hp⟩ := H alone (fun _ => env0) (fun _ => env0) { Config.main with port := 65535, replicaPort := 0 } _ rfl rfl
  rw [C65_edge (c := { Config.main with port := 65535, replicaPort := 0 }) (w := alone) (envs := fun _ => env0) (envs' := fun _ => env0) rfl rfl
    (by decide)] at hp
  cases hp

/-- A stop that ends in a call on nil. -/
theorem stop_nil {cfg : Stop.Config} (h : cfg.master = false ∨ cfg.file = false) (ω : Nat → Nat) (d : Bytes) :
    ∃ tr s x, Exec (Stop.Step cfg ω) (Stop.new d) tr s ∧ s.crashed = true ∧ .crash x ∈ tr ∧ x ≠ .mapRace := by
  obtain ⟨m, f⟩ := cfg
  cases m with
  | false =>
    exact ⟨[.call 1, .won 1, .did 1 .removeRequest, .did 1 .removeResponse, .did 1 .closeListener, .did 1 .closeShut, .crash .nilMaster], _, .nilMaster,
      .cons ⟨rfl, rfl, .call 1 (by decide) rfl⟩ (.cons ⟨rfl, rfl, .won 1 rfl rfl⟩
      (.cons ⟨rfl, rfl, .removeRequest 1 rfl⟩ (.cons ⟨rfl, rfl, .removeResponse 1 rfl (Nat.zero_lt_succ 99)⟩ (.cons ⟨rfl, rfl, .closeListener 1 rfl⟩
      (.cons ⟨rfl, rfl, .closeShut 1 rfl rfl⟩ (.one ⟨rfl, rfl, .nilMaster 1 rfl rfl⟩)))))), rfl, by simp, by simp⟩
  | true =>
    obtain rfl : f = false := by simpa using h
    exact ⟨[.call 1, .won 1, .did 1 .removeRequest, .did 1 .removeResponse, .did 1 .closeListener, .did 1 .closeShut, .did 1 .stopMaster, .masterLeft 1,
      .crash .nilFile], _, .nilFile, .cons ⟨rfl, rfl, .call 1 (by decide) rfl⟩ (.cons ⟨rfl, rfl, .won 1 rfl rfl⟩
      (.cons ⟨rfl, rfl, .removeRequest 1 rfl⟩ (.cons ⟨rfl, rfl, .removeResponse 1 rfl (Nat.zero_lt_succ 99)⟩ (.cons ⟨rfl, rfl, .closeListener 1 rfl⟩
      (.cons ⟨rfl, rfl, .closeShut 1 rfl rfl⟩ (.cons ⟨rfl, rfl, .stopMaster 1 rfl rfl⟩ (.cons ⟨rfl, rfl, .masterLeft 1 rfl⟩
      (.one ⟨rfl, rfl, .nilFile 1 rfl rfl⟩)))))))), rfl, by simp, by simp⟩

/-- C65: a server can be stopped without a crash, other than by a replica coming or going meanwhile (`C47_crash`), exactly when it serves replicas and
has opened its database file. -/
theorem C65_stop (s : Started) : (∀ ω d tr t x, Exec (Stop.Step s.forStop ω) (Stop.new d) tr t → .crash x ∈ tr → x = .mapRace) ↔
    (∃ p, s.replicas = some p) ∧ ∃ f, s.file = some f := by
  constructor
  · intro h
    by_contra hn
    have : s.forStop.master = false ∨ s.forStop.file = false := by
      simp only [Started.forStop, Option.isSome_eq_false_iff, Option.isNone_iff_eq_none]
      rw [not_and_or] at hn
      simpa [Option.eq_none_iff_forall_ne_some] using hn
    obtain ⟨tr, t, x, h1, -, h2, h3⟩ := stop_nil this (fun _ => 0) []
    exact h3 (h _ _ _ _ _ h1 h2)
  · rintro ⟨⟨p, hp⟩, f, hf⟩ ω d tr t x hx hm
    rcases C47_crash hx hm with ⟨-, h⟩ | ⟨-, h⟩ | ⟨h, -⟩
    · simp [Started.forStop, hp] at h
    · simp [Started.forStop, hf] at h
    · exact h

/-- C65: with the default configuration no stop flushes, and a stop can crash. -/
theorem C65_default (h : Config.new.init w envs envs' = .ok (some s)) :
    (∀ ω d tr t, Exec (Stop.Step s.forStop ω) (Stop.new d) tr t → .flush ∉ shutdownOf tr) ∧
    ∀ ω d, ∃ tr t, Exec (Stop.Step s.forStop ω) (Stop.new d) tr t ∧ t.crashed = true := by
  have hm : s.forStop.master = false := by
    simp only [Started.forStop, Option.isSome_eq_false_iff, Option.isNone_iff_eq_none]
    refine Option.eq_none_iff_forall_ne_some.2 fun p hp => ?_
    exact absurd ((C65_replicas h p).1 hp).1.1 (by decide)
  refine ⟨fun ω d tr t hx => C47_no_master hm hx, fun ω d => ?_⟩
  obtain ⟨tr, t, x, h1, h2, -⟩ := stop_nil (.inl hm) ω d
  exact ⟨tr, t, h1, h2⟩

/-- C65: a server whose configuration says nothing else listens on port 8081, has no file and serves no replicas; told to serve replicas and not where, it does so on
the port after its own, if that is free. -/
theorem C65_plain :
    (Config.new.init w envs envs' = .ok (some s) → s.port = 8081 ∧ s.file = none ∧ s.replicas = none ∧ s.dbs = noDBs) ∧
    ({ Config.new with enableReplica := true }.init w envs envs' = .ok (some s) → w.free 8082 = true → s.replicas = some 8082) := by
  refine ⟨fun h => ⟨?_, ?_, ?_, C65_ignored h rfl⟩, fun h hf => ?_⟩
  · rw [C65_port h]; rfl
  · exact Option.eq_none_iff_forall_ne_some.2 fun f hf => by
      obtain ⟨e, h1, -⟩ := (C65_file h f).1 hf
      exact h1 e.symm
  · exact Option.eq_none_iff_forall_ne_some.2 fun p hp => absurd ((C65_replicas h p).1 hp).1.1 (by decide)
  · have hp := C65_port h
    refine (C65_replicas h 8082).2 ⟨⟨rfl, .inr ⟨by decide, rfl⟩⟩, ⟨by decide, by decide, hf⟩, ?_⟩
    rw [hp]; simp [Config.new]

/-- The server of cmd/server starts, serves replicas on port 9999 and has its file. -/
example : ∃ s, Config.main.init alone (fun _ => env0) (fun _ => env0) = .ok (some s) ∧ s.port = 6789 ∧ s.replicas = some 9999 ∧
    s.file = some b!"./database.vpf" := ⟨_, rfl, rfl, rfl, rfl⟩
/-- With the port in use it starts without. -/
example : ∃ s, Config.main.init { alone with free := fun p => p != 9999 } (fun _ => env0) (fun _ => env0) = .ok (some s) ∧ s.replicas = none :=
  ⟨_, rfl, rfl⟩
example : ∃ s, Config.new.init alone (fun _ => env0) (fun _ => env0) = .ok (some s) := ⟨_, rfl⟩
example : ∃ s, { Config.new with enableReplica := true }.init alone (fun _ => env0) (fun _ => env0) = .ok (some s) ∧ alone.free 8082 = true := ⟨_, rfl, rfl⟩
/-- A server restarted on the log of two requests; they meet the conditions of `C65_restart` (`set1_ok`, `set2_ok`). -/
example : ∃ s st rs a, Config.main.init { alone with file := fun _ => some (historyLog [set1, set2]) } (fun _ => env0) (fun _ => env0) = .ok (some s) ∧
    serve State.empty (served [set1, set2]) = .ok (st, rs) ∧ Abs st a ∧ Abs (s.dbs 1) a := by
  have ho : ∀ q ∈ [set1, set2], q.Occurs ∧ ¬ q.Is b!"ltrim" ∧ ¬ q.Is b!"spop" ∧ ∀ o ∈ q.objs, TextObj o := by
    simp only [List.forall_mem_cons, List.not_mem_nil, false_imp_iff, implies_true, and_true]
    exact ⟨set1_ok, set2_ok⟩
  obtain ⟨dbs, a, h1, -⟩ := C33_rebuilds_partial [set1, set2] _ _ ho rfl (fun _ => env0) (fun _ => env0_fair)
  have h1 : fromFile (fun _ => State.empty) (fun _ => env0) (historyLog [set1, set2]) = .ok dbs := h1
  have hi : Config.main.init { alone with file := fun _ => some (historyLog [set1, set2]) } (fun _ => env0) (fun _ => env0) =
      .ok (some ⟨6789, some 9999, some b!"./database.vpf", dbs⟩) := by
    unfold Config.init
    simp only [World.listen, alone, Config.main, syncExternal, Option.getD_some, reduceCtorEq, if_false, ne_eq, not_false_eq_true]
    rw [h1]
    rfl
  obtain ⟨a, h2, h3, -⟩ := C65_restart (g := [set1, set2]) hi rfl (by decide) rfl ho rfl (fun _ => env0_fair)
  exact ⟨_, _, _, a, hi, rfl, h2, h3⟩
example : Config.main.init { alone with free := fun _ => false } (fun _ => env0) (fun _ => env0) = .ok none := rfl

end Verif.Props
