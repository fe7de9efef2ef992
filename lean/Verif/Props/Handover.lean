import Verif.Model.Master
import Verif.Spec.LTS
import Verif.Lemmas.LTS

/-! # C64 – what serving a replica leaves behind -/

namespace Verif.Props

open Spec
open Fut (upd)

/-- A run of the master beside an engine whose steps are `R`. -/
def Master.Run (R : Engine → Engine → Prop) (ω : Nat → Nat) (e : Engine) (file : Bool) (tr : List Master.Ev) (s : Master.Sys) : Prop :=
  Exec (Master.Step R ω) (Master.new e file) tr s

/-- Whether `handleConn` is between creating the temporary file and returning. -/
def Copying (p : Master.Pc) : Prop := p ≠ .absent ∧ p ≠ .accepted ∧ p ≠ .entered ∧ p ≠ .listed ∧ p ≠ .left

/-- C64: temporary files exist only for replicas that are being served, at most one for each. -/
theorem C64_temps {R : Engine → Engine → Prop} {ω : Nat → Nat} {e : Engine} {file : Bool} {tr : List Master.Ev} {s : Master.Sys}
    (h : Master.Run R ω e file tr s) : s.temps.Nodup ∧ ∀ c, c ∈ s.temps ↔ Copying (s.pcs c) := by
  refine h.inv (P := fun _ s => s.temps.Nodup ∧ ∀ c, c ∈ s.temps ↔ Copying (s.pcs c)) (by simp [Master.new, Copying]) ?_
  rintro tr s l s' - ⟨h1, h2⟩ hs
  unfold Copying at *
  have he : ∀ c, (s.temps.erase c).Nodup := fun c => h1.erase c
  have hm : ∀ c d, d ∈ s.temps.erase c ↔ d ≠ c ∧ d ∈ s.temps := fun c d => h1.mem_erase_iff
  cases hs <;> simp only [Master.leave, upd, List.nodup_cons, List.mem_cons] <;> grind [Master.canFail]

/-- C64: whatever happens, once `handleConn` has begun and returned, the connection is closed and the temporary file is gone. -/
theorem C64_closed {R : Engine → Engine → Prop} {ω : Nat → Nat} {e : Engine} {tr : List Master.Ev} {s : Master.Sys} {c : Nat}
    (h : Master.Run R ω e true tr s) (hl : s.pcs c = .left) : s.closed c = true ∧ c ∉ s.temps := by
  refine ⟨?_, fun hm => ((C64_temps h).2 c).1 hm |>.2.2.2.2 hl⟩
  have := h.inv (P := fun _ s => s.file = true ∧ (s.pcs c = .left → s.closed c = true)) (by simp [Master.new]) ?_
  · exact this.2 hl
  · rintro tr s l s' - ⟨h1, h2⟩ hs
    cases hs <;> simp only [Master.leave, upd] <;> grind

/-- C64: replicas do not wait for each other: as long as `handleConn` has not returned, it can go on, whatever the others are doing. -/
theorem C64_progress (R : Engine → Engine → Prop) (ω : Nat → Nat) (s : Master.Sys) (c : Nat) (ha : s.pcs c ≠ .absent) (hl : s.pcs c ≠ .left) :
    ∃ l s', Master.Step R ω s l s' ∧ s'.pcs c ≠ s.pcs c ∧ ∀ d, d ≠ c → s'.pcs d = s.pcs d ∧ s'.stream d = s.stream d ∧ s'.closed d = s.closed d := by
  have hu : ∀ {α : Type} (f : Nat → α) (v : α) (d : Nat), d ≠ c → upd f c v d = f d := fun f v d hd => by simp [upd, hd]
  cases hp : s.pcs c with
  | absent => exact absurd hp ha
  | left => exact absurd hp hl
  | accepted =>
    cases hf : s.file with
    | false => exact ⟨_, _, .noFile c hp hf, by simp [upd], fun d hd => ⟨hu _ _ d hd, rfl, rfl⟩⟩
    | true => exact ⟨_, _, .enter c hp hf, by simp [upd], fun d hd => ⟨hu _ _ d hd, rfl, rfl⟩⟩
  | entered => exact ⟨_, _, .list c hp, by simp [upd], fun d hd => ⟨hu _ _ d hd, rfl, rfl⟩⟩
  | listed => exact ⟨_, _, .create c hp, by simp [upd], fun d hd => ⟨hu _ _ d hd, rfl, rfl⟩⟩
  | created =>
    cases hf : (s.engine.file.flush ω).failed with
    | false => exact ⟨_, _, .flush c hp hf, by simp [upd], fun d hd => ⟨hu _ _ d hd, rfl, rfl⟩⟩
    | true => exact ⟨_, _, .flushFails c hp hf, by simp [Master.leave, upd], fun d hd => ⟨hu _ _ d hd, rfl, hu _ _ d hd⟩⟩
  | flushed => exact ⟨_, _, .openRaw c hp, by simp [upd], fun d hd => ⟨hu _ _ d hd, rfl, rfl⟩⟩
  | opened => exact ⟨_, _, .copy c hp, by simp [upd], fun d hd => ⟨hu _ _ d hd, rfl, rfl⟩⟩
  | copied b => exact ⟨_, _, .prepare c b hp, by simp [upd], fun d hd => ⟨hu _ _ d hd, rfl, rfl⟩⟩
  | sending b n => exact ⟨_, _, .fail c (by simp [hp, Master.canFail]), by simp [Master.leave, upd], fun d hd => ⟨hu _ _ d hd, rfl, hu _ _ d hd⟩⟩

/-- C64: serving replicas does not change what the engine holds and answers, only what of its log is on disk. -/
theorem C64_engine {R : Engine → Engine → Prop} {ω : Nat → Nat} {s s' : Master.Sys} {l : Master.Ev} (h : Master.Step R ω s l s') (hl : l ≠ .engine) :
    s'.engine = s.engine ∨ s'.engine = { s.engine with file := s.engine.file.flush ω } := by
  cases h <;> simp_all [Master.leave]

/-- The full claim: when no replica is being served, nothing of them is left. -/
def NothingLeft : Prop := ∀ (R : Engine → Engine → Prop) (ω : Nat → Nat) (e : Engine) (file : Bool) (tr : List Master.Ev) (s : Master.Sys),
    Master.Run R ω e file tr s → (∀ c, s.pcs c = .absent ∨ s.pcs c = .left) → s.conns = [] ∧ s.temps = [] ∧ s.raws = []

/-- C64, for what the full claim `NothingLeft` says about temporary files, and about the list of connections when nothing failed. Missing: the list
after a failure, and the handles of the log file. -/
theorem C64_nothing_partial {R : Engine → Engine → Prop} {ω : Nat → Nat} {e : Engine} {file : Bool} {tr : List Master.Ev} {s : Master.Sys}
    (h : Master.Run R ω e file tr s) (hq : ∀ c, s.pcs c = .absent ∨ s.pcs c = .left) :
    s.temps = [] ∧ ((∀ c, .failed c ∉ tr) → s.conns = []) := by
  refine ⟨List.eq_nil_iff_forall_not_mem.2 fun c hm => ?_, fun hn => List.eq_nil_iff_forall_not_mem.2 fun c hm => ?_⟩
  · have := ((C64_temps h).2 c).1 hm
    rcases hq c with h | h
    · exact this.1 h
    · exact this.2.2.2.2 h
  · have key := h.inv (P := fun tr s => (∀ c, .failed c ∉ tr) → s.conns.Nodup ∧ ∀ c ∈ s.conns, s.pcs c = .listed ∨ Copying (s.pcs c))
      (by simp [Master.new]) ?_
    · have := (key hn).2 c hm
      unfold Copying at this
      rcases hq c with h | h <;> simp [h] at this
    · rintro tr s l s' - ih hs hn
      obtain ⟨h1, h2⟩ := ih fun c hc => hn c (by simp [hc])
      unfold Copying at *
      have he : ∀ c, (s.conns.erase c).Nodup := fun c => h1.erase c
      have hm : ∀ c d, d ∈ s.conns.erase c ↔ d ≠ c ∧ d ∈ s.conns := fun c d => h1.mem_erase_iff
      have hl : ∀ c, l ≠ .failed c := fun c e => hn c (by simp [e])
      cases hs <;> simp only [Master.leave, upd, List.nodup_cons, List.mem_cons] <;> grind

/-- C64: an entry of a replica whose transfer failed stays in the list of connections for good, and no entry of a finished one does. -/
theorem C64_conns {R : Engine → Engine → Prop} {ω : Nat → Nat} {e : Engine} {file : Bool} {tr : List Master.Ev} {s : Master.Sys} {c : Nat}
    (h : Master.Run R ω e file tr s) : (.failed c ∈ tr → c ∈ s.conns) ∧ (.finished c ∈ tr → c ∉ s.conns) := by
  have key := h.inv (P := fun tr s => s.conns.Nodup ∧ (c ∈ s.conns → s.pcs c = .listed ∨ Copying (s.pcs c) ∨ s.pcs c = .left ∧ .failed c ∈ tr) ∧
      (s.pcs c = .listed ∨ Copying (s.pcs c) → c ∈ s.conns) ∧ (.failed c ∈ tr → s.pcs c = .left ∧ c ∈ s.conns) ∧
      (.finished c ∈ tr → s.pcs c = .left ∧ c ∉ s.conns) ∧ ∀ d ∈ s.conns, s.pcs d = .listed ∨ Copying (s.pcs d) ∨ s.pcs d = .left)
    (by simp [Master.new, Copying]) ?_
  · exact ⟨fun hm => (key.2.2.2.1 hm).2, fun hm => (key.2.2.2.2.1 hm).2⟩
  · rintro tr s l s' - ⟨h1, h2, h3, h4, h5, h6⟩ hs
    unfold Copying at *
    have he : ∀ c, (s.conns.erase c).Nodup := fun c => h1.erase c
    have hm : ∀ c d, d ∈ s.conns.erase c ↔ d ≠ c ∧ d ∈ s.conns := fun c d => h1.mem_erase_iff
    cases hs <;> simp only [Master.leave, upd, List.nodup_cons, List.mem_cons, List.mem_append, List.mem_singleton] <;> grind [Master.canFail]

/-- C64: the handle with which the log file is read is not closed by anybody. -/
theorem C64_raws {R : Engine → Engine → Prop} {ω : Nat → Nat} {e : Engine} {file : Bool} {tr : List Master.Ev} {s : Master.Sys}
    (h : Master.Run R ω e file tr s) (c : Nat) : c ∈ s.raws ↔ .opened c ∈ tr := by
  refine h.inv (P := fun tr s => c ∈ s.raws ↔ .opened c ∈ tr) (by simp [Master.new]) ?_
  rintro tr s l s' - ih hs
  cases hs <;> simp_all [Master.leave, or_comm]

/-- C64: after one failure to accept a connection, whatever the reason, the loop is over: no replica is accepted any more; those that are being served go on
(`C64_progress`). -/
theorem C64_accept {R : Engine → Engine → Prop} {ω : Nat → Nat} {s s1 s' : Master.Sys} {tr : List Master.Ev} (h : Master.Step R ω s .acceptFailed s1)
    (hx : Exec (Master.Step R ω) s1 tr s') (c : Nat) :
    .accepted c ∉ tr ∧ .acceptFailed ∉ tr ∧ s1.pcs c = s.pcs c ∧ (s.pcs c = .absent → s'.pcs c = .absent ∧ s'.stream c = s.stream c) := by
  cases h
  have := hx.inv (P := fun tr s' => s'.accepting = false ∧ (.accepted c ∉ tr ∧ .acceptFailed ∉ tr) ∧
    (s.pcs c = .absent → s'.pcs c = .absent ∧ s'.stream c = s.stream c)) (by simp) ?_
  · exact ⟨this.2.1.1, this.2.1.2, rfl, this.2.2⟩
  · rintro tr s1 l s2 - ⟨h1, h2, h3⟩ hs
    cases hs <;> simp only [Master.leave, upd, List.mem_append, List.mem_singleton] <;> grind [Master.canFail]

/-- C64: a replica whose transfer has begun and whose connection holds can be served to the end, whatever the others do: it then has got the whole copy,
and nothing else was touched. -/
theorem C64_completes {R : Engine → Engine → Prop} {ω : Nat → Nat} {e : Engine} {file : Bool} {tr : List Master.Ev} {s : Master.Sys} {c : Nat} {b : Bytes}
    {n : Nat} (h : Master.Run R ω e file tr s) (hp : s.pcs c = .sending b n) (hc : s.closed c = false) :
    ∃ s', Exec (Master.Step R ω) s [.wrote c, .finished c] s' ∧ s'.pcs c = .left ∧ s'.stream c = transfer b ∧ c ∉ s'.conns ∧ c ∉ s'.temps ∧
      s'.engine = s.engine ∧ ∀ d, d ≠ c → s'.pcs d = s.pcs d ∧ s'.stream d = s.stream d ∧ s'.closed d = s.closed d := by
  have hi : s.stream c = (transfer b).take n ∧ n ≤ (transfer b).length := by
    have := h.inv (P := fun _ s => match s.pcs c with
      | .sending b n => s.stream c = (transfer b).take n ∧ n ≤ (transfer b).length
      | .left => True
      | _ => s.stream c = []) (by simp [Master.new]) ?_
    · rw [hp] at this; exact this
    · rintro tr s l s' - ih hs
      have hdt : ∀ (b : Bytes) (n k : Nat), (transfer b).take n ++ ((transfer b).drop n).take k = (transfer b).take (n + k) := fun b n k =>
        (List.take_add ..).symm
      cases hs <;> simp only [Master.leave, upd] <;> grind [Master.canFail]
  have e1 : Exec (Master.Step R ω) s [.wrote c] _ := .one (.send c b n ((transfer b).length - n) hp hc (by omega))
  have e2 := Exec.snoc e1 (.finish c b (n + ((transfer b).length - n)) (by simp [upd]) (by omega))
  have e3 := (C64_conns (c := c) (Spec.Exec.append h e2)).2 (by simp)
  have e4 := fun hm => ((C64_temps (Spec.Exec.append h e2)).2 c).1 hm |>.2.2.2.2 (by simp [Master.leave, upd])
  refine ⟨_, e2, by simp [Master.leave, upd], ?_, e3, e4, rfl, fun d hd => by simp [Master.leave, upd, hd]⟩
  simp only [Master.leave, upd, if_true, hi.1]
  rw [← List.take_add, show n + ((transfer b).length - n) = (transfer b).length by omega, List.take_length]

/-- A transfer that fails after the log file was opened. -/
theorem failed_run (R : Engine → Engine → Prop) (ω : Nat → Nat) : ∃ tr s, Master.Run R ω (Engine.start [] []) true tr s ∧
    (∀ c, s.pcs c = .absent ∨ s.pcs c = .left) ∧ .opened 0 ∈ tr ∧ .failed 0 ∈ tr := by
  have e1 := Exec.snoc (step := Master.Step R ω) (.nil (s0 := Master.new (Engine.start [] []) true)) (.accept 0 rfl rfl)
  have e2 := Exec.snoc e1 (.enter 0 (by simp [upd]) rfl)
  have e3 := Exec.snoc e2 (.list 0 (by simp [upd]))
  have e4 := Exec.snoc e3 (.create 0 (by simp [upd]))
  have e5 := Exec.snoc e4 (.flush 0 (by simp [upd]) rfl)
  have e6 := Exec.snoc e5 (.openRaw 0 (by simp [upd]))
  have e7 := Exec.snoc e6 (.fail 0 (by simp [upd, Master.canFail]))
  refine ⟨_, _, e7, fun c => ?_, by simp, by simp⟩
  by_cases hc : c = 0
  · right; simp [Master.leave, upd, hc]
  · left; simp [Master.leave, upd, hc, Master.new]

/-- C64 is false: the list of connections and the handles of the log file only grow. -/
theorem C64_false : ¬ NothingLeft := by
  intro H
  obtain ⟨tr, s, h1, h2, h3, h4⟩ := failed_run (fun _ _ => False) (fun _ => 0)
  have := (C64_conns h1).1 h4
  rw [(H _ _ _ _ _ _ h1 h2).1] at this
  cases this

example : ∃ tr s b, Master.Run (fun _ _ => False) (fun _ => 0) (Engine.start [] []) true tr s ∧ s.pcs 0 = .sending b 3 ∧ s.closed 0 = false := by
  have e1 := Exec.snoc (step := Master.Step (fun _ _ => False) (fun _ => 0)) (.nil (s0 := Master.new (Engine.start [] []) true)) (.accept 0 rfl rfl)
  have e2 := Exec.snoc e1 (.enter 0 (by simp [upd]) rfl)
  have e3 := Exec.snoc e2 (.list 0 (by simp [upd]))
  have e4 := Exec.snoc e3 (.create 0 (by simp [upd]))
  have e5 := Exec.snoc e4 (.flush 0 (by simp [upd]) rfl)
  have e6 := Exec.snoc e5 (.openRaw 0 (by simp [upd]))
  have e7 := Exec.snoc e6 (.copy 0 (by simp [upd]))
  have e8 := Exec.snoc e7 (.prepare 0 _ (by simp [upd]; rfl))
  exact ⟨_, _, _, .snoc e8 (.send 0 _ 0 3 (by simp [upd]; rfl) rfl (by decide)), by simp [upd]; rfl, rfl⟩

/-- The hypotheses above are met: a replica whose transfer has failed, and a master that accepts no more while one is being served. -/
example : ∃ tr s, Master.Run (fun _ _ => False) (fun _ => 0) (Engine.start [] []) true tr s ∧ s.pcs 0 = .left ∧ .failed 0 ∈ tr := by
  obtain ⟨tr, s, h1, h2, h3, h4⟩ := failed_run (fun _ _ => False) (fun _ => 0)
  refine ⟨tr, s, h1, ?_, h4⟩
  rcases h2 0 with h | h
  · exact absurd h (fun h => by
      have := h1.inv (P := fun tr s => .failed 0 ∈ tr → s.pcs 0 = .left) (by simp) (by
        rintro tr s l s' - ih hs
        cases hs <;> simp only [Master.leave, upd, List.mem_append, List.mem_singleton] <;> grind [Master.canFail])
      rw [this h4] at h; cases h)
  · exact h
example : ∃ tr s s1, Master.Run (fun _ _ => False) (fun _ => 0) (Engine.start [] []) true tr s ∧ s.pcs 0 = .accepted ∧ s.pcs 1 = .absent ∧
    Master.Step (fun _ _ => False) (fun _ => 0) s .acceptFailed s1 :=
  ⟨_, _, _, .snoc .nil (.accept 0 rfl rfl), by simp [upd], by simp [upd, Master.new], .acceptFails rfl⟩

end Verif.Props
