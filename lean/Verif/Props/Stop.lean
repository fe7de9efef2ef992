import Verif.Lemmas.Stop
import Verif.Props.Conn

/-! # C47 – stopping the server -/

namespace Verif.Props

open Spec Fut
open Stop (Config Sys Act)

variable {cfg : Config} {ω : Nat → Nat} {d : Bytes} {tr : List Stop.Ev} {s : Sys}

/-- C47: whoever calls `stop`, and however often, what is done is a beginning of the shutdown sequence: every part at most once, in order. -/
theorem C47_once (h : Exec (Stop.Step cfg ω) (Stop.new d) tr s) : shutdownOf tr <+: shutdownSequence := by
  have hi := stopInv h
  by_cases hs : s.shutdown = true
  · by_cases hx : ∀ i, (s.pcs i).before = none
    · rw [hi.fin hs hx]
    · obtain ⟨i, hx⟩ := Classical.not_forall.1 hx
      obtain ⟨l, hl⟩ := Option.ne_none_iff_exists'.1 hx
      rw [hi.pos i l hl]
      revert hl
      cases s.pcs i with
      | doing a => cases a <;> (simp only [Stop.Pc.before, Option.some.injEq]; rintro rfl; decide)
      | inMaster => simp only [Stop.Pc.before, Option.some.injEq]; rintro rfl; decide
      | idle => intro hl; cases hl
      | called => intro hl; cases hl
      | returning => intro hl; cases hl
  · rw [(hi.none (by simpa using hs)).1]; exact List.nil_prefix

/-- C47: each part of the server is up until the shutdown comes to it, and down from then on: the topics, the listener, the shut channel and the
engine. -/
theorem C47_parts (h : Exec (Stop.Step cfg ω) (Stop.new d) tr s) :
    (s.requestTopic = false ↔ .removeRequest ∈ shutdownOf tr) ∧ (s.responseTopic = false ↔ .removeResponse ∈ shutdownOf tr) ∧
    (s.listening = false ↔ .closeListener ∈ shutdownOf tr) ∧ (s.shut = true ↔ .closeShut ∈ shutdownOf tr) ∧
    (s.engineShut = true ↔ .closeEngine ∈ shutdownOf tr) :=
  have hi := stopInv h
  ⟨hi.req, hi.resp, hi.lis, hi.shut, hi.eng⟩

/-- C47: the process dies of nothing but a missing master, a missing file, or a replica coming or going while the master stops. -/
theorem C47_crash {w : Stop.Why} (h : Exec (Stop.Step cfg ω) (Stop.new d) tr s) (hw : .crash w ∈ tr) :
    (w = .nilMaster ∧ cfg.master = false) ∨ (w = .nilFile ∧ cfg.file = false) ∨ (w = .mapRace ∧ cfg.file = true) := by
  obtain ⟨b, a, rfl⟩ := List.append_of_mem hw
  rw [show b ++ Stop.Ev.crash w :: a = (b ++ [.crash w]) ++ a by simp] at h
  obtain ⟨s1, h1, -⟩ := h.split
  obtain ⟨s2, h2, -, -, hr⟩ := h1.split_snoc
  have hi := stopInv h2
  cases hr with
  | closeShutTwice i hp hs =>
    have := hi.shut.1 hs
    rw [hi.pos i _ (by rw [hp]; rfl)] at this
    simp at this
  | closeEngineTwice i hp hs =>
    have := hi.eng.1 hs
    rw [hi.pos i _ (by rw [hp]; rfl)] at this
    simp at this
  | nilMaster i hp hs => exact .inl ⟨rfl, hs⟩
  | nilFile i hp hs => exact .inr (.inl ⟨rfl, hs⟩)
  | mapRace i hp hs => exact .inr (.inr ⟨rfl, hs⟩)

theorem fileOpsOf_append (a b : List Stop.Ev) : fileOpsOf (a ++ b) = fileOpsOf a ++ fileOpsOf b := by
  induction a with
  | nil => rfl
  | cons e a ih =>
    cases e with
    | did i x => cases x <;> simp [fileOpsOf, ih]
    | _ => simp [fileOpsOf, ih]

theorem asked_fileOpsOf (tr : List Stop.Ev) : asked (fileOpsOf tr) = loggedOf tr := by
  induction tr with
  | nil => rfl
  | cons e tr ih =>
    cases e with
    | did i x => cases x <;> simp [fileOpsOf, loggedOf, asked, FileOp.bytes] at ih ⊢ <;> exact ih
    | _ => simp [fileOpsOf, loggedOf, asked, FileOp.bytes] at ih ⊢ <;> exact ih

theorem runOps_append (ω : Nat → Nat) (p : PFile) (a b : List FileOp) : (runOps ω p (a ++ b)).1 = (runOps ω (runOps ω p a).1 b).1 := by
  induction a generalizing p with
  | nil => rfl
  | cons op a ih => simp only [List.cons_append, runOps]; exact ih _

theorem stop_log (h : Exec (Stop.Step cfg ω) (Stop.new d) tr s) : s.log = (runOps ω (PFile.new d) (fileOpsOf tr)).1 := by
  refine Exec.inv (P := fun tr s => s.log = (runOps ω (PFile.new d) (fileOpsOf tr)).1) rfl ?_ h
  rintro tr s l s' - ih ⟨-, -, hr⟩
  rw [fileOpsOf_append, runOps_append, ← ih]
  cases hr <;> simp [fileOpsOf, runOps, FileOp.run]

/-- C47: at every moment, also after a crash or the exit, the database file is what it was followed by a beginning of what was logged; and as
long as no write failed, whatever was logged before the flush of the shutdown is in it. -/
theorem C47_flushed (h : Exec (Stop.Step cfg ω) (Stop.new d) tr s) :
    s.log.disk <+: d ++ loggedOf tr ∧
    ∀ before after i, tr = before ++ .did i .flush :: after → s.log.failed = false → d ++ loggedOf before <+: s.log.disk := by
  have hl := stop_log h
  constructor
  · rw [hl, ← asked_fileOpsOf]
    exact (C32_prefix ω d _).1
  · rintro before after i rfl hf
    have e : fileOpsOf (before ++ Stop.Ev.did i .flush :: after) = (fileOpsOf before ++ [.flush]) ++ fileOpsOf after := by
      rw [fileOpsOf_append]; simp [fileOpsOf]
    rw [e, runOps_append] at hl
    have hb : (runOps ω (PFile.new d) (fileOpsOf before ++ [.flush])).1.buf.length ≤ PFile.bufSize := by
      obtain ⟨-, -, -, -, -, h5, -⟩ := runOps_took ω (PFile.new d) (Nat.zero_le _) (fileOpsOf before ++ [.flush])
      exact h5
    obtain ⟨acc, h1, h2, h3, h4, -⟩ := runOps_took ω _ hb (fileOpsOf after)
    rw [hl] at hf ⊢
    have := C32_flushed ω d (fileOpsOf before) (h3 hf).2
    rw [← asked_fileOpsOf, ← this]
    exact h4

/-- How much of the shutdown lies before a goroutine. -/
def stopRank : Stop.Pc → Nat
  | .doing .removeRequest => 9
  | .doing .removeResponse => 8
  | .doing .closeListener => 7
  | .doing .closeShut => 6
  | .doing .stopMaster => 5
  | .inMaster => 4
  | .doing .flush => 3
  | .doing .closeEngine => 2
  | .doing .closeClients => 1
  | _ => 0

theorem stop_next (hm : cfg.master = true) (hf : cfg.file = true) (h : Exec (Stop.Step cfg ω) (Stop.new d) tr s) (hc : s.crashed = false)
    (hx : s.exited = false) (i : Nat) (hp : (s.pcs i).before ≠ none) :
    ∃ e s', Stop.Step cfg ω s e s' ∧ s'.crashed = false ∧ s'.exited = false ∧ s'.shutdown = s.shutdown ∧ stopRank (s'.pcs i) < stopRank (s.pcs i) ∧
      ((s'.pcs i).before = none → ∀ j, (s'.pcs j).before = none) ∧ ((∃ a, e = .did i a) ∨ e = .masterLeft i) := by
  have hi := stopInv h
  have ho : ∀ j, j ≠ i → (s.pcs j).before = none := fun j hj => by
    by_contra hn
    exact hj (hi.uniq j i hn hp)
  cases hpc : s.pcs i with
  | idle => rw [hpc] at hp; exact absurd rfl hp
  | called => rw [hpc] at hp; exact absurd rfl hp
  | returning => rw [hpc] at hp; exact absurd rfl hp
  | inMaster =>
    refine ⟨_, _, ⟨hc, hx, .masterLeft i hpc⟩, hc, hx, rfl, by simp [upd, stopRank], ?_, .inr rfl⟩
    simp [upd, Stop.Pc.before]
  | doing a =>
    cases a with
    | removeRequest => exact ⟨_, _, ⟨hc, hx, .removeRequest i hpc⟩, hc, hx, rfl, by simp [upd, stopRank], by simp [upd, Stop.Pc.before], .inl ⟨_, rfl⟩⟩
    | removeResponse => exact ⟨_, _, ⟨hc, hx, .removeResponseExpired i hpc⟩, hc, hx, rfl, by simp [upd, stopRank], by simp [upd, Stop.Pc.before], .inl ⟨_, rfl⟩⟩
    | closeListener => exact ⟨_, _, ⟨hc, hx, .closeListener i hpc⟩, hc, hx, rfl, by simp [upd, stopRank], by simp [upd, Stop.Pc.before], .inl ⟨_, rfl⟩⟩
    | closeShut =>
      have : s.shut = false := by
        by_contra hn
        have := hi.shut.1 (by simpa using hn)
        rw [hi.pos i _ (by rw [hpc]; rfl)] at this
        simp at this
      exact ⟨_, _, ⟨hc, hx, .closeShut i hpc this⟩, hc, hx, rfl, by simp [upd, stopRank], by simp [upd, Stop.Pc.before], .inl ⟨_, rfl⟩⟩
    | stopMaster => exact ⟨_, _, ⟨hc, hx, .stopMaster i hpc hm⟩, hc, hx, rfl, by simp [upd, stopRank], by simp [upd, Stop.Pc.before], .inl ⟨_, rfl⟩⟩
    | flush => exact ⟨_, _, ⟨hc, hx, .flush i hpc hf⟩, hc, hx, rfl, by simp [upd, stopRank], by simp [upd, Stop.Pc.before], .inl ⟨_, rfl⟩⟩
    | closeEngine =>
      have : s.engineShut = false := by
        by_contra hn
        have := hi.eng.1 (by simpa using hn)
        rw [hi.pos i _ (by rw [hpc]; rfl)] at this
        simp at this
      exact ⟨_, _, ⟨hc, hx, .closeEngine i hpc this⟩, hc, hx, rfl, by simp [upd, stopRank], by simp [upd, Stop.Pc.before], .inl ⟨_, rfl⟩⟩
    | closeClients =>
      refine ⟨_, _, ⟨hc, hx, .closeClients i hpc⟩, hc, hx, rfl, by simp [upd, stopRank], fun _ => ?_, .inl ⟨_, rfl⟩⟩
      exact (upd_before _ _ _).2 ⟨rfl, ho⟩

/-- C47: with replication and a database file configured the shutdown is never stuck: from wherever it has got to, as long as the process is
alive, it can be completed without anything else happening, and then everything logged is in the file. -/
theorem C47_completes (hm : cfg.master = true) (hf : cfg.file = true) (h : Exec (Stop.Step cfg ω) (Stop.new d) tr s) (hs : s.shutdown = true)
    (hc : s.crashed = false) (hx : s.exited = false) :
    ∃ tr' s', Exec (Stop.Step cfg ω) s tr' s' ∧ shutdownOf (tr ++ tr') = shutdownSequence ∧ s'.crashed = false ∧
      ∃ i, ∀ e ∈ tr', (∃ a, e = .did i a) ∨ e = .masterLeft i := by
  by_cases ha : ∀ i, (s.pcs i).before = none
  · exact ⟨[], s, .nil, by simpa using (stopInv h).fin hs ha, hc, 0, by simp⟩
  · obtain ⟨i, hai⟩ := Classical.not_forall.1 ha
    clear ha
    suffices hg : ∃ tr' s', Exec (Stop.Step cfg ω) s tr' s' ∧ shutdownOf (tr ++ tr') = shutdownSequence ∧ s'.crashed = false ∧
        ∀ e ∈ tr', (∃ a, e = .did i a) ∨ e = .masterLeft i by
      obtain ⟨tr', s', h1, h2, h3, h4⟩ := hg
      exact ⟨tr', s', h1, h2, h3, i, h4⟩
    generalize hn : stopRank (s.pcs i) = n
    induction n using Nat.strongRecOn generalizing tr s with
    | ind n ih =>
      obtain ⟨e, s1, h1, hc1, hx1, hs1, hr, hd, hl⟩ := stop_next hm hf h hc hx i hai
      by_cases ha1 : (s1.pcs i).before = none
      · refine ⟨[e], s1, .one h1, ?_, hc1, ?_⟩
        · exact (stopInv (h.snoc h1)).fin (hs1.trans hs) (hd ha1)
        · intro e' he'; rw [List.mem_singleton.1 he']; exact hl
      · obtain ⟨tr', s', h2, h3, h4, h5⟩ := ih _ (hn ▸ hr) (h.snoc h1) (hs1.trans hs) hc1 hx1 ha1 rfl
        refine ⟨e :: tr', s', .cons h1 h2, by simpa using h3, h4, ?_⟩
        intro e' he'
        rcases List.mem_cons.1 he' with rfl | he'
        · exact hl
        · exact h5 _ he'

/-- C47 is false without replication: the log is never flushed, in no execution. -/
theorem C47_no_master (hm : cfg.master = false) (h : Exec (Stop.Step cfg ω) (Stop.new d) tr s) : .flush ∉ shutdownOf tr := by
  have key : .stopMaster ∉ shutdownOf tr := by
    refine Exec.inv (P := fun tr _ => .stopMaster ∉ shutdownOf tr) (by simp [shutdownOf]) ?_ h
    rintro tr s l s' - ih ⟨-, -, hr⟩
    rw [shutdownOf_snoc]
    cases hr <;> simp_all
  intro hf
  obtain ⟨t, ht⟩ := C47_once h
  have h5 : (shutdownOf tr)[5]? = some .flush := by
    obtain ⟨n, hn, e⟩ := List.getElem_of_mem hf
    have e' : shutdownSequence[n]? = some .flush := by
      rw [← ht, List.getElem?_append_left hn, List.getElem?_eq_getElem hn, e]
    have : n = 5 := by
      match n, e' with
      | 0, e' => simp [shutdownSequence] at e'
      | 1, e' => simp [shutdownSequence] at e'
      | 2, e' => simp [shutdownSequence] at e'
      | 3, e' => simp [shutdownSequence] at e'
      | 4, e' => simp [shutdownSequence] at e'
      | 5, e' => rfl
      | 6, e' => simp [shutdownSequence] at e'
      | 7, e' => simp [shutdownSequence] at e'
      | n + 8, e' => simp [shutdownSequence] at e'
    subst this
    rw [List.getElem?_eq_getElem hn, e]
  have hlen : 5 < (shutdownOf tr).length := by
    rcases Nat.lt_or_ge 5 (shutdownOf tr).length with h | h
    · exact h
    · rw [List.getElem?_eq_none h] at h5; cases h5
  apply key
  have h4 : (shutdownOf tr)[4]? = some .stopMaster := by
    rw [← List.getElem?_append_left (l₂ := t) (by omega), ht]; rfl
  exact List.mem_of_getElem? h4

/-- C47 is false without replication: `stop` crashes the process, losing what was logged. -/
theorem C47_false (b : Bytes) (hb : b.length ≤ 4096) (ω : Nat → Nat) (d : Bytes) :
    ∃ tr s, Exec (Stop.Step ⟨false, true⟩ ω) (Stop.new d) tr s ∧ s.crashed = true ∧ loggedOf tr = b ∧ s.log.disk = d := by
  refine ⟨[.logged b, .call 1, .won 1, .did 1 .removeRequest, .did 1 .removeResponse, .did 1 .closeListener, .did 1 .closeShut, .crash .nilMaster], _,
    .cons ⟨rfl, rfl, .logged b rfl⟩ (.cons ⟨rfl, rfl, .call 1 (by decide) rfl⟩ (.cons ⟨rfl, rfl, .won 1 rfl rfl⟩
    (.cons ⟨rfl, rfl, .removeRequest 1 rfl⟩ (.cons ⟨rfl, rfl, .removeResponse 1 rfl (Nat.zero_lt_succ 99)⟩ (.cons ⟨rfl, rfl, .closeListener 1 rfl⟩
    (.cons ⟨rfl, rfl, .closeShut 1 rfl rfl⟩ (.one ⟨rfl, rfl, .nilMaster 1 rfl rfl⟩))))))), rfl, by simp [loggedOf], ?_⟩
  have : ¬ (4096 < b.length) := by omega
  simp [Stop.new, PFile.new, PFile.write, PFile.writeLoop, PFile.bufSize, this]

/-- C47 is false without a database file: `stop` crashes the process. -/
theorem C47_no_file (m : Bool) (ω : Nat → Nat) (d : Bytes) : ∃ tr s, Exec (Stop.Step ⟨m, false⟩ ω) (Stop.new d) tr s ∧ s.crashed = true := by
  cases m with
  | true =>
    exact ⟨[.call 1, .won 1, .did 1 .removeRequest, .did 1 .removeResponse, .did 1 .closeListener, .did 1 .closeShut, .did 1 .stopMaster, .masterLeft 1,
      .crash .nilFile], _, .cons ⟨rfl, rfl, .call 1 (by decide) rfl⟩ (.cons ⟨rfl, rfl, .won 1 rfl rfl⟩
      (.cons ⟨rfl, rfl, .removeRequest 1 rfl⟩ (.cons ⟨rfl, rfl, .removeResponse 1 rfl (Nat.zero_lt_succ 99)⟩ (.cons ⟨rfl, rfl, .closeListener 1 rfl⟩
      (.cons ⟨rfl, rfl, .closeShut 1 rfl rfl⟩ (.cons ⟨rfl, rfl, .stopMaster 1 rfl rfl⟩ (.cons ⟨rfl, rfl, .masterLeft 1 rfl⟩
      (.one ⟨rfl, rfl, .nilFile 1 rfl rfl⟩)))))))), rfl⟩
  | false =>
    exact ⟨[.call 1, .won 1, .did 1 .removeRequest, .did 1 .removeResponse, .did 1 .closeListener, .did 1 .closeShut, .crash .nilMaster], _,
      .cons ⟨rfl, rfl, .call 1 (by decide) rfl⟩ (.cons ⟨rfl, rfl, .won 1 rfl rfl⟩
      (.cons ⟨rfl, rfl, .removeRequest 1 rfl⟩ (.cons ⟨rfl, rfl, .removeResponse 1 rfl (Nat.zero_lt_succ 99)⟩ (.cons ⟨rfl, rfl, .closeListener 1 rfl⟩
      (.cons ⟨rfl, rfl, .closeShut 1 rfl rfl⟩ (.one ⟨rfl, rfl, .nilMaster 1 rfl rfl⟩)))))), rfl⟩

/-- C47: once the process exits, the topics are removed and the listener is closed ... -/
theorem C47_exit (h : Exec (Stop.Step cfg ω) (Stop.new d) tr s) (hx : s.exited = true) :
    [.removeRequest, .removeResponse, .closeListener] <+: shutdownOf tr := by
  have key : (s.acceptor = false → s.listening = false) ∧ (s.pcs 0 ≠ .idle → s.acceptor = false) ∧ (s.exited = true → s.listening = false) := by
    refine Exec.inv (P := fun _ s => (s.acceptor = false → s.listening = false) ∧ (s.pcs 0 ≠ .idle → s.acceptor = false) ∧
      (s.exited = true → s.listening = false)) (by simp [Stop.new]) ?_ h
    rintro tr s l s' he ⟨h1, h2, h3⟩ ⟨-, hx, hr⟩
    have hi := stopInv he
    have hsl : s.shut = true → s.listening = false := fun hs => by
      have := hi.shut.1 hs
      obtain ⟨t, ht⟩ := C47_once he
      refine hi.lis.2 ?_
      match hl : shutdownOf tr, ht with
      | [], ht => rw [hl] at this; simp at this
      | [_], ht => simp [shutdownSequence] at ht; rw [hl, ht.1] at this; simp at this
      | [_, _], ht => simp [shutdownSequence] at ht; rw [hl, ht.1, ht.2.1] at this; simp at this
      | _ :: _ :: _ :: _, ht => simp [shutdownSequence] at ht; simp [ht.2.2.1]
    cases hr <;> grind [upd]
  have hl := (stopInv h).lis.1 (key.2.2 hx)
  obtain ⟨t, ht⟩ := C47_once h
  match hl' : shutdownOf tr, ht with
  | [], ht => rw [hl'] at hl; simp at hl
  | [_], ht => simp [shutdownSequence] at ht; rw [hl', ht.1] at hl; simp at hl
  | [_, _], ht => simp [shutdownSequence] at ht; rw [hl', ht.1, ht.2.1] at hl; simp at hl
  | _ :: _ :: _ :: l, ht =>
    simp [shutdownSequence] at ht
    rw [ht.1, ht.2.1, ht.2.2.1]
    exact ⟨l, rfl⟩

/-- C47 is false with everything configured: the main goroutine does not wait for the shutdown, its own call of `stop` returns at once, and the
process exits before the log is flushed. -/
theorem C47_exit_false (b : Bytes) (hb : b.length ≤ 4096) (ω : Nat → Nat) (d : Bytes) :
    ∃ tr s, Exec (Stop.Step ⟨true, true⟩ ω) (Stop.new d) tr s ∧ s.exited = true ∧ shutdownOf tr = [.removeRequest, .removeResponse, .closeListener] ∧
      loggedOf tr = b ∧ s.log.disk = d := by
  refine ⟨[.logged b, .workerWaits, .call 1, .won 1, .did 1 .removeRequest, .did 1 .removeResponse, .workerLeft, .did 1 .closeListener, .acceptorLeft,
    .call 0, .lost 0, .exit], _,
    .cons ⟨rfl, rfl, .logged b rfl⟩ (.cons ⟨rfl, rfl, .workerWaits rfl rfl⟩ (.cons ⟨rfl, rfl, .call 1 (by decide) rfl⟩ (.cons ⟨rfl, rfl, .won 1 rfl rfl⟩
    (.cons ⟨rfl, rfl, .removeRequest 1 rfl⟩ (.cons ⟨rfl, rfl, .removeResponse 1 rfl (Nat.zero_lt_succ 99)⟩ (.cons ⟨rfl, rfl, .workerRemoved [] rfl rfl⟩
    (.cons ⟨rfl, rfl, .closeListener 1 rfl⟩ (.cons ⟨rfl, rfl, .acceptorErr rfl rfl⟩ (.cons ⟨rfl, rfl, .mainCall rfl rfl rfl⟩
    (.cons ⟨rfl, rfl, .lost 0 rfl rfl⟩ (.one ⟨rfl, rfl, .exit rfl⟩))))))))))), rfl, rfl, by simp [loggedOf], ?_⟩
  have : ¬ (4096 < b.length) := by omega
  simp [Stop.new, PFile.new, PFile.write, PFile.writeLoop, PFile.bufSize, this]

/-- C47 is false even when the process outlives the shutdown: what a `writeLog` still under way hands over after the flush stays in memory. -/
theorem C47_late (b : Bytes) (hb : b.length ≤ 4096) (ω : Nat → Nat) (d : Bytes) :
    ∃ tr s, Exec (Stop.Step ⟨true, true⟩ ω) (Stop.new d) tr s ∧ shutdownOf tr = shutdownSequence ∧ loggedOf tr = b ∧ s.log.disk = d := by
  refine ⟨[.call 1, .won 1, .did 1 .removeRequest, .did 1 .removeResponse, .did 1 .closeListener, .did 1 .closeShut, .did 1 .stopMaster, .masterLeft 1,
      .did 1 .flush, .did 1 .closeEngine, .did 1 .closeClients, .logged b], _,
      .cons ⟨rfl, rfl, .call 1 (by decide) rfl⟩ (.cons ⟨rfl, rfl, .won 1 rfl rfl⟩
      (.cons ⟨rfl, rfl, .removeRequest 1 rfl⟩ (.cons ⟨rfl, rfl, .removeResponse 1 rfl (Nat.zero_lt_succ 99)⟩ (.cons ⟨rfl, rfl, .closeListener 1 rfl⟩
      (.cons ⟨rfl, rfl, .closeShut 1 rfl rfl⟩ (.cons ⟨rfl, rfl, .stopMaster 1 rfl rfl⟩ (.cons ⟨rfl, rfl, .masterLeft 1 rfl⟩
      (.cons ⟨rfl, rfl, .flush 1 rfl rfl⟩ (.cons ⟨rfl, rfl, .closeEngine 1 rfl rfl⟩ (.cons ⟨rfl, rfl, .closeClients 1 rfl⟩
      (.one ⟨rfl, rfl, .logged b rfl⟩))))))))))), rfl, by simp [loggedOf], ?_⟩
  have : ¬ (4096 < b.length) := by omega
  simp [Stop.new, PFile.new, PFile.flush, PFile.write, PFile.writeLoop, PFile.bufSize, this]

/-- C47: no client connection is ever closed by the shutdown. -/
theorem C47_clients (h : Exec (Stop.Step cfg ω) (Stop.new d) tr s) : s.closedClients = [] := by
  suffices s.closedClients = [] ∧ ∀ c ∈ s.clients, c.2 = .connPtr from this.1
  refine Exec.inv (P := fun _ s => s.closedClients = [] ∧ ∀ c ∈ s.clients, c.2 = .connPtr) (by simp [Stop.new]) ?_ h
  rintro tr s l s' he ⟨h1, h2⟩ ⟨-, -, hr⟩
  cases hr with
  | closeClients i hp =>
    refine ⟨?_, h2⟩
    simp only [h1, List.nil_append, List.map_eq_nil_iff, List.filter_eq_nil_iff]
    intro c hc
    rw [h2 c hc]; decide
  | accepted c _ _ =>
    refine ⟨h1, ?_⟩
    intro x hx
    rcases List.mem_cons.1 hx with rfl | hx
    · rfl
    · exact h2 x hx
  | _ => exact ⟨h1, h2⟩

/-- C47: the response worker is never behind by more than 100 events, and the main goroutine calls `stop` at most once, never to come back to waiting. -/
theorem C47_main (h : Exec (Stop.Step cfg ω) (Stop.new d) tr s) :
    s.queue.length ≤ 100 ∧ tr.count (.call 0) ≤ 1 ∧ .returned 0 ∉ tr ∧ (s.pcs 0 = .idle ↔ .call 0 ∉ tr) := by
  refine h.inv (P := fun tr s => s.queue.length ≤ 100 ∧ tr.count (.call 0) ≤ 1 ∧ .returned 0 ∉ tr ∧ (s.pcs 0 = .idle ↔ .call 0 ∉ tr))
    (by simp [Stop.new]) ?_
  rintro tr s l s' - ⟨h1, h2, h3, h4⟩ ⟨-, -, hr⟩
  cases hr <;> simp only [upd, List.count_append, List.count_singleton, List.mem_append, List.mem_singleton, List.length_append, List.length_singleton] <;>
    grind

/-- C47: once the listener is closed no client is accepted any more, and once the shut channel is closed the response worker does not go back to
waiting, so that it deals with at most one more response. -/
theorem C47_after {before after : List Stop.Ev} {i : Nat} {a : Act} (h : Exec (Stop.Step cfg ω) (Stop.new d) (before ++ .did i a :: after) s) :
    (a = .closeListener → ∀ c, .accepted c ∉ after) ∧ (a = .closeShut → .workerWaits ∉ after ∧ after.count .workerGot ≤ 1) := by
  rw [show before ++ Stop.Ev.did i a :: after = (before ++ [.did i a]) ++ after by simp] at h
  obtain ⟨s2, h2, hx⟩ := h.split
  obtain ⟨s1, h1, -, -, hs⟩ := h2.split_snoc
  constructor
  · rintro rfl c
    have : s2.listening = false := by cases hs; rfl
    refine (hx.inv (P := fun tr s => s.listening = false ∧ .accepted c ∉ tr) ⟨this, by simp⟩ ?_).2
    rintro tr s l s' - ⟨i1, i2⟩ ⟨-, -, hr⟩
    cases hr <;> grind
  · rintro rfl
    have : s2.shut = true := by cases hs; rfl
    have := hx.inv (P := fun tr s => s.shut = true ∧ .workerWaits ∉ tr ∧ tr.count .workerGot + (if s.worker = .receiving then 1 else 0) ≤ 1)
      ⟨this, by simp, by split <;> simp⟩ ?_
    · exact ⟨this.2.1, by have := this.2.2; omega⟩
    rintro tr s l s' - ⟨i1, i2, i3⟩ ⟨-, -, hr⟩
    cases hr <;> simp only [List.count_append, List.count_singleton, List.mem_append, List.mem_singleton] <;> grind

/-- C47: when the event telling the response worker that its topic is gone expires while the worker waits, the worker waits for ever, the main
goroutine with it, and the process does not exit although the shutdown is complete. -/
theorem C47_hang (ω : Nat → Nat) (d : Bytes) :
    ∃ tr s, Exec (Stop.Step ⟨true, true⟩ ω) (Stop.new d) tr s ∧ shutdownOf tr = shutdownSequence ∧
      Forever (Stop.Step ⟨true, true⟩ ω) (· ≠ .response) s fun s' => s'.exited = false ∧ s'.worker = .receiving := by
  refine ⟨[.workerWaits, .call 1, .won 1, .did 1 .removeRequest, .did 1 .removeResponse, .did 1 .closeListener, .did 1 .closeShut, .did 1 .stopMaster,
      .masterLeft 1, .did 1 .flush, .did 1 .closeEngine, .did 1 .closeClients], _,
      .cons ⟨rfl, rfl, .workerWaits rfl rfl⟩ (.cons ⟨rfl, rfl, .call 1 (by decide) rfl⟩ (.cons ⟨rfl, rfl, .won 1 rfl rfl⟩
      (.cons ⟨rfl, rfl, .removeRequest 1 rfl⟩ (.cons ⟨rfl, rfl, .removeResponseExpired 1 rfl⟩ (.cons ⟨rfl, rfl, .closeListener 1 rfl⟩
      (.cons ⟨rfl, rfl, .closeShut 1 rfl rfl⟩ (.cons ⟨rfl, rfl, .stopMaster 1 rfl rfl⟩ (.cons ⟨rfl, rfl, .masterLeft 1 rfl⟩
      (.cons ⟨rfl, rfl, .flush 1 rfl rfl⟩ (.cons ⟨rfl, rfl, .closeEngine 1 rfl rfl⟩ (.one ⟨rfl, rfl, .closeClients 1 rfl⟩))))))))))), rfl, ?_⟩
  refine forever_of_inv (fun s' => s'.exited = false ∧ s'.worker = .receiving ∧ s'.queue = [] ∧ s'.pcs 0 = .idle ∧ s'.shutdown = true ∧
    ∀ i, (s'.pcs i).before = none) ⟨rfl, rfl, rfl, rfl, rfl, ?_⟩ ?_ fun _ h => ⟨h.1, h.2.1⟩
  · intro i
    by_cases e : i = 1
    · subst e; simp [upd, Stop.Pc.before]
    · simp [upd, e, Stop.new, Stop.Pc.before]
  · rintro s1 l s2 ⟨h1, h2, h3, h4, h5, h6⟩ hm ⟨-, -, hr⟩
    cases hr <;> grind [upd, Stop.Pc.before]

/-- The hypotheses of `C47_flushed` and `C47_completes` can be met: a process in the middle of its shutdown, with something logged. -/
example : ∃ tr s, Exec (Stop.Step ⟨true, true⟩ fun _ => 8192) (Stop.new b!"old") tr s ∧ s.shutdown = true ∧ s.crashed = false ∧ s.exited = false ∧
    s.log.failed = false ∧ s.log.disk = b!"oldnew" ∧ shutdownOf tr = shutdownSequence.take 6 := by
  refine ⟨[.logged b!"new", .call 1, .won 1, .call 2, .lost 2, .did 1 .removeRequest, .did 1 .removeResponse, .did 1 .closeListener, .did 1 .closeShut,
      .did 1 .stopMaster, .masterLeft 1, .did 1 .flush], _,
      .cons ⟨rfl, rfl, .logged _ rfl⟩ (.cons ⟨rfl, rfl, .call 1 (by decide) rfl⟩ (.cons ⟨rfl, rfl, .won 1 rfl rfl⟩
      (.cons ⟨rfl, rfl, .call 2 (by decide) rfl⟩ (.cons ⟨rfl, rfl, .lost 2 rfl rfl⟩
      (.cons ⟨rfl, rfl, .removeRequest 1 rfl⟩ (.cons ⟨rfl, rfl, .removeResponse 1 rfl (Nat.zero_lt_succ 99)⟩ (.cons ⟨rfl, rfl, .closeListener 1 rfl⟩
      (.cons ⟨rfl, rfl, .closeShut 1 rfl rfl⟩ (.cons ⟨rfl, rfl, .stopMaster 1 rfl rfl⟩ (.cons ⟨rfl, rfl, .masterLeft 1 rfl⟩
      (.one ⟨rfl, rfl, .flush 1 rfl rfl⟩))))))))))), rfl, rfl, rfl, by decide, by decide, rfl⟩

/-- Only finitely many goroutines are in `stop`. -/
theorem stop_idle (h : Exec (Stop.Step cfg ω) (Stop.new d) tr s) : ∃ n, ∀ j, n ≤ j → s.pcs j = .idle := by
  refine h.inv (P := fun _ s => ∃ n, ∀ j, n ≤ j → s.pcs j = .idle) ⟨0, fun _ _ => rfl⟩ ?_
  rintro _ s l s' - ⟨n, ih⟩ ⟨-, -, hr⟩
  cases hr
  case call i _ _ => exact ⟨max n (i + 1), fun j hj => by simp only [upd]; rw [if_neg (by omega)]; exact ih j (by omega)⟩
  case mainCall => exact ⟨max n 1, fun j hj => by simp only [upd]; rw [if_neg (by omega)]; exact ih j (by omega)⟩
  case won i _ _ => exact ⟨max n (i + 1), fun j hj => by simp only [upd]; rw [if_neg (by omega)]; exact ih j (by omega)⟩
  case lost i _ _ => exact ⟨max n (i + 1), fun j hj => by simp only [upd]; rw [if_neg (by omega)]; exact ih j (by omega)⟩
  case removeRequest i _ => exact ⟨max n (i + 1), fun j hj => by simp only [upd]; rw [if_neg (by omega)]; exact ih j (by omega)⟩
  case removeResponse i _ _ => exact ⟨max n (i + 1), fun j hj => by simp only [upd]; rw [if_neg (by omega)]; exact ih j (by omega)⟩
  case removeResponseExpired i _ => exact ⟨max n (i + 1), fun j hj => by simp only [upd]; rw [if_neg (by omega)]; exact ih j (by omega)⟩
  case closeListener i _ => exact ⟨max n (i + 1), fun j hj => by simp only [upd]; rw [if_neg (by omega)]; exact ih j (by omega)⟩
  case closeShut i _ _ => exact ⟨max n (i + 1), fun j hj => by simp only [upd]; rw [if_neg (by omega)]; exact ih j (by omega)⟩
  case stopMaster i _ _ => exact ⟨max n (i + 1), fun j hj => by simp only [upd]; rw [if_neg (by omega)]; exact ih j (by omega)⟩
  case masterLeft i _ => exact ⟨max n (i + 1), fun j hj => by simp only [upd]; rw [if_neg (by omega)]; exact ih j (by omega)⟩
  case flush i _ _ => exact ⟨max n (i + 1), fun j hj => by simp only [upd]; rw [if_neg (by omega)]; exact ih j (by omega)⟩
  case closeEngine i _ _ => exact ⟨max n (i + 1), fun j hj => by simp only [upd]; rw [if_neg (by omega)]; exact ih j (by omega)⟩
  case closeClients i _ => exact ⟨max n (i + 1), fun j hj => by simp only [upd]; rw [if_neg (by omega)]; exact ih j (by omega)⟩
  case returned i _ _ => exact ⟨max n (i + 1), fun j hj => by simp only [upd]; rw [if_neg (by omega)]; exact ih j (by omega)⟩
  case acceptorShut i _ _ _ _ => exact ⟨max n (i + 1), fun j hj => by simp only [upd]; rw [if_neg (by omega)]; exact ih j (by omega)⟩
  case workerShut i _ _ _ _ => exact ⟨max n (i + 1), fun j hj => by simp only [upd]; rw [if_neg (by omega)]; exact ih j (by omega)⟩
  all_goals exact ⟨n, ih⟩

/-- C47: the goroutine that accepts and the one that writes the responses each call `stop` when they find the shut channel closed (the latter
always, if it is at the top of its loop); this call returns without doing anything. -/
theorem C47_leaving (h : Exec (Stop.Step cfg ω) (Stop.new d) tr s) (hs : s.shut = true) (hc : s.crashed = false) (hx : s.exited = false) :
    (s.acceptor = true → ∃ j s', Exec (Stop.Step cfg ω) s [.acceptorLeft, .lost j, .returned j] s') ∧
    (s.worker = .top → (∃ j s', Exec (Stop.Step cfg ω) s [.workerLeft, .lost j, .returned j] s') ∧
      ∀ s', Stop.Step cfg ω s .workerLeft s' → ∃ j, s.pcs j = .idle ∧ s'.pcs j = .called) := by
  have hf := stop_idle h
  obtain ⟨n, hn⟩ := hf
  have hj : s.pcs (n + 1) = .idle := hn _ (by omega)
  have hi := stopInv h
  have hsd : s.shutdown = true := by
    by_contra hb
    have := hi.shut.1 hs
    rw [(hi.none (by simpa using hb)).1] at this
    simp at this
  refine ⟨fun ha => ⟨n + 1, _, .cons ⟨hc, hx, .acceptorShut (n + 1) ha hs (by omega) hj⟩ (.cons ⟨hc, hx, .lost (n + 1) (by simp [upd]) hsd⟩
    (.one ⟨hc, hx, .returned (n + 1) (by omega) (by simp [upd])⟩))⟩, fun ht => ⟨⟨n + 1, _,
    .cons ⟨hc, hx, .workerShut (n + 1) ht hs (by omega) hj⟩ (.cons ⟨hc, hx, .lost (n + 1) (by simp [upd]) hsd⟩
    (.one ⟨hc, hx, .returned (n + 1) (by omega) (by simp [upd])⟩))⟩, ?_⟩⟩
  rintro s' ⟨-, -, hr⟩
  cases hr with
  | workerShut j _ _ _ hid => exact ⟨j, hid, by simp [upd]⟩
  | workerRemoved q hw _ => rw [ht] at hw; cases hw

example : ∃ tr s, Exec (Stop.Step ⟨true, true⟩ fun _ => 8192) (Stop.new b!"old") tr s ∧ s.shut = true ∧ s.crashed = false ∧ s.exited = false ∧
    s.acceptor = true ∧ s.worker = .top :=
  ⟨[.call 1, .won 1, .did 1 .removeRequest, .did 1 .removeResponse, .did 1 .closeListener, .did 1 .closeShut], _,
    .cons ⟨rfl, rfl, .call 1 (by decide) rfl⟩ (.cons ⟨rfl, rfl, .won 1 rfl rfl⟩
    (.cons ⟨rfl, rfl, .removeRequest 1 rfl⟩ (.cons ⟨rfl, rfl, .removeResponse 1 rfl (Nat.zero_lt_succ 99)⟩ (.cons ⟨rfl, rfl, .closeListener 1 rfl⟩
    (.one ⟨rfl, rfl, .closeShut 1 rfl rfl⟩))))), rfl, rfl, rfl, rfl, rfl⟩

end Verif.Props
