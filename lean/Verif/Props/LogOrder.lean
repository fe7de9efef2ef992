import Verif.Props.Replay
import Verif.Props.PFile

/-! # C34 – the order of the log

`Engine.Step` is the transition system of the engine's loop and the writer goroutines it starts, one per logged request. -/

namespace Verif.Props

open Spec PFile

/-- The logged requests of a history, in execution order. -/
def logged (h : List Req) : List Req := h.filter fun q => isLogged q.objs

theorem historyLog_logged (h : List Req) : historyLog (logged h) = historyLog h := by
  induction h with
  | nil => rfl
  | cons q h ih =>
    cases hl : isLogged q.objs
    · have : requestLog q.stamp q.objs = [] := by simp [requestLog, hl]
      simp only [logged, List.filter_cons, hl, Bool.false_eq_true, if_false, historyLog, List.flatMap_cons, this, List.nil_append]
      exact ih
    · simp only [logged, List.filter_cons, hl, if_true, historyLog, List.flatMap_cons]
      exact congrArg _ ih

theorem writeRecord_took (ω : Nat → Nat) (p : PFile) {q : Req} (hl : isLogged q.objs = true) :
    ((writeRecord ω p q).failed = false → (writeRecord ω p q).disk ++ (writeRecord ω p q).buf = p.disk ++ p.buf ++ requestLog q.stamp q.objs ∧
      p.failed = false) ∧ (p.buf.length ≤ bufSize → (writeRecord ω p q).buf.length ≤ bufSize) := by
  unfold writeRecord requestLog logBytes
  rw [if_pos hl]
  cases packLog (newLog q.stamp ((q.objs.head?.bind text).getD []) 1 q.objs) with
  | none => simp
  | some b =>
    obtain ⟨h1, h2⟩ := write_took ω p b
    refine ⟨fun hf => ⟨?_, ?_⟩, h1.room⟩
    · rw [h1.bytes, h2 hf, List.take_length]; rfl
    · cases hp : p.failed
      · rfl
      · have := (h1.stuck hp).1
        change (write ω p b).1.failed = false at hf
        rw [this, hp] at hf; cases hf

theorem writeRecord_prefix (ω : Nat → Nat) (p : PFile) {q : Req} (hl : isLogged q.objs = true) {L : Bytes}
    (h : p.disk ++ p.buf <+: L ∧ (p.failed = false → p.disk ++ p.buf = L)) :
    (writeRecord ω p q).disk ++ (writeRecord ω p q).buf <+: L ++ requestLog q.stamp q.objs ∧
      ((writeRecord ω p q).failed = false → (writeRecord ω p q).disk ++ (writeRecord ω p q).buf = L ++ requestLog q.stamp q.objs) := by
  refine ⟨?_, fun hf => ?_⟩
  · unfold writeRecord requestLog logBytes
    rw [if_pos hl]
    cases packLog (newLog q.stamp ((q.objs.head?.bind text).getD []) 1 q.objs) with
    | none => simpa using h.1
    | some b =>
      obtain ⟨h1, h2⟩ := write_took ω p b
      simp only [Option.getD_some]
      cases hp : p.failed
      · rw [h1.bytes, h.2 hp]
        exact List.prefix_append_right_inj _ |>.2 (List.take_prefix _ _)
      · rw [(h1.stuck hp).1]
        exact h.1.trans (List.prefix_append _ _)
  · obtain ⟨g1, g2⟩ := (writeRecord_took ω p hl).1 hf
    rw [g1, h.2 g2]

theorem flush_unfailed {ω : Nat → Nat} {p : PFile} (h : (p.flush ω).failed = false) : p.failed = false := by
  cases hp : p.failed
  · rfl
  · rw [flush_stuck ω _ hp, hp] at h; cases h

/-- What holds throughout a run that began with the contents `st`: `done` has been executed, `written` has been written. -/
structure RunInv (d : Bytes) (h : List Req) (e : Engine) (done written : List Req) (st : State := State.empty) : Prop where
  split : h = done ++ e.current.toList ++ e.todo
  served : serve st (served done) = .ok (e.db, e.replies)
  perm : (written ++ e.pending).Perm (logged (done ++ e.current.toList))
  file : e.file.failed = false → e.file.disk ++ e.file.buf = d ++ historyLog written
  room : e.file.buf.length ≤ bufSize
  pre : e.file.disk ++ e.file.buf <+: d ++ historyLog written

theorem serve_snoc {st st' st'' : State} {qs : List (Env × List Resp)} {rs : List Resp} {q : Env × List Resp} {r : Resp}
    (h : serve st qs = .ok (st', rs)) (h' : handle q.1 st' q.2 = .ok (st'', r)) : serve st (qs ++ [q]) = .ok (st'', rs ++ [r]) := by
  rw [serve_append h]
  simp [serve, h']

theorem runInv_step {ω : Nat → Nat} {d : Bytes} {h : List Req} {e e' : Engine} {done written : List Req} {st : State}
    (hi : RunInv d h e done written st) (hs : Engine.Step ω e e') : ∃ done' written', written <+: written' ∧ RunInv d h e' done' written' st := by
  obtain ⟨h1, h2, h3, h4, h5, h6⟩ := hi
  cases hs with
  | @receive q rest ht hc =>
    rw [hc] at h1 h3
    rw [ht] at h1
    simp only [Option.toList_none, List.append_nil] at h1 h3
    refine ⟨done, written, List.prefix_rfl, by simpa using h1, h2, ?_, h4, h5, h6⟩
    cases hl : isLogged q.objs
    · simpa [logged, hl] using h3
    · simp only [if_true, Option.toList_some, logged, List.filter_append, List.filter_cons, hl, List.filter_nil]
      rw [← List.append_assoc]
      exact h3.append_right [q]
  | @execute q db r hc hh =>
    rw [hc] at h1 h3
    exact ⟨done ++ [q], written, List.prefix_rfl, by simpa using h1, by simpa [served] using serve_snoc h2 hh, by simpa using h3, h4, h5, h6⟩
  | @write before after q hp =>
    rw [hp] at h3
    have hq : isLogged q.objs = true := by
      have : q ∈ logged (done ++ e.current.toList) := h3.subset (by simp)
      exact (List.mem_filter.1 this).2
    refine ⟨done, written ++ [q], List.prefix_append _ _, h1, h2, ?_, ?_, (writeRecord_took ω e.file hq).2 h5, ?_⟩
    · refine List.Perm.trans ?_ h3
      simp only [List.append_assoc, List.cons_append, List.nil_append]
      exact List.Perm.append_left _ List.perm_middle.symm
    · intro hf
      obtain ⟨g1, g2⟩ := (writeRecord_took ω e.file hq).1 hf
      rw [g1, h4 g2]
      simp [historyLog]
    · have := (writeRecord_prefix ω e.file hq ⟨h6, h4⟩).1
      simpa [historyLog] using this
  | flush =>
    refine ⟨done, written, List.prefix_rfl, h1, h2, h3, fun hf => ?_, (flush_len ω e.file).trans h5, by rw [flush_bytes]; exact h6⟩
    rw [flush_bytes]
    exact h4 (flush_unfailed hf)

theorem runInv_steps {ω : Nat → Nat} {d : Bytes} {h : List Req} {e e' : Engine} {done written : List Req} {st : State}
    (hi : RunInv d h e done written st) (hr : Relation.ReflTransGen (Engine.Step ω) e e') :
    ∃ done' written', written <+: written' ∧ RunInv d h e' done' written' st := by
  induction hr with
  | refl => exact ⟨done, written, List.prefix_rfl, hi⟩
  | tail _ hs ih =>
    obtain ⟨done', written', h1, h2⟩ := ih
    obtain ⟨done'', written'', h3, h4⟩ := runInv_step h2 hs
    exact ⟨done'', written'', h1.trans h3, h4⟩

theorem runInv_startOn (d : Bytes) (st : State) (h : List Req) : RunInv d h (Engine.startOn d st h) [] [] st :=
  ⟨rfl, rfl, .nil, fun _ => by simp [Engine.startOn, Engine.start, PFile.new, historyLog], Nat.zero_le _,
    by simp [Engine.startOn, Engine.start, PFile.new, historyLog]⟩

theorem runInv_start (d : Bytes) (h : List Req) : RunInv d h (Engine.start d h) [] [] := runInv_startOn d State.empty h

theorem runInv {ω : Nat → Nat} {d : Bytes} {h : List Req} {e : Engine} (hr : Runs ω d h e) : ∃ done written, RunInv d h e done written := by
  obtain ⟨done, written, -, h⟩ := runInv_steps (runInv_start d h) hr
  exact ⟨done, written, h⟩

/-- C34: at every moment of every run, the log file (after a flush that succeeds) holds, besides what it held at first, the records of some of
the logged requests received so far, each once, in some order. -/
theorem C34_at_most_once {ω : Nat → Nat} {d : Bytes} {h : List Req} {e : Engine} (hr : Runs ω d h e) (hf : (e.file.flush ω).failed = false) :
    ∃ written waiting, (e.file.flush ω).disk = d ++ historyLog written ∧ (written ++ waiting).Perm (logged (h.take (h.length - e.todo.length))) := by
  obtain ⟨done, written, h1, h2, h3, h4, h5⟩ := runInv hr
  have hf' : e.file.failed = false := by
    cases hp : e.file.failed
    · rfl
    · rw [flush_stuck ω _ hp, hp] at hf; cases hf
  refine ⟨written, e.pending, ?_, ?_⟩
  · have := flush_bytes ω e.file
    rw [flush_done ω _ hf, List.append_nil] at this
    rw [this, h4 hf']
  · have : h.take (h.length - e.todo.length) = done ++ e.current.toList := by
      conv => lhs; rw [h1]
      rw [List.take_append_of_le_length (by simp only [List.length_append]; omega), List.take_of_length_le]
      simp only [List.length_append]; omega
    rw [this]; exact h3

/-- C34: when a run is over, the replies and contents are those of executing the requests in order, and the log (after a flush that succeeds)
holds the record of every logged request exactly once, in some order. -/
theorem C34_orders {ω : Nat → Nat} {d : Bytes} {h : List Req} {e : Engine} (hr : Runs ω d h e) (hi : Idle e)
    (hf : (e.file.flush ω).failed = false) :
    serve State.empty (served h) = .ok (e.db, e.replies) ∧ ∃ written, written.Perm (logged h) ∧ (e.file.flush ω).disk = d ++ historyLog written := by
  obtain ⟨done, written, h1, h2, h3, h4, h5⟩ := runInv hr
  obtain ⟨i1, i2, i3⟩ := hi
  rw [i1, i2] at h1
  rw [i2, i3] at h3
  simp only [Option.toList_none, List.append_nil] at h1 h3
  subst h1
  have hf' : e.file.failed = false := by
    cases hp : e.file.failed
    · rfl
    · rw [flush_stuck ω _ hp, hp] at hf; cases hf
  refine ⟨h2, written, h3, ?_⟩
  have := flush_bytes ω e.file
  rw [flush_done ω _ hf, List.append_nil] at this
  rw [this, h4 hf']

theorem runs_serve (ω : Nat → Nat) (d : Bytes) (h : List Req) : ∀ (todo done : List Req) (st st' : State) (rs rs' : List Resp) (p : List Req),
    serve st (served todo) = .ok (st', rs') →
    Relation.ReflTransGen (Engine.Step ω) { todo := todo, current := none, db := st, replies := rs, pending := p, file := PFile.new d }
      { todo := [], current := none, db := st', replies := rs ++ rs', pending := p ++ logged todo, file := PFile.new d } := by
  intro todo
  induction todo with
  | nil =>
    intro done st st' rs rs' p hs
    simp only [served, List.map_nil, serve, Outcome.ok.injEq, Prod.mk.injEq] at hs
    obtain ⟨rfl, rfl⟩ := hs
    simp only [logged, List.filter_nil, List.append_nil]
    exact .refl
  | cons q todo ih =>
    intro done st st' rs rs' p hs
    simp only [served, List.map_cons, serve] at hs
    split at hs
    · rename_i st1 r hh
      split at hs
      · rename_i st2 rs2 hh2
        simp only [Outcome.ok.injEq, Prod.mk.injEq] at hs
        obtain ⟨rfl, rfl⟩ := hs
        refine .head (.receive (q := q) (rest := todo) rfl rfl) (.head (.execute (q := q) rfl hh) ?_)
        have := ih done st1 st2 (rs ++ [r]) rs2 (if isLogged q.objs then p ++ [q] else p) hh2
        cases hl : isLogged q.objs <;> simpa [logged, hl] using this
      · simp at hs
      · simp at hs
    · simp at hs
    · simp at hs

theorem writeRecord_ok {ω : Nat → Nat} {n : Nat} (hω : ∀ i, n ≤ ω i) (hn : 4096 ≤ n) {p : PFile} (hf : p.failed = false)
    (hp : p.buf.length ≤ bufSize) {q : Req} (hl : isLogged q.objs = true) (hq : (requestLog q.stamp q.objs).length ≤ n) :
    (writeRecord ω p q).failed = false := by
  unfold requestLog logBytes at hq
  rw [if_pos hl] at hq
  unfold writeRecord
  cases hx : packLog (newLog q.stamp ((q.objs.head?.bind text).getD []) 1 q.objs) with
  | none => exact hf
  | some b =>
    rw [hx] at hq
    exact noFail_run hω hn hf hp (.write b) hq

theorem runs_write {ω : Nat → Nat} {n : Nat} (hω : ∀ i, n ≤ ω i) (hn : 4096 ≤ n) (st : State) (rs : List Resp) :
    ∀ (h' p : List Req) (file : PFile), h'.Perm p → file.failed = false → file.buf.length ≤ bufSize →
    (∀ q ∈ p, isLogged q.objs = true ∧ (requestLog q.stamp q.objs).length ≤ n) →
    ∃ file', Relation.ReflTransGen (Engine.Step ω) { todo := [], current := none, db := st, replies := rs, pending := p, file := file }
      { todo := [], current := none, db := st, replies := rs, pending := [], file := file' } ∧ file'.failed = false ∧
      file'.buf.length ≤ bufSize ∧ file'.disk ++ file'.buf = file.disk ++ file.buf ++ historyLog h' := by
  intro h'
  induction h' with
  | nil =>
    intro p file hp hf hb _
    rw [← hp.nil_eq]
    exact ⟨file, .refl, hf, hb, by simp [historyLog]⟩
  | cons q h' ih =>
    intro p file hp hf hb hq
    have hm : q ∈ p := hp.subset List.mem_cons_self
    obtain ⟨l1, l2, rfl⟩ := List.append_of_mem hm
    have hp' : h'.Perm (l1 ++ l2) := (List.perm_cons q).1 (hp.trans List.perm_middle)
    obtain ⟨hl, hlen⟩ := hq q hm
    have hf1 := writeRecord_ok hω hn hf hb hl hlen
    obtain ⟨g1, g2⟩ := writeRecord_took ω file hl
    obtain ⟨file', r1, r2, r3, r4⟩ := ih (l1 ++ l2) (writeRecord ω file q) hp' hf1 (g2 hb)
      (fun x hx => hq x (by simp only [List.mem_append, List.mem_cons] at hx ⊢; tauto))
    refine ⟨file', .head (.write (before := l1) (after := l2) (q := q) rfl) r1, r2, r3, ?_⟩
    rw [r4, (g1 hf1).1]
    simp [historyLog]

/-- C34: every order of the records is possible, on a disk that takes every write. -/
theorem C34_all_orders {ω : Nat → Nat} {n : Nat} (hω : ∀ i, n ≤ ω i) (hn : 4096 ≤ n) (d : Bytes) {h h' : List Req} {st : State} {rs : List Resp}
    (hs : serve State.empty (served h) = .ok (st, rs)) (hp : h'.Perm (logged h)) (hb : ∀ q ∈ h, (requestLog q.stamp q.objs).length ≤ n) :
    ∃ e, Runs ω d h e ∧ Idle e ∧ (e.file.flush ω).failed = false ∧ (e.file.flush ω).disk = d ++ historyLog h' := by
  have r1 := runs_serve ω d h h [] State.empty st [] rs [] hs
  obtain ⟨file, r2, r3, r4, r5⟩ := runs_write hω hn st rs h' (logged h) (PFile.new d) hp rfl (Nat.zero_le _)
    (fun q hq => ⟨(List.mem_filter.1 hq).2, hb q (List.mem_filter.1 hq).1⟩)
  have hf : (file.flush ω).failed = false := noFail_run hω hn r3 r4 .flush (Nat.zero_le _)
  refine ⟨_, r1.trans r2, ⟨rfl, rfl, rfl⟩, hf, ?_⟩
  have := flush_bytes ω file
  rw [flush_done ω _ hf, List.append_nil] at this
  show (file.flush ω).disk = _
  rw [this, r5]
  simp [PFile.new]

/-- The full claim C34: the log lists the requests in the order of their execution. -/
def LogOrdered : Prop := ∀ (ω : Nat → Nat) (d : Bytes) (h : List Req) (e : Engine), (∀ q ∈ h, q.Occurs) → Runs ω d h e → Idle e →
  (e.file.flush ω).failed = false → (e.file.flush ω).disk = d ++ historyLog h

def set1 : Req := sent [b!"set", b!"k", b!"1"]
def set2 : Req := sent [b!"set", b!"k", b!"2"]

theorem set1_ok : set1.Occurs ∧ ¬ set1.Is b!"ltrim" ∧ ¬ set1.Is b!"spop" ∧ ∀ o ∈ set1.objs, TextObj o :=
  ⟨sent_occurs, sent_is (by decide), sent_is (by decide), sent_text⟩
theorem set2_ok : set2.Occurs ∧ ¬ set2.Is b!"ltrim" ∧ ¬ set2.Is b!"spop" ∧ ∀ o ∈ set2.objs, TextObj o :=
  ⟨sent_occurs, sent_is (by decide), sent_is (by decide), sent_text⟩

theorem set12_small : ∀ q ∈ [set1, set2], (requestLog q.stamp q.objs).length ≤ 100000 := by
  simp only [List.forall_mem_cons, List.not_mem_nil, false_imp_iff, implies_true, and_true]
  exact ⟨by decide, by decide⟩

/-- The two records in the wrong order: a run that really exists. -/
theorem swapped : ∃ e, Runs (fun _ => 100000) [] [set1, set2] e ∧ Idle e ∧ (e.file.flush fun _ => 100000).failed = false ∧
    (e.file.flush fun _ => 100000).disk = [] ++ historyLog [set2, set1] :=
  C34_all_orders (fun _ => Nat.le_refl _) (by decide) [] (h := [set1, set2]) rfl (List.Perm.swap set1 set2 []) set12_small

/-- C34 is false. -/
theorem C34_false : ¬ LogOrdered := by
  intro H
  obtain ⟨e, h1, h2, h3, h4⟩ := swapped
  have := H _ _ _ e (by
    simp only [List.forall_mem_cons, List.not_mem_nil, false_imp_iff, implies_true, and_true]
    exact ⟨set1_ok.1, set2_ok.1⟩) h1 h2 h3
  rw [h4] at this
  revert this
  simp only [historyLog, List.flatMap_cons, List.flatMap_nil]
  decide

/-- C34: the wrong order is not harmless. SET k 1 and SET k 2 are both acknowledged and the server holds 2, but after a restart on its log it
holds 1. -/
theorem C34_diverges : ∃ (h : List Req) (ω : Nat → Nat) (e : Engine), (∀ q ∈ h, q.Occurs) ∧ Runs ω [] h e ∧ Idle e ∧
    (e.file.flush ω).failed = false ∧ e.replies = [.simple b!"OK", .simple b!"OK"] ∧
    (∃ st, handle env0 e.db (req [b!"get", b!"k"]) = .ok (st, .bulk b!"2")) ∧
    ∀ envs : Nat → Env, (∀ i, (envs i).ord.Fair) → ∃ dbs, fromFile noDBs envs (e.file.flush ω).disk = .ok dbs ∧
      ∃ st, handle env0 (dbs 1) (req [b!"get", b!"k"]) = .ok (st, .bulk b!"1") := by
  obtain ⟨e, h1, h2, h3, h4⟩ := swapped
  obtain ⟨h5, -⟩ := C34_orders h1 h2 h3
  replace h5 : Outcome.ok (_, [.simple b!"OK", .simple b!"OK"]) = Outcome.ok (e.db, e.replies) := h5
  simp only [Outcome.ok.injEq, Prod.mk.injEq] at h5
  refine ⟨_, _, e, ?_, h1, h2, h3, h5.2.symm, ?_, ?_⟩
  · simp only [List.forall_mem_cons, List.not_mem_nil, false_imp_iff, implies_true, and_true]
    exact ⟨set1_ok.1, set2_ok.1⟩
  · rw [← h5.1]; exact ⟨_, rfl⟩
  · intro envs hf
    have hs : serve State.empty (served [set2, set1]) = .ok (_, [.simple b!"OK", .simple b!"OK"]) := rfl
    obtain ⟨dbs, a, g1, g2, g3, -⟩ := C33_rebuilds_partial [set2, set1] _ _ (by
      simp only [List.forall_mem_cons, List.not_mem_nil, false_imp_iff, implies_true, and_true]
      exact ⟨set2_ok, set1_ok⟩) hs envs hf
    refine ⟨dbs, by rw [h4]; exact g1, ?_⟩
    have hg : ∀ (st : State), Abs st a → ∃ t s, handle env0 st (req [b!"get", b!"k"]) = .ok (t, s) := by
      intro st ha
      obtain ⟨out, hst, hob⟩ := handle_refines ha env0_fair (c := .get b!"k") (request_req (n := b!"get") [b!"k"])
      simp only [Step] at hst
      subst hst
      obtain ⟨t, ht, -⟩ := hob
      exact ⟨t, _, ht⟩
    obtain ⟨t, s, ht⟩ := hg _ g3
    have := differ g2 g3 [b!"k"] b!"get" (by decide) (r := .bulk b!"1") rfl ht
    rcases this with rfl | ⟨⟨_, e⟩, _⟩
    · exact ⟨t, ht⟩
    · cases e

/-- Steps in which no request is received while a writer is still waiting. -/
def Unhurried (ω : Nat → Nat) (e e' : Engine) : Prop := Engine.Step ω e e' ∧ (e'.todo = e.todo ∨ e.pending = [])

theorem ordered_inv {ω : Nat → Nat} {d : Bytes} {st : State} {h : List Req} {e : Engine}
    (hr : Relation.ReflTransGen (Unhurried ω) (Engine.startOn d st h) e) :
    ∃ done, h = done ++ e.current.toList ++ e.todo ∧ e.pending.length ≤ 1 ∧ (∀ q ∈ e.pending, isLogged q.objs = true) ∧
      (e.file.failed = false → e.file.disk ++ e.file.buf ++ historyLog e.pending = d ++ historyLog (done ++ e.current.toList)) := by
  induction hr with
  | refl => exact ⟨[], rfl, Nat.zero_le _, by simp [Engine.startOn, Engine.start], fun _ => by simp [Engine.startOn, Engine.start, PFile.new, historyLog]⟩
  | @tail e e' _ hs ih =>
    obtain ⟨done, h1, h2, h3, h4⟩ := ih
    obtain ⟨hs, hu⟩ := hs
    cases hs with
    | @receive q rest ht hc =>
      have hp : e.pending = [] := by
        rcases hu with hu | hu
        · have := congrArg List.length hu
          simp [ht] at this
        · exact hu
      rw [hc] at h1 h4
      rw [ht] at h1
      rw [hp] at h4
      simp only [Option.toList_none, List.append_nil] at h1 h4
      refine ⟨done, by simpa using h1, ?_, ?_, ?_⟩
      · simp only [hp]; split <;> simp
      · intro x hx
        simp only [hp] at hx
        split at hx
        · rename_i hl
          have : x = q := by simpa using hx
          rw [this]; exact hl
        · simp at hx
      · intro hf
        have := h4 hf
        simp only [historyLog, List.flatMap_nil, List.append_nil] at this
        simp only [hp, historyLog, Option.toList_some, List.flatMap_append, List.flatMap_cons, List.flatMap_nil, List.append_nil, this,
          List.append_assoc]
        split
        · simp
        · rename_i hl; simp [requestLog, hl]
    | @execute q db r hc hh =>
      rw [hc] at h1 h4
      exact ⟨done ++ [q], by simpa using h1, h2, h3, by simpa using h4⟩
    | @write before after q hp =>
      have hb : before = [] ∧ after = [] := by
        rw [hp] at h2
        simp only [List.length_append, List.length_cons] at h2
        exact ⟨List.eq_nil_of_length_eq_zero (by omega), List.eq_nil_of_length_eq_zero (by omega)⟩
      obtain ⟨rfl, rfl⟩ := hb
      have hq := h3 q (by rw [hp]; simp)
      refine ⟨done, h1, by simp, by simp, ?_⟩
      intro hf
      obtain ⟨g1, g2⟩ := (writeRecord_took ω e.file hq).1 hf
      have := h4 g2
      rw [hp] at this
      rw [← this, g1]
      simp [historyLog]
    | flush =>
      refine ⟨done, h1, h2, h3, fun hf => ?_⟩
      rw [flush_bytes]
      exact h4 (flush_unfailed hf)

/-- C34, when every writer gets to the file before the next request is received: the log is in order. The full claim is `LogOrdered`. -/
theorem C34_ordered_partial {ω : Nat → Nat} {d : Bytes} {h : List Req} {e : Engine}
    (hr : Relation.ReflTransGen (Unhurried ω) (Engine.start d h) e) (hi : Idle e) (hf : (e.file.flush ω).failed = false) :
    (e.file.flush ω).disk = d ++ historyLog h := by
  obtain ⟨done, h1, h2, h3, h4⟩ := ordered_inv (st := State.empty) hr
  obtain ⟨i1, i2, i3⟩ := hi
  rw [i1, i2] at h1
  rw [i2, i3] at h4
  simp only [Option.toList_none, List.append_nil] at h1 h4
  subst h1
  have hf' : e.file.failed = false := by
    cases hp : e.file.failed
    · rfl
    · rw [flush_stuck ω _ hp, hp] at hf; cases hf
  have := flush_bytes ω e.file
  rw [flush_done ω _ hf, List.append_nil] at this
  rw [this, ← h4 hf']
  simp [historyLog]

/-- An unhurried run of two requests: receive, write, execute, receive, execute, write. -/
example : ∃ e, Relation.ReflTransGen (Unhurried fun _ => 100000) (Engine.start [] [set1, set2]) e ∧ Idle e ∧
    (e.file.flush fun _ => 100000).failed = false :=
  ⟨_, .head ⟨.receive (q := set1) rfl rfl, .inr rfl⟩ (.head ⟨.write (before := []) (after := []) (q := set1) rfl, .inl rfl⟩
    (.head ⟨.execute (q := set1) rfl rfl, .inl rfl⟩ (.head ⟨.receive (q := set2) rfl rfl, .inr rfl⟩
    (.head ⟨.execute (q := set2) rfl rfl, .inl rfl⟩ (.head ⟨.write (before := []) (after := []) (q := set2) rfl, .inl rfl⟩ .refl))))),
    ⟨rfl, rfl, rfl⟩, by decide⟩

end Verif.Props
