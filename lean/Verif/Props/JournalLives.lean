import Verif.Spec.JournalLives
import Verif.Props.Journal
import Verif.Props.RecipeLives

/-! # C98 – a list that is only appended to, over restarts -/

namespace Verif.Props

open Spec
open Fut (upd)

variable {m : Bool} {ω : Nat → Nat} {U : Nat → Bool} {d : Bytes} {st : State}

/-- C98 (log), for such processes: if nothing but RPUSH is ever done to write a list, what the next process begins with is a log that the users of all processes read alike.
What is missing is refuted by `C98_journal_false`. -/
theorem C98_journal_partial {trs : List (List Site.Ev)} {d : Bytes} (hl : SiteLives m U trs d) (hq : ∀ tr ∈ trs, Plainly (wholeOf (fullOf (procOf tr))))
    (hz : ∀ tr ∈ trs, ∀ x ∈ doneIn (seenOver (procOf tr)), Sized x.2.2) {k : Bytes}
    (hk : ∀ tr ∈ trs, ∀ objs, Ran (deskOf tr) objs → Writes .list objs k → ∃ vs, Means objs (.rpush k vs))
    {envs : Nat → Env} (hfair : ∀ i, (envs i).ord.Fair) :
    ∃ seen a dbs, JournalIn U trs k (a.listAt k) seen ∧ fromFile noDBs envs d = .ok dbs ∧ Abs (dbs 1) a := by
  obtain ⟨segs, a, dbs, h1, h2, h3, h4⟩ := lives_record hl hq hz hfair
  obtain ⟨-, place, hj⟩ := joined h1
  obtain ⟨seen, hv⟩ := appended h2 fun q hq hw => by
    obtain ⟨tr, ht, hr⟩ := hj.ran q hq
    exact hk tr ht q hr hw
  have lt : ∀ {n c i x r}, U c = true → GotIn trs n c i x r → place n c i < (segs.flatMap (·.1)).length := fun hu hg => by
    obtain ⟨q, g, -⟩ := hj.each hu hg
    exact (List.getElem?_eq_some_iff.1 g).1
  refine ⟨fun n c i => seen (place n c i), a, dbs, ?_, h3, h4⟩
  refine ⟨fun n c i x r hu hg => hv.within _ (lt hu hg), fun n c i r hu hg => hv.counts _ r (hj.each hu hg), fun n c i p r hu hg => hv.looks _ p r (hj.each hu hg),
    fun n c i r hu hg => hv.lists _ r (hj.each hu hg), fun n c i vs l hu hg => ?_,
    fun n n' c c' i j x x' r r' hu hu' hg hg' he => hv.ordered _ _ (hj.inTime hu hu' hg hg' he) (lt hu' hg'),
    fun n n' c c' i j x vs r l hu hu' hg hg' he => hv.anew _ _ vs l (hj.inTime hu hu' hg hg' he) (hj.each hu' hg'),
    fun n n' c c' i j vs ws l l' hu hu' hg hg' => ?_⟩
  · obtain ⟨g1, g2, g3⟩ := hv.appends _ vs l (hj.each hu hg)
    exact ⟨g1, by omega, g3⟩
  · rcases Nat.lt_trichotomy (place n c i) (place n' c' j) with hlt | e | hlt
    · exact .inl (hv.anew _ _ ws l' hlt (hj.each hu' hg'))
    · exact .inr (.inr (hj.distinct hu hu' hg hg' e))
    · exact .inr (.inl (hv.anew _ _ vs l hlt (hj.each hu hg)))

theorem llen_one {st : State} {a : DB} (h : Abs st a) : ∃ st1, handle env0 st (req [b!"llen", b!"q"]) = .ok (st1, .int (a.listAt b!"q").length) := by
  obtain ⟨out, h1, h2⟩ := handle_refines h env0_fair llen_means
  cases h1
  obtain ⟨st1, h3, -⟩ := h2
  exact ⟨st1, h3⟩

/-- A user appends to a list in one process, and in the next counts the entries. -/
example : ∃ tr0 tr1 d, SiteLives true (· == 7) [tr0, tr1] d ∧ (∀ tr ∈ [tr0, tr1], Plainly (wholeOf (fullOf (procOf tr)))) ∧
    (∀ tr ∈ [tr0, tr1], ∀ x ∈ doneIn (seenOver (procOf tr)), Sized x.2.2) ∧
    (∀ tr ∈ [tr0, tr1], ∀ objs, Ran (deskOf tr) objs → Writes .list objs b!"q" → ∃ vs, Means objs (.rpush b!"q" vs)) ∧
    GotIn [tr0, tr1] 0 7 0 (.rpush b!"q" [b!"x"]) (.int 1) ∧ GotIn [tr0, tr1] 1 7 0 (.llen b!"q") (.int 1) := by
  obtain ⟨tr0, d0, h0⟩ := oneEach_nil.next begins_empty abs_empty (ws := [b!"rpush", b!"q", b!"x"]) (r := .int 1) rfl rpush_parses rpush_typable (.int (by omega) (by omega)) (by decide)
    ⟨sent_occurs, sent_is (by decide), sent_is (by decide), sent_text⟩
  obtain ⟨st0, a0, b0, m0, t0⟩ := h0.begins
  have v0 := pushed_trace t0
  obtain ⟨st1, e1⟩ := llen_one m0
  rw [v0] at e1
  obtain ⟨tr1, d1, h1⟩ := h0.next b0 m0 (r := .int 1) e1 llen_parses llen_typable (.int (by omega) (by omega)) (by decide) ⟨sent_occurs, sent_is (by decide), sent_is (by decide), sent_text⟩
  refine ⟨tr0, tr1, d1, h1.lives, h1.plain, h1.sized, fun tr ht objs hr hw => ?_, ?_, ?_⟩
  · obtain ⟨x, hx, rfl⟩ := h1.ran ht hr
    simp only [List.nil_append, List.cons_append, List.mem_cons, List.not_mem_nil, or_false] at hx
    rcases hx with rfl | rfl
    · exact ⟨_, command_means rfl⟩
    · exact absurd hw (only_reads (by decide) (by decide))
  · exact h1.got (n := 0) (ws := [b!"rpush", b!"q", b!"x"]) (r := .int 1) rfl (command_means rfl)
  · exact h1.got (n := 1) (ws := [b!"llen", b!"q"]) (r := .int 1) rfl llen_means

/-- The full claim about logs: a process exits when no writer waits and nothing has failed at the file, the next begins with the file, and in both nothing but RPUSH is done to
write a list; then who counts the entries in the second counts those that were there when somebody in the first was told that theirs were. -/
def JournalLasts : Prop := ∀ (ω : Nat → Nat) (U : Nat → Bool) (st' : State) (tr tr' : List Site.Ev) (s s' : Site.Sys) (k : Bytes) (vs : List Bytes) (c c' i j : Nat) (n n' : Int),
  Exec (Site.Step true ω U) (Site.new [] State.empty) tr s → s.proc.stop.exited = true → s.proc.full.whole.begun = none →
  s.proc.full.whole.pending = [] → s.proc.full.whole.file.failed = false → Begins s.proc.full.whole.file.disk st' →
  Exec (Site.Step true ω U) (Site.new s.proc.full.whole.file.disk st') tr' s' →
  (∀ objs, Ran (deskOf tr) objs ∨ Ran (deskOf tr') objs → Writes .list objs k → ∃ vs, Means objs (.rpush k vs)) → U c = true → U c' = true →
  Got (deskOf tr) c i (.rpush k vs) (.int n) → Got (deskOf tr') c' j (.llen k) (.int n') → n ≤ n'

/-- C98 (log): it is not so. -/
theorem C98_journal_false : ¬ JournalLasts := by
  intro hc
  have pm : Means (req [b!"rpush", b!"q", b!"x"]) (.rpush b!"q" [b!"x"]) := command_means rfl
  obtain ⟨tr, s, l, h1, h2, h3, h4, h5, h6, h7, h8, h9, h10⟩ := exits_unwritten (d := []) abs_empty rpush_parses (r := .int 1) rfl rpush_typable (.int (by omega) (by omega)) rfl
    (by decide +kernel) (by decide +kernel)
  obtain ⟨ptr, p, g1, g2, -, -, -, -, -, -, -, -, -, -, -, g3⟩ := one_proc (m := true) (ω := fun _ => 100000) (d := []) (st := State.empty) (ws := [b!"llen", b!"q"]) (r := .int 0)
    llen_parses rfl
  obtain ⟨tr', s', l', k1, k2, -, -, k4, k5, k6⟩ := one_user abs_empty llen_typable (.int (by omega) (by omega)) g1 g2 g3
  have := hc _ _ State.empty tr tr' s s' b!"q" [b!"x"] 7 7 0 0 1 0 h1 h2 h3 h4 h5 (by rw [h6]; exact begins_empty) (by rw [h6]; exact k1) (fun objs ho hw => ?_) rfl rfl
    ⟨l, by rw [h8]; rfl, ⟨_, h9, pm⟩, by rw [h10]; rfl⟩ ⟨l', by rw [k4]; rfl, ⟨_, k5, llen_means⟩, by rw [k6]; rfl⟩
  · omega
  · rcases ho with ho | ho
    · rw [ran_one (by rw [← h7, (C86_parts h1).2.2]; rfl) ho]
      exact ⟨_, pm⟩
    · rw [ran_one (by rw [← g2, ← k2, (C86_parts k1).2.2]; rfl) ho] at hw
      exact absurd hw (only_reads (by decide) (by decide))

end Verif.Props
