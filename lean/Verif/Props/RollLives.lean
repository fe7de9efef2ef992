import Verif.Spec.RollLives
import Verif.Props.Roll
import Verif.Props.RecipeLives

/-! # C98 – a set that is only added to, over restarts -/

namespace Verif.Props

open Spec
open Fut (upd)

variable {m : Bool} {ω : Nat → Nat} {U : Nat → Bool} {d : Bytes} {st : State}

/-- C98 (roll), for such processes: if nothing but SADD is ever done to write a set, what the next process begins with is a roll that the users of all processes read alike.
What is missing is refuted by `C98_roll_false`. -/
theorem C98_roll_partial {trs : List (List Site.Ev)} {d : Bytes} (hl : SiteLives m U trs d) (hq : ∀ tr ∈ trs, Plainly (wholeOf (fullOf (procOf tr))))
    (hz : ∀ tr ∈ trs, ∀ x ∈ doneIn (seenOver (procOf tr)), Sized x.2.2) {k : Bytes}
    (hk : ∀ tr ∈ trs, ∀ objs, Ran (deskOf tr) objs → Writes .set objs k → ∃ ms, Means objs (.sadd k ms))
    {envs : Nat → Env} (hfair : ∀ i, (envs i).ord.Fair) :
    ∃ names seen a dbs, RollIn U trs k names seen ∧ (∀ m ∈ names, ∃ tr ∈ trs, ∃ objs ms, Ran (deskOf tr) objs ∧ Means objs (.sadd k ms) ∧ m ∈ ms) ∧
      fromFile noDBs envs d = .ok dbs ∧ Abs (dbs 1) a ∧ ∀ m, m ∈ names ↔ m ∈ a.setAt k := by
  obtain ⟨segs, a, dbs, h1, h2, h3, h4⟩ := lives_record hl hq hz hfair
  obtain ⟨-, place, hj⟩ := joined h1
  obtain ⟨names, seen, hv, hn, hf⟩ := gathers h2 (fun q hq hw => by
    obtain ⟨tr, ht, hr⟩ := hj.ran q hq
    exact hk tr ht q hr hw) List.nodup_nil (by simp [DB.setAt, DB.empty])
  have lt : ∀ {n c i x r}, U c = true → GotIn trs n c i x r → place n c i < (segs.flatMap (·.1)).length := fun hu hg => by
    obtain ⟨q, g, -⟩ := hj.each hu hg
    exact (List.getElem?_eq_some_iff.1 g).1
  refine ⟨names, fun n c i => seen (place n c i), a, dbs, ?_, fun m hm => ?_, h3, h4, fun m => by rw [← hf, List.mem_toFinset]⟩
  · refine ⟨hn, fun n c i x r hu hg => hv.within _ (lt hu hg), fun n c i m r hne hu hg => hv.asks _ m r hne (hj.each hu hg), fun n c i r hu hg => hv.counts _ r (hj.each hu hg),
      fun n c i r hu hg => hv.lists _ r (hj.each hu hg), fun n c i ms r hu hg => ?_,
      fun n n' c c' i j x x' r r' hu hu' hg hg' he => hv.ordered _ _ (hj.inTime hu hu' hg hg' he) (lt hu' hg'),
      fun n n' c c' i j x ms r t hu hu' hg hg' he => hv.anew _ _ ms t (hj.inTime hu hu' hg hg' he) (hj.each hu' hg'),
      fun n n' c c' i j ms ms' t t' hu hu' hg hg' => ?_⟩
    · obtain ⟨t, g1, g2, g3⟩ := hv.adds _ ms r (hj.each hu hg)
      exact ⟨t, g1, by omega, g3⟩
    · rcases Nat.lt_trichotomy (place n c i) (place n' c' j) with hlt | e | hlt
      · exact .inl (hv.anew _ _ ms' t' hlt (hj.each hu' hg'))
      · exact .inr (.inr (hj.distinct hu hu' hg hg' e))
      · exact .inr (.inl (hv.anew _ _ ms t hlt (hj.each hu hg)))
  · rcases hv.made m hm with g | ⟨q, g1, ms, g2, g3⟩
    · cases g
    · obtain ⟨tr, ht, hr⟩ := hj.ran q g1
      exact ⟨tr, ht, q, ms, hr, g2, g3⟩

/-- Of all lines of all processes that add a name alone, at most one is told that it was the one who added it. -/
theorem RollIn.once {trs : List (List Site.Ev)} {k : Bytes} {names : List Bytes} {seen : Nat → Nat → Nat → Nat} (hr : RollIn U trs k names seen)
    {n n' c c' i j : Nat} {x : Bytes} (hu : U c = true) (hu' : U c' = true) (hc : GotIn trs n c i (.sadd k [x]) (.int 1)) (hc' : GotIn trs n' c' j (.sadd k [x]) (.int 1)) :
    n = n' ∧ c = c' ∧ i = j := by
  have last : ∀ {n c i}, U c = true → GotIn trs n c i (.sadd k [x]) (.int 1) → 0 < seen n c i ∧ names[seen n c i - 1]? = some x := fun {n c i} hu hg => by
    obtain ⟨t, g1, g2, -, g4⟩ := hr.adds n c i [x] _ hu hg
    simp only [Resp.int.injEq] at g1
    have ht : t = 1 := by omega
    subst ht
    have hw := hr.within n c i _ _ hu hg
    have hlt : seen n c i - 1 < names.length := by omega
    have := g4 names[seen n c i - 1] (List.mem_iff_getElem?.2 ⟨0, by rw [List.getElem?_drop, List.getElem?_take_of_lt (by omega), Nat.add_zero]; exact List.getElem?_eq_getElem hlt⟩)
    rw [List.mem_singleton] at this
    exact ⟨by omega, by rw [List.getElem?_eq_getElem hlt, this]⟩
  obtain ⟨p1, p2⟩ := last hu hc
  obtain ⟨p3, p4⟩ := last hu' hc'
  obtain ⟨l1, e1⟩ := List.getElem?_eq_some_iff.1 p2
  obtain ⟨l2, e2⟩ := List.getElem?_eq_some_iff.1 p4
  have := (List.Nodup.getElem_inj_iff hr.distinct).1 (e1.trans e2.symm)
  rcases hr.apart n n' c c' i j [x] [x] 1 1 hu hu' hc hc' with g | g | g
  · omega
  · omega
  · exact g

/-- C98 (roll): of all lines of such processes that add a name alone, at most one is told that it was the one who added it. What is missing is refuted by `C98_roll_false`. -/
theorem C98_first_partial {trs : List (List Site.Ev)} {d : Bytes} (hl : SiteLives m U trs d) (hq : ∀ tr ∈ trs, Plainly (wholeOf (fullOf (procOf tr))))
    (hz : ∀ tr ∈ trs, ∀ x ∈ doneIn (seenOver (procOf tr)), Sized x.2.2) {k : Bytes}
    (hk : ∀ tr ∈ trs, ∀ objs, Ran (deskOf tr) objs → Writes .set objs k → ∃ ms, Means objs (.sadd k ms))
    {n n' c c' i j : Nat} {x : Bytes} (hu : U c = true) (hu' : U c' = true) (hc : GotIn trs n c i (.sadd k [x]) (.int 1)) (hc' : GotIn trs n' c' j (.sadd k [x]) (.int 1)) :
    n = n' ∧ c = c' ∧ i = j := by
  obtain ⟨_, _, _, _, hr, -⟩ := C98_roll_partial hl hq hz hk (envs := fun _ => env0) fun _ => env0_fair
  exact RollIn.once hr hu hu' hc hc'

/-- A user adds a name in one process, and in the next is told that it is there. -/
example : ∃ tr0 tr1 d, SiteLives true (· == 7) [tr0, tr1] d ∧ (∀ tr ∈ [tr0, tr1], Plainly (wholeOf (fullOf (procOf tr)))) ∧
    (∀ tr ∈ [tr0, tr1], ∀ x ∈ doneIn (seenOver (procOf tr)), Sized x.2.2) ∧
    (∀ tr ∈ [tr0, tr1], ∀ objs, Ran (deskOf tr) objs → Writes .set objs b!"l" → ∃ ms, Means objs (.sadd b!"l" ms)) ∧
    GotIn [tr0, tr1] 0 7 0 (.sadd b!"l" [b!"m"]) (.int 1) ∧ GotIn [tr0, tr1] 1 7 0 (.sadd b!"l" [b!"m"]) (.int 0) := by
  obtain ⟨tr0, d0, h0⟩ := oneEach_nil.next begins_empty abs_empty (ws := [b!"sadd", b!"l", b!"m"]) (r := .int 1) rfl sadd_parses sadd_typable (.int (by omega) (by omega)) (by decide)
    ⟨sent_occurs, sent_is (by decide), sent_is (by decide), sent_text⟩
  obtain ⟨st0, a0, b0, m0, t0⟩ := h0.begins
  obtain ⟨st1, e1⟩ := add_again m0 (added_trace t0)
  obtain ⟨tr1, d1, h1⟩ := h0.next b0 m0 e1 sadd_parses sadd_typable (.int (by omega) (by omega)) (by decide) ⟨sent_occurs, sent_is (by decide), sent_is (by decide), sent_text⟩
  refine ⟨tr0, tr1, d1, h1.lives, h1.plain, h1.sized, fun tr ht objs hr hw => ?_, ?_, ?_⟩
  · obtain ⟨x, hx, rfl⟩ := h1.ran ht hr
    simp only [List.nil_append, List.cons_append, List.mem_cons, List.not_mem_nil, or_false] at hx
    rcases hx with rfl | rfl <;> exact ⟨_, sadd_means⟩
  · exact h1.got (n := 0) (ws := [b!"sadd", b!"l", b!"m"]) (r := .int 1) rfl sadd_means
  · exact h1.got (n := 1) (ws := [b!"sadd", b!"l", b!"m"]) (r := .int 0) rfl sadd_means

/-- The full claim about rolls: a process exits when no writer waits and nothing has failed at the file, the next begins with the file, and in both nothing but SADD is done to
write a set; then not both a line of the first and one of the second are told that they were the one who added a name. -/
def RollLasts : Prop := ∀ (ω : Nat → Nat) (U : Nat → Bool) (st' : State) (tr tr' : List Site.Ev) (s s' : Site.Sys) (k x : Bytes) (c c' i j : Nat),
  Exec (Site.Step true ω U) (Site.new [] State.empty) tr s → s.proc.stop.exited = true → s.proc.full.whole.begun = none →
  s.proc.full.whole.pending = [] → s.proc.full.whole.file.failed = false → Begins s.proc.full.whole.file.disk st' →
  Exec (Site.Step true ω U) (Site.new s.proc.full.whole.file.disk st') tr' s' →
  (∀ objs, Ran (deskOf tr) objs ∨ Ran (deskOf tr') objs → Writes .set objs k → ∃ ms, Means objs (.sadd k ms)) → U c = true → U c' = true →
  Got (deskOf tr) c i (.sadd k [x]) (.int 1) → ¬ Got (deskOf tr') c' j (.sadd k [x]) (.int 1)

/-- C98 (roll): it is not so. -/
theorem C98_roll_false : ¬ RollLasts := by
  intro hc
  obtain ⟨tr, s, l, h1, h2, h3, h4, h5, h6, h7, h8, h9, h10⟩ := exits_unwritten (d := []) abs_empty sadd_parses (r := .int 1) rfl sadd_typable (.int (by omega) (by omega)) rfl
    (by decide +kernel) (by decide +kernel)
  obtain ⟨ptr, p, g1, g2, -, -, -, -, -, -, -, -, -, -, -, g3⟩ := one_proc (m := true) (ω := fun _ => 100000) (d := []) (st := State.empty) (ws := [b!"sadd", b!"l", b!"m"])
    (r := .int 1) sadd_parses rfl
  obtain ⟨tr', s', l', k1, k2, -, -, k4, k5, k6⟩ := one_user abs_empty sadd_typable (.int (by omega) (by omega)) g1 g2 g3
  refine hc _ _ State.empty tr tr' s s' b!"l" b!"m" 7 7 0 0 h1 h2 h3 h4 h5 (by rw [h6]; exact begins_empty) (by rw [h6]; exact k1) (fun objs ho hw => ?_) rfl rfl
    ⟨l, by rw [h8]; rfl, ⟨_, h9, sadd_means⟩, by rw [h10]; rfl⟩ ⟨l', by rw [k4]; rfl, ⟨_, k5, sadd_means⟩, by rw [k6]; rfl⟩
  rcases ho with ho | ho
  · rw [ran_one (by rw [← h7, (C86_parts h1).2.2]; rfl) ho]
    exact ⟨_, sadd_means⟩
  · rw [ran_one (by rw [← g2, ← k2, (C86_parts k1).2.2]; rfl) ho]
    exact ⟨_, sadd_means⟩

end Verif.Props
