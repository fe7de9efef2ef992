import Verif.Spec.RowLives
import Verif.Props.Row
import Verif.Props.RecipeLives

/-! # C98 – keys that are only written together, over restarts -/

namespace Verif.Props

open Spec
open Fut (upd)

variable {m : Bool} {ω : Nat → Nat} {U : Nat → Bool} {d : Bytes} {st : State}

/-- C98 (rows), for such processes: if nothing but one MSET of all of them ever writes any of some keys, they have one row of values after the other over all processes, first none;
every MGET and GET shows one of them, every MSET makes one, in the order in which the users see replies and type lines, and the next process begins with the last. What is missing
is refuted by `C98_rows_false`. -/
theorem C98_rows_partial {trs : List (List Site.Ev)} {d : Bytes} (hl : SiteLives m U trs d) (hq : ∀ tr ∈ trs, Plainly (wholeOf (fullOf (procOf tr))))
    (hz : ∀ tr ∈ trs, ∀ x ∈ doneIn (seenOver (procOf tr)), Sized x.2.2) {ks : List Bytes} (hnd : ks.Nodup) (hne : ks ≠ [])
    (hk : ∀ tr ∈ trs, ∀ objs, Ran (deskOf tr) objs → ∀ k ∈ ks, Writes .str objs k → ∃ vs, Means objs (.mset ks vs))
    {envs : Nat → Env} (hfair : ∀ i, (envs i).ord.Fair) :
    ∃ rows ver a dbs, RowsIn U trs ks rows ver ∧ (∃ w, rows[0]? = some w ∧ ∀ k ∈ ks, w k = none) ∧
      (∀ n w, rows[n + 1]? = some w → ∃ tr ∈ trs, ∃ objs vs, Ran (deskOf tr) objs ∧ ks.map w = vs.map some ∧ Means objs (.mset ks vs)) ∧
      fromFile noDBs envs d = .ok dbs ∧ Abs (dbs 1) a ∧ ∃ w, rows.getLast? = some w ∧ ks.map w = ks.map a.strs := by
  obtain ⟨segs, a, dbs, h1, h2, h3, h4⟩ := lives_record hl hq hz hfair
  obtain ⟨hlen, place, hj⟩ := joined h1
  obtain ⟨rows, ver, hv⟩ := changes h2 hnd hne fun q hq k hk' hw => by
    obtain ⟨tr, ht, hr⟩ := hj.ran q hq
    exact hk tr ht q hr k hk' hw
  obtain ⟨w0, b1, b2⟩ := hv.begins
  obtain ⟨w1, b3, b4⟩ := hv.ends
  refine ⟨rows, fun n c i => ver (place n c i), a, dbs, ?_, ⟨w0, b1, fun k hk' => (b2 k hk').trans rfl⟩, fun n v hn => ?_, h3, h4, ⟨w1, b3, List.map_congr_left b4⟩⟩
  · refine ⟨fun n c i ks' r hu hk' hg => hv.reads _ ks' r hk' (hj.each hu hg), fun n c i k r hu hk' hg => hv.looks _ k r hk' (hj.each hu hg),
      fun n c i v r hu hg => hv.writes _ v r (hj.each hu hg),
      fun n n' c c' i j v w r r' hu hu' hg hg' he => ?_, fun n n' c c' i j x x' r r' hu hu' hg hg' he => ?_, fun n n' c c' i j x v r r' hu hu' hg hg' he => ?_⟩
    · refine hj.distinct hu hu' hg hg' ?_
      rcases Nat.lt_trichotomy (place n c i) (place n' c' j) with hlt | e | hlt
      · have := hv.anew _ _ w r' hlt (hj.each hu' hg')
        omega
      · exact e
      · have := hv.anew _ _ v r hlt (hj.each hu hg)
        omega
    · obtain ⟨q, g, -⟩ := hj.each hu' hg'
      exact hv.ordered _ _ (hj.inTime hu hu' hg hg' he) (List.getElem?_eq_some_iff.1 g).1
    · exact hv.anew _ _ v r' (hj.inTime hu hu' hg hg' he) (hj.each hu' hg')
  · obtain ⟨q, g1, w, g2, g3⟩ := hv.made n v hn
    obtain ⟨tr, ht, hr⟩ := hj.ran q g1
    exact ⟨tr, ht, q, w, hr, g2, g3⟩

/-- What the keys have after they were set. -/
theorem mset_trace {a : DB} {rs : List Resp} (h : Trace DB.empty [req [b!"mset", b!"a", b!"1", b!"b", b!"1"]] rs a) :
    [b!"a", b!"b"].map a.strs = [some b!"1", some b!"1"] := by
  obtain ⟨a1, r, rs', rfl, h1, -, -, -, h2⟩ := trace_first h
  cases h1
  rcases h2 _ mset_means with h3 | ⟨e, t, h3, -⟩
  · simp only [Step, if_neg (by simp : [b!"a", b!"b"] ≠ [])] at h3
    cases h3
    exact setRow (ks := [b!"a", b!"b"]) (vs := [b!"1", b!"1"]) (by decide) rfl
  · simp only [Step, if_neg (by simp : [b!"a", b!"b"] ≠ [])] at h3
    cases h3

theorem mget_one {st : State} {a : DB} (h : Abs st a) : ∃ st1, handle env0 st (req [b!"mget", b!"a", b!"b"]) = .ok (st1, .array (([b!"a", b!"b"].map a.strs).map bulk?)) := by
  obtain ⟨out, h1, h2⟩ := handle_refines h env0_fair mget_means
  cases h1
  obtain ⟨st1, h3, -⟩ := h2
  exact ⟨st1, h3⟩

/-- A user sets two keys in one process, and reads them in the next. -/
example : ∃ tr0 tr1 d, SiteLives true (· == 7) [tr0, tr1] d ∧ (∀ tr ∈ [tr0, tr1], Plainly (wholeOf (fullOf (procOf tr)))) ∧
    (∀ tr ∈ [tr0, tr1], ∀ x ∈ doneIn (seenOver (procOf tr)), Sized x.2.2) ∧
    (∀ tr ∈ [tr0, tr1], ∀ objs, Ran (deskOf tr) objs → ∀ k ∈ [b!"a", b!"b"], Writes .str objs k → ∃ vs, Means objs (.mset [b!"a", b!"b"] vs)) ∧
    GotIn [tr0, tr1] 0 7 0 (.mset [b!"a", b!"b"] [b!"1", b!"1"]) okReply ∧ GotIn [tr0, tr1] 1 7 0 (.mget [b!"a", b!"b"]) (.array [.bulk b!"1", .bulk b!"1"]) := by
  obtain ⟨tr0, d0, h0⟩ := oneEach_nil.next begins_empty abs_empty (ws := [b!"mset", b!"a", b!"1", b!"b", b!"1"]) (r := okReply) rfl mset_parses mset_typable .simple (by decide)
    ⟨sent_occurs, sent_is (by decide), sent_is (by decide), sent_text⟩
  obtain ⟨st0, a0, b0, m0, t0⟩ := h0.begins
  obtain ⟨st1, e1⟩ := mget_one m0
  rw [mset_trace t0] at e1
  obtain ⟨tr1, d1, h1⟩ := h0.next b0 m0 (r := .array [.bulk b!"1", .bulk b!"1"]) e1 mget_parses mget_typable (.array (by simp) (by simp; exact .bulk (by simp))) (by decide)
    ⟨sent_occurs, sent_is (by decide), sent_is (by decide), sent_text⟩
  refine ⟨tr0, tr1, d1, h1.lives, h1.plain, h1.sized, fun tr ht objs hr k _ hw => ?_, ?_, ?_⟩
  · obtain ⟨x, hx, rfl⟩ := h1.ran ht hr
    simp only [List.nil_append, List.cons_append, List.mem_cons, List.not_mem_nil, or_false] at hx
    rcases hx with rfl | rfl
    · exact ⟨_, mset_means⟩
    · exact absurd hw (only_reads (by decide) (by decide))
  · exact h1.got (n := 0) (ws := [b!"mset", b!"a", b!"1", b!"b", b!"1"]) (r := okReply) rfl mset_means
  · exact h1.got (n := 1) (ws := [b!"mget", b!"a", b!"b"]) (r := .array [.bulk b!"1", .bulk b!"1"]) rfl mget_means

/-- The full claim about rows: a process exits when no writer waits and nothing has failed at the file, the next begins with the file, and in both nothing but MSET of all of them to
the same values is done to write some keys; then who reads them in the second, after somebody in the first was told `OK`, sees these values. -/
def RowsLast : Prop := ∀ (ω : Nat → Nat) (U : Nat → Bool) (st' : State) (tr tr' : List Site.Ev) (s s' : Site.Sys) (ks vs : List Bytes) (c c' i j : Nat) (r : Resp),
  Exec (Site.Step true ω U) (Site.new [] State.empty) tr s → s.proc.stop.exited = true → s.proc.full.whole.begun = none →
  s.proc.full.whole.pending = [] → s.proc.full.whole.file.failed = false → Begins s.proc.full.whole.file.disk st' →
  Exec (Site.Step true ω U) (Site.new s.proc.full.whole.file.disk st') tr' s' → ks.Nodup → ks ≠ [] →
  (∀ objs, Ran (deskOf tr) objs ∨ Ran (deskOf tr') objs → ∀ k ∈ ks, Writes .str objs k → Means objs (.mset ks vs)) → U c = true → U c' = true →
  Got (deskOf tr) c i (.mset ks vs) okReply → Got (deskOf tr') c' j (.mget ks) r → r = .array (vs.map .bulk)

/-- C98 (rows): it is not so. -/
theorem C98_rows_false : ¬ RowsLast := by
  intro hc
  obtain ⟨tr, s, l, h1, h2, h3, h4, h5, h6, h7, h8, h9, h10⟩ := exits_unwritten (d := []) abs_empty mset_parses (r := okReply) rfl mset_typable .simple rfl
    (by decide +kernel) (by decide +kernel)
  obtain ⟨ptr, p, g1, g2, -, -, -, -, -, -, -, -, -, -, -, g3⟩ := one_proc (m := true) (ω := fun _ => 100000) (d := []) (st := State.empty) (ws := [b!"mget", b!"a", b!"b"])
    (r := .array [.nullBulk, .nullBulk]) mget_parses rfl
  obtain ⟨tr', s', l', k1, k2, -, -, k4, k5, k6⟩ := one_user abs_empty mget_typable (.array (by simp) (by simp; exact .nullBulk)) g1 g2 g3
  have := hc _ _ State.empty tr tr' s s' [b!"a", b!"b"] [b!"1", b!"1"] 7 7 0 0 (.array [.nullBulk, .nullBulk]) h1 h2 h3 h4 h5 (by rw [h6]; exact begins_empty)
    (by rw [h6]; exact k1) (by decide) (by simp) (fun objs ho k _ hw => ?_) rfl rfl
    ⟨l, by rw [h8]; rfl, ⟨_, h9, mset_means⟩, by rw [h10]; rfl⟩ ⟨l', by rw [k4]; rfl, ⟨_, k5, mget_means⟩, by rw [k6]; rfl⟩
  · simp at this
  · rcases ho with ho | ho
    · rw [ran_one (by rw [← h7, (C86_parts h1).2.2]; rfl) ho]
      exact mset_means
    · rw [ran_one (by rw [← g2, ← k2, (C86_parts k1).2.2]; rfl) ho] at hw
      exact absurd hw (only_reads (by decide) (by decide))

end Verif.Props
