import Verif.Spec.RegisterLives
import Verif.Props.Register
import Verif.Props.RecipeLives

/-! # C98 – a key read with GET and written with SET, over restarts -/

namespace Verif.Props

open Spec
open Fut (upd)

variable {m : Bool} {ω : Nat → Nat} {U : Nat → Bool} {d : Bytes} {st : State}

/-- C98 (values), for such processes: if nothing but SET is ever done to write a key, it has one value after the other over all processes, first none; every GET shows one
of them, every SET makes one, in the order in which the users see replies and type lines, and the next process begins with the last. What is missing is refuted by
`C98_register_false`. -/
theorem C98_register_partial {trs : List (List Site.Ev)} {d : Bytes} (hl : SiteLives m U trs d) (hq : ∀ tr ∈ trs, Plainly (wholeOf (fullOf (procOf tr))))
    (hz : ∀ tr ∈ trs, ∀ x ∈ doneIn (seenOver (procOf tr)), Sized x.2.2) {k : Bytes}
    (hk : ∀ tr ∈ trs, ∀ objs, Ran (deskOf tr) objs → Writes .str objs k → ∃ v, Means objs (.set k v))
    {envs : Nat → Env} (hfair : ∀ i, (envs i).ord.Fair) :
    ∃ vals ver a dbs, RegisterIn U trs k vals ver ∧ vals[0]? = some none ∧
      (∀ n v, vals[n + 1]? = some v → ∃ tr ∈ trs, ∃ objs w, Ran (deskOf tr) objs ∧ v = some w ∧ Means objs (.set k w)) ∧
      fromFile noDBs envs d = .ok dbs ∧ Abs (dbs 1) a ∧ vals.getLast? = some (a.strs k) := by
  obtain ⟨segs, a, dbs, h1, h2, h3, h4⟩ := lives_record hl hq hz hfair
  obtain ⟨hlen, place, hj⟩ := joined h1
  obtain ⟨vals, ver, hv⟩ := versions h2 fun q hq hw => by
    obtain ⟨tr, ht, hr⟩ := hj.ran q hq
    exact hk tr ht q hr hw
  refine ⟨vals, fun n c i => ver (place n c i), a, dbs, ?_, hv.begins, fun n v hn => ?_, h3, h4, hv.ends⟩
  · refine ⟨fun n c i r hu hg => hv.reads _ r (hj.each hu hg), fun n c i v r hu hg => hv.writes _ v r (hj.each hu hg),
      fun n n' c c' i j v w r r' hu hu' hg hg' he => ?_, fun n n' c c' i j x x' r r' hu hu' hg hg' he => ?_, fun n n' c c' i j x v r r' hu hu' hg hg' he => ?_⟩
    · refine hj.distinct hu hu' hg hg' ?_
      rcases Nat.lt_trichotomy (place n c i) (place n' c' j) with hlt | e | hlt
      · have := hv.anew _ _ w r' hlt (hj.each hu' hg')
        omega
      · exact e
      · have := hv.anew _ _ v r hlt (hj.each hu hg)
        omega
    · obtain ⟨q, g, -⟩ := hj.each hu' hg'
      exact hv.ordered _ _ (hj.inTime hu hu' hg hg' he) (List.getElem?_eq_some_iff.1 g).1
    · exact hv.anew _ _ v r' (hj.inTime hu hu' hg hg' he) (hj.each hu' hg')
  · obtain ⟨q, g1, w, g2, g3⟩ := hv.made n v hn
    obtain ⟨tr, ht, hr⟩ := hj.ran q g1
    exact ⟨tr, ht, q, w, hr, g2, g3⟩

/-- What the key has after it was set. -/
theorem set6_trace {a : DB} {rs : List Resp} (h : Trace DB.empty [req [b!"set", b!"n", b!"6"]] rs a) : a.strs b!"n" = some b!"6" := by
  obtain ⟨a1, r, rs', rfl, h1, -, -, -, h2⟩ := trace_first h
  cases h1
  rcases h2 _ set6_means with h3 | ⟨e, t, h3, -⟩ <;> cases h3
  simp [DB.setStr]

theorem get_one {st : State} {a : DB} (h : Abs st a) : ∃ st1, handle env0 st (req [b!"get", b!"n"]) = .ok (st1, bulk? (a.strs b!"n")) := by
  obtain ⟨out, h1, h2⟩ := handle_refines h env0_fair getn_means
  cases h1
  obtain ⟨st1, h3, -⟩ := h2
  exact ⟨st1, h3⟩

/-- A user sets a key in one process, and reads it in the next. -/
example : ∃ tr0 tr1 d, SiteLives true (· == 7) [tr0, tr1] d ∧ (∀ tr ∈ [tr0, tr1], Plainly (wholeOf (fullOf (procOf tr)))) ∧
    (∀ tr ∈ [tr0, tr1], ∀ x ∈ doneIn (seenOver (procOf tr)), Sized x.2.2) ∧
    (∀ tr ∈ [tr0, tr1], ∀ objs, Ran (deskOf tr) objs → Writes .str objs b!"n" → ∃ v, Means objs (.set b!"n" v)) ∧
    GotIn [tr0, tr1] 0 7 0 (.set b!"n" b!"6") okReply ∧ GotIn [tr0, tr1] 1 7 0 (.get b!"n") (.bulk b!"6") := by
  obtain ⟨tr0, d0, h0⟩ := oneEach_nil.next begins_empty abs_empty (ws := [b!"set", b!"n", b!"6"]) (r := okReply) rfl set6_parses set6_typable .simple (by decide)
    ⟨sent_occurs, sent_is (by decide), sent_is (by decide), sent_text⟩
  obtain ⟨st0, a0, b0, m0, t0⟩ := h0.begins
  have v0 := set6_trace t0
  obtain ⟨st1, e1⟩ := get_one m0
  rw [v0] at e1
  obtain ⟨tr1, d1, h1⟩ := h0.next b0 m0 e1 getn_parses getn_typable (.bulk (by decide)) (by decide) ⟨sent_occurs, sent_is (by decide), sent_is (by decide), sent_text⟩
  refine ⟨tr0, tr1, d1, h1.lives, h1.plain, h1.sized, fun tr ht objs hr hw => ?_, ?_, ?_⟩
  · obtain ⟨x, hx, rfl⟩ := h1.ran ht hr
    simp only [List.nil_append, List.cons_append, List.mem_cons, List.not_mem_nil, or_false] at hx
    rcases hx with rfl | rfl
    · exact ⟨_, set6_means⟩
    · exact absurd hw getn_reads
  · exact h1.got (n := 0) (ws := [b!"set", b!"n", b!"6"]) (r := okReply) rfl set6_means
  · exact h1.got (n := 1) (ws := [b!"get", b!"n"]) (r := .bulk b!"6") rfl getn_means

/-- The full claim about values: a process exits when no writer waits and nothing has failed at the file, the next begins with the file, and in both nothing but SET to one
value is done to write a key; then who reads it in the second, after somebody in the first was told `OK`, sees that value. -/
def RegisterLasts : Prop := ∀ (ω : Nat → Nat) (U : Nat → Bool) (st' : State) (tr tr' : List Site.Ev) (s s' : Site.Sys) (k v : Bytes) (c c' i j : Nat) (r : Resp),
  Exec (Site.Step true ω U) (Site.new [] State.empty) tr s → s.proc.stop.exited = true → s.proc.full.whole.begun = none →
  s.proc.full.whole.pending = [] → s.proc.full.whole.file.failed = false → Begins s.proc.full.whole.file.disk st' →
  Exec (Site.Step true ω U) (Site.new s.proc.full.whole.file.disk st') tr' s' →
  (∀ objs, Ran (deskOf tr) objs ∨ Ran (deskOf tr') objs → Writes .str objs k → Means objs (.set k v)) → U c = true → U c' = true →
  Got (deskOf tr) c i (.set k v) okReply → Got (deskOf tr') c' j (.get k) r → r = .bulk v

/-- C98 (values): it is not so. -/
theorem C98_register_false : ¬ RegisterLasts := by
  intro hc
  obtain ⟨tr, s, l, h1, h2, h3, h4, h5, h6, h7, h8, h9, h10⟩ := exits_unwritten (d := []) abs_empty set6_parses (r := okReply) rfl set6_typable .simple rfl
    (by decide +kernel) (by decide +kernel)
  obtain ⟨ptr, p, g1, g2, -, -, -, -, -, -, -, -, -, -, -, g3⟩ := one_proc (m := true) (ω := fun _ => 100000) (d := []) (st := State.empty) (ws := [b!"get", b!"n"]) (r := .nullBulk)
    getn_parses rfl
  obtain ⟨tr', s', l', k1, k2, -, -, k4, k5, k6⟩ := one_user abs_empty getn_typable .nullBulk g1 g2 g3
  have := hc _ _ State.empty tr tr' s s' b!"n" b!"6" 7 7 0 0 .nullBulk h1 h2 h3 h4 h5 (by rw [h6]; exact begins_empty) (by rw [h6]; exact k1) (fun objs ho hw => ?_) rfl rfl
    ⟨l, by rw [h8]; rfl, ⟨_, h9, set6_means⟩, by rw [h10]; rfl⟩ ⟨l', by rw [k4]; rfl, ⟨_, k5, getn_means⟩, by rw [k6]; rfl⟩
  · cases this
  · rcases ho with ho | ho
    · rw [ran_one (by rw [← h7, (C86_parts h1).2.2]; rfl) ho]
      exact set6_means
    · rw [ran_one (by rw [← g2, ← k2, (C86_parts k1).2.2]; rfl) ho] at hw
      exact absurd hw getn_reads

end Verif.Props
