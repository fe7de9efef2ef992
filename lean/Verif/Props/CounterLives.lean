import Verif.Spec.CounterLives
import Verif.Props.Counter
import Verif.Props.RecipeLives

/-! # C98 – a key that is only added to and subtracted from, over restarts -/

namespace Verif.Props

open Spec
open Fut (upd)

variable {m : Bool} {ω : Nat → Nat} {U : Nat → Bool} {d : Bytes} {st : State}

/-- A key that is only ever set to the same. -/
theorem always_set {a a' : DB} {qs : List (List Resp)} {rs : List Resp} {k t : Bytes} (ht : Trace a qs rs a') (hk : ∀ q ∈ qs, Writes .str q k → Means q (.set k t))
    (h : a.strs k = some t ∨ ∃ q ∈ qs, Means q (.set k t)) : a'.strs k = some t := by
  induction qs generalizing a rs with
  | nil =>
    cases ht
    rcases h with h | ⟨q, h, -⟩
    · exact h
    · cases h
  | cons q qs ih =>
    obtain ⟨a1, r, rs, rfl, t1, f1, -, -, h4⟩ := trace_first ht
    have hk' := fun q hq => hk q (List.mem_cons_of_mem _ hq)
    have now : Means q (.set k t) → a1.strs k = some t := fun hm => by
      rcases h4 _ hm with g | ⟨e, t, g, rfl⟩ <;> cases g
      simp [DB.setStr]
    by_cases hw : Writes .str q k
    · exact ih t1 hk' (.inl (now (hk q (by simp) hw)))
    · rcases h with h | ⟨q', hq', h⟩
      · exact ih t1 hk' (.inl ((f1 k hw).trans h))
      · rcases List.mem_cons.1 hq' with rfl | hq'
        · exact ih t1 hk' (.inl (now h))
        · exact ih t1 hk' (.inr ⟨q', hq', h⟩)

/-- C98 (counter), for such processes: if somebody sets a key to a number, and later processes do nothing but INCR, INCRBY, DECR and DECRBY to write it, then no amount is lost and
none counted twice over all processes, and the next process begins with the number and all amounts. What is missing is refuted by `C98_counter_false`. -/
theorem C98_counter_partial {pre trs : List (List Site.Ev)} {d : Bytes} (hl : SiteLives m U (pre ++ trs) d) (hq : ∀ tr ∈ pre ++ trs, Plainly (wholeOf (fullOf (procOf tr))))
    (hz : ∀ tr ∈ pre ++ trs, ∀ x ∈ doneIn (seenOver (procOf tr)), Sized x.2.2) {k t : Bytes} {v : Int} (hi : IsInt t v)
    {n c i : Nat} {r : Resp} (hu : U c = true) (hs : GotIn pre n c i (.set k t) r)
    (hp : ∀ tr ∈ pre, ∀ objs, Ran (deskOf tr) objs → Writes .str objs k → Means objs (.set k t))
    (hk : ∀ tr ∈ trs, ∀ objs, Ran (deskOf tr) objs → Writes .str objs k → ∃ arg, Means objs (.incr k arg) ∨ Means objs (.decr k arg))
    {envs : Nat → Env} (hfair : ∀ i, (envs i).ord.Fair) :
    ∃ ds seen a dbs, CounterIn U trs k v ds seen ∧ (∀ e ∈ ds, ∃ tr ∈ trs, ∃ objs x, Ran (deskOf tr) objs ∧ Means objs x ∧ AddsTo k x e) ∧
      fromFile noDBs envs d = .ok dbs ∧ Abs (dbs 1) a ∧ ∃ t' w, a.strs k = some t' ∧ IsInt t' w ∧ Wraps (v + ds.sum) w := by
  obtain ⟨segs, a, dbs, h1, h2, h3, h4⟩ := lives_record hl hq hz hfair
  obtain ⟨s1, s2, k1, k2, rfl⟩ : ∃ s1 s2, List.Forall₂ (Segment U) pre s1 ∧ List.Forall₂ (Segment U) trs s2 ∧ segs = s1 ++ s2 := by
    exact ⟨_, _, by simpa using List.forall₂_take pre.length h1, by simpa using List.forall₂_drop pre.length h1, (List.take_append_drop pre.length segs).symm⟩
  obtain ⟨l1, place1, hj1⟩ := joined k1
  obtain ⟨l2, place, hj⟩ := joined k2
  rw [List.flatMap_append, List.flatMap_append] at h2
  obtain ⟨a1, g1, h2⟩ := trace_parts h2 l1
  have hset : a1.strs k = some t := always_set g1 (fun q hq hw => by
    obtain ⟨tr, ht, hr⟩ := hj1.ran q hq
    exact hp tr ht q hr hw) (.inr (by
    obtain ⟨q, e1, e2, -⟩ := hj1.each hu hs
    exact ⟨q, List.mem_of_getElem? e1, e2⟩))
  obtain ⟨ds, seen, hc, he⟩ := counts h2 (fun q hq hw => by
    obtain ⟨tr, ht, hr⟩ := hj.ran q hq
    exact hk tr ht q hr hw) hset hi (v := v) ⟨hi.2, 0, by omega⟩
  have lt : ∀ {n c i x r}, U c = true → GotIn trs n c i x r → place n c i < (s2.flatMap (·.1)).length := fun hu hg => by
    obtain ⟨q, g, -⟩ := hj.each hu hg
    exact (List.getElem?_eq_some_iff.1 g).1
  refine ⟨ds, fun n c i => seen (place n c i), a, dbs, ?_, fun e he => ?_, h3, h4, he⟩
  · refine ⟨fun n c i x r hu hg => hc.within _ (lt hu hg), fun n c i x e r hu hg hx => hc.adds _ x e r (hj.each hu hg) hx, fun n c i r hu hg => hc.reads _ r (hj.each hu hg),
      fun n n' c c' i j x x' e e' r r' hu hu' hg hx hg' hx' heq => ?_,
      fun n n' c c' i j x x' r r' hu hu' hg hg' he => hc.ordered _ _ (hj.inTime hu hu' hg hg' he) (lt hu' hg'),
      fun n n' c c' i j x x' e r r' hu hu' hg hg' hx' he => hc.anew _ _ x' e r' (hj.inTime hu hu' hg hg' he) (hj.each hu' hg') hx'⟩
    refine hj.distinct hu hu' hg hg' ?_
    rcases Nat.lt_trichotomy (place n c i) (place n' c' j) with hlt | e | hlt
    · have := hc.anew _ _ x' e' r' hlt (hj.each hu' hg') hx'
      omega
    · exact e
    · have := hc.anew _ _ x e r hlt (hj.each hu hg) hx
      omega
  · obtain ⟨q, g1, x, g2, g3⟩ := hc.made e he
    obtain ⟨tr, ht, hr⟩ := hj.ran q g1
    exact ⟨tr, ht, q, x, hr, g2, g3⟩

theorem setn_means : Means (req [b!"set", b!"n", b!"5"]) (.set b!"n" b!"5") := command_means rfl

/-- Somebody sets a key to 5; then the process is stopped and started twice, and somebody adds 3 and then takes away 4: they see 8 and 4. -/
example : ∃ tr0 tr1 tr2 d, SiteLives true (· == 7) ([tr0] ++ [tr1, tr2]) d ∧ (∀ tr ∈ [tr0] ++ [tr1, tr2], Plainly (wholeOf (fullOf (procOf tr)))) ∧
    (∀ tr ∈ [tr0] ++ [tr1, tr2], ∀ x ∈ doneIn (seenOver (procOf tr)), Sized x.2.2) ∧ IsInt b!"5" 5 ∧ GotIn [tr0] 0 7 0 (.set b!"n" b!"5") okReply ∧
    (∀ tr ∈ [tr0], ∀ objs, Ran (deskOf tr) objs → Writes .str objs b!"n" → Means objs (.set b!"n" b!"5")) ∧
    (∀ tr ∈ [tr1, tr2], ∀ objs, Ran (deskOf tr) objs → Writes .str objs b!"n" → ∃ arg, Means objs (.incr b!"n" arg) ∨ Means objs (.decr b!"n" arg)) ∧
    GotIn [tr1, tr2] 0 7 0 (.incr b!"n" b!"3") (.int 8) ∧ GotIn [tr1, tr2] 1 7 0 (.decr b!"n" b!"4") (.int 4) := by
  obtain ⟨tr0, d0, h0⟩ := oneEach_nil.next begins_empty abs_empty (ws := [b!"set", b!"n", b!"5"]) rfl setn_parses setn_typable .simple (by decide)
    ⟨sent_occurs, sent_is (by decide), sent_is (by decide), sent_text⟩
  obtain ⟨st0, a0, b0, m0, t0⟩ := h0.begins
  obtain ⟨a0', rs0, -, v0, t0⟩ := setn_trace t0
  cases t0
  obtain ⟨st0', a1, n1, e1, -⟩ := count_one m0 incrby_means (f := (· + ·)) (fun _ h => h) v0 isInt_five isInt_three (by decide)
  obtain ⟨tr1, d1, h1⟩ := h0.next b0 m0 e1 incrby_parses incrby_typable (.int (by omega) (by omega)) (by decide) ⟨sent_occurs, sent_is (by decide), sent_is (by decide), sent_text⟩
  obtain ⟨st1, a2, b1, m1, t1⟩ := h1.begins
  obtain ⟨a1', rs1, e2, v1, t1⟩ := setn_trace t1
  obtain ⟨a1'', r, rs2, rfl, t2, -, -, -, g⟩ := trace_first t1
  cases t2
  obtain ⟨s', w2, w3⟩ : ∃ s', a2.strs b!"n" = some s' ∧ IsInt s' (5 + 3) := by
    rcases g _ incrby_means with y | ⟨e, t, y, -⟩ <;> rcases add_step v1 isInt_five y with ⟨d', n, s, j1, j2, j3, j4⟩ | ⟨j1, e, j2⟩
    · cases isInt_unique isInt_three j1
      cases j4
      cases wraps_exact j2 (by decide)
      exact ⟨s, by simp [DB.setStr], j3⟩
    · exact absurd ⟨_, isInt_three⟩ j1
    · cases j4
    · exact absurd ⟨_, isInt_three⟩ j1
  obtain ⟨st1', a3, n3, e3, -⟩ := count_one m1 decrby_means (f := (· - ·)) (fun _ h => h) w2 w3 isInt_four (by decide)
  obtain ⟨tr2, d2, h2⟩ := h1.next b1 m1 e3 decrby_parses decrby_typable (.int (by omega) (by omega)) (by decide) ⟨sent_occurs, sent_is (by decide), sent_is (by decide), sent_text⟩
  have g0 := h2.got (n := 0) (ws := [b!"set", b!"n", b!"5"]) (r := okReply) rfl setn_means
  have g1 := h2.got (n := 1) (ws := [b!"incrby", b!"n", b!"3"]) (r := .int 8) rfl incrby_means
  have g2 := h2.got (n := 2) (ws := [b!"decrby", b!"n", b!"4"]) (r := .int 4) rfl decrby_means
  have h := h2.each
  cases h with
  | cons k0 h =>
    cases h with
    | cons k1 h =>
      cases h with
      | cons k2 h =>
        refine ⟨tr0, tr1, tr2, d2, h2.lives, h2.plain, h2.sized, isInt_five, g0, fun tr ht objs hr _ => ?_, fun tr ht objs hr _ => ?_, g1, g2⟩
        · simp only [List.mem_cons, List.not_mem_nil, or_false] at ht
          subst ht
          rw [ran_one (k0.2.1.trans k0.1) hr]
          exact setn_means
        · simp only [List.mem_cons, List.not_mem_nil, or_false] at ht
          rcases ht with rfl | rfl
          · rw [ran_one (k1.2.1.trans k1.1) hr]
            exact ⟨_, .inl incrby_means⟩
          · rw [ran_one (k2.2.1.trans k2.1) hr]
            exact ⟨_, .inr decrby_means⟩

/-- The full claim about counters: a process exits when no writer waits and nothing has failed at the file, the next begins with the file, and in both nothing but adding is done to
a key, once each; then the second line answers what the first has answered and its own amount. -/
def CounterLasts : Prop := ∀ (ω : Nat → Nat) (U : Nat → Bool) (d : Bytes) (st st' : State) (tr tr' : List Site.Ev) (s s' : Site.Sys) (k : Bytes) (c c' i j : Nat)
    (x x' : Command) (e e' v v' : Int),
  Begins d st → Exec (Site.Step true ω U) (Site.new d st) tr s → s.proc.stop.exited = true → s.proc.full.whole.begun = none → s.proc.full.whole.pending = [] →
  s.proc.full.whole.file.failed = false → Begins s.proc.full.whole.file.disk st' → Exec (Site.Step true ω U) (Site.new s.proc.full.whole.file.disk st') tr' s' →
  (∀ objs, Ran (deskOf tr) objs → Means objs x) → (∀ objs, Ran (deskOf tr') objs → Means objs x') → AddsTo k x e → AddsTo k x' e' →
  (doneIn (seenOver (procOf tr))).length = 1 → (doneIn (seenOver (procOf tr'))).length = 1 → U c = true → U c' = true →
  Got (deskOf tr) c i x (.int v) → Got (deskOf tr') c' j x' (.int v') → Wraps (v + e') v'

/-- C98 (counter): it is not so. -/
theorem C98_counter_false : ¬ CounterLasts := by
  intro hc
  obtain ⟨dbs, a, h1, h2, h3, -⟩ := C33_rebuilds_partial [sent [b!"set", b!"n", b!"5"]] _ _ (fun q hq => by
    rw [List.mem_singleton.1 hq]; exact ⟨sent_occurs, sent_is (by decide), sent_is (by decide), sent_text⟩) rfl (fun _ => env0) fun _ => env0_fair
  have hv : a.strs b!"n" = some b!"5" := by rw [abs_unique h2 five_abs]; simp [DB.setStr]
  obtain ⟨st1, a1, s1, h4, -⟩ := count_one h3 incrby_means (f := (· + ·)) (fun _ h => h) hv isInt_five isInt_three (by decide)
  obtain ⟨tr, s, g1, g2, g3, g4, g5, g6, g7, g8, g9, g10⟩ := exits_twice h3 ⟨_, _, fun _ => env0_fair, h1, rfl⟩ incrby_parses h4 incrby_typable (.int (by omega) (by omega)) rfl
    (by decide +kernel) (by decide +kernel) incrby_means
  have a3 : AddsTo b!"n" (.incr b!"n" b!"3") 3 := ⟨_, 3, isInt_three, .inl ⟨rfl, rfl⟩⟩
  have mean : ∀ objs, Ran (deskOf tr) objs → Means objs (.incr b!"n" b!"3") := fun objs ho => by rw [g8 objs ho]; exact incrby_means
  obtain ⟨-, q, e⟩ := hc _ _ _ _ _ tr tr s s b!"n" 7 7 0 0 _ _ 3 3 _ _ ⟨_, _, fun _ => env0_fair, h1, rfl⟩ g1 g2 g3 g4 g5 g6 g7 mean mean a3 a3 g9 g9 rfl rfl g10 g10
  omega

end Verif.Props
