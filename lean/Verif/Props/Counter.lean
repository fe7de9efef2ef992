import Verif.Spec.Counter
import Verif.Props.Register

/-! # C102 – a key that is only added to and subtracted from -/

namespace Verif.Props

open Spec
open Fut (upd)

variable {ω : Nat → Nat} {U : Nat → Bool} {d : Bytes} {st : State}

/-! ### The amounts one after the other -/

theorem addsTo_unique {k : Bytes} {x : Command} {d d' : Int} (h : AddsTo k x d) (h' : AddsTo k x d') : d = d' := by
  obtain ⟨arg, n, h1, ⟨rfl, rfl⟩ | ⟨rfl, rfl⟩⟩ := h <;> obtain ⟨arg', n', h1', ⟨e, rfl⟩ | ⟨e, rfl⟩⟩ := h' <;> cases e <;> rw [isInt_unique h1 h1']

open Classical in
/-- How many of the requests add to the key. -/
noncomputable def timesAdded (k : Bytes) (qs : List (List Resp)) (rs : List Resp) : Nat :=
  (qs.zip rs).countP fun y => decide (∃ x d, Means y.1 x ∧ AddsTo k x d)

/-- What becomes of a key that is only added to. -/
structure Counts (k : Bytes) (qs : List (List Resp)) (rs : List Resp) (v : Int) (ds : List Int) (seen : Nat → Nat) : Prop where
  count : ds.length = timesAdded k qs rs
  within : ∀ p, p < qs.length → seen p ≤ ds.length
  adds : ∀ p x d r, Placed qs rs p x r → AddsTo k x d → 0 < seen p ∧ ds[seen p - 1]? = some d ∧ ∃ n, Wraps (v + (ds.take (seen p)).sum) n ∧ r = .int n
  reads : ∀ p r, Placed qs rs p (.get k) r → ∃ t n, Wraps (v + (ds.take (seen p)).sum) n ∧ IsInt t n ∧ r = .bulk t
  ordered : ∀ p p', p < p' → p' < qs.length → seen p ≤ seen p'
  anew : ∀ p p' x d r, p < p' → Placed qs rs p' x r → AddsTo k x d → seen p < seen p'
  made : ∀ d ∈ ds, ∃ q ∈ qs, ∃ x, Means q x ∧ AddsTo k x d

theorem counts_end (k : Bytes) (v : Int) : Counts k [] [] v [] (fun _ => 0) := by
  have none : ∀ {p x r}, ¬ Placed [] [] p x r := by
    rintro p x r ⟨q, h, -⟩
    simp at h
  exact ⟨rfl, fun _ _ => Nat.le_refl _, fun _ _ _ _ h => absurd h none, fun _ _ h => absurd h none, fun _ _ _ h => by simp at h, fun _ _ _ _ _ _ h => absurd h none,
    fun _ h => by simp at h⟩

/-- Something is added. -/
theorem Counts.add {k : Bytes} {q : List Resp} {qs : List (List Resp)} {rs : List Resp} {v d n : Int} {ds : List Int} {seen : Nat → Nat} {x : Command}
    (h : Counts k qs rs (v + d) ds seen) (hq : Means q x) (hx : AddsTo k x d) (hn : Wraps (v + d) n) :
    Counts k (q :: qs) (.int n :: rs) v (d :: ds) (shifted 1 fun p => seen p + 1) := by
  have sums : ∀ m, v + ((d :: ds).take (m + 1)).sum = v + d + (ds.take m).sum := fun m => by
    rw [List.take_succ_cons, List.sum_cons]; omega
  refine ⟨?_, ?_, ?_, ?_, ?_, ?_, ?_⟩
  · have : ∃ x d, Means q x ∧ AddsTo k x d := ⟨x, d, hq, hx⟩
    simp only [timesAdded, List.zip_cons_cons, List.length_cons, h.count]
    rw [List.countP_cons_of_pos (by simpa using this)]
  · intro p hp
    cases p with
    | zero => simp [shifted]
    | succ p =>
      have := h.within p (by simpa using hp)
      simpa [shifted] using this
  · intro p y e r hp hy
    cases p with
    | zero =>
      obtain ⟨h1, rfl⟩ := at_zero hp
      cases means_unique hq h1
      cases addsTo_unique hx hy
      exact ⟨by simp [shifted], by simp [shifted], n, by simpa [shifted] using hn, rfl⟩
    | succ p =>
      obtain ⟨h1, h2, m, h3, h4⟩ := h.adds p y e r (at_succ hp) hy
      refine ⟨by simp [shifted], ?_, m, ?_, h4⟩
      · obtain ⟨t, ht⟩ : ∃ t, seen p = t + 1 := ⟨seen p - 1, by omega⟩
        simpa [shifted, ht] using h2
      · simp only [shifted]
        rw [sums]
        exact h3
  · intro p r hp
    cases p with
    | zero =>
      obtain ⟨arg, e, -, ⟨rfl, -⟩ | ⟨rfl, -⟩⟩ := hx <;> cases means_unique hq (at_zero hp).1
    | succ p =>
      obtain ⟨t, m, h1, h2, h3⟩ := h.reads p r (at_succ hp)
      refine ⟨t, m, ?_, h2, h3⟩
      simp only [shifted]
      rw [sums]
      exact h1
  · intro p p' hlt hp'
    cases p' with
    | zero => omega
    | succ p' =>
      cases p with
      | zero => simp [shifted]
      | succ p =>
        have := h.ordered p p' (by omega) (by simpa using hp')
        simpa [shifted] using this
  · intro p p' y e r hlt hp' hy
    cases p' with
    | zero => omega
    | succ p' =>
      cases p with
      | zero =>
        have := (h.adds p' y e r (at_succ hp') hy).1
        simp only [shifted]
        omega
      | succ p =>
        have := h.anew p p' y e r (by omega) (at_succ hp') hy
        simpa [shifted] using this
  · intro e he
    rcases List.mem_cons.1 he with rfl | he
    · exact ⟨q, by simp, x, hq, hx⟩
    · obtain ⟨q', h1, h2⟩ := h.made e he
      exact ⟨q', by simp [h1], h2⟩

/-- The key stays as it is. -/
theorem Counts.keep {k : Bytes} {q : List Resp} {qs : List (List Resp)} {r : Resp} {rs : List Resp} {v : Int} {ds : List Int} {seen : Nat → Nat}
    (h : Counts k qs rs v ds seen) (hs : ¬ ∃ x d, Means q x ∧ AddsTo k x d) (hg : Means q (.get k) → ∃ t n, Wraps v n ∧ IsInt t n ∧ r = .bulk t) :
    Counts k (q :: qs) (r :: rs) v ds (shifted 0 seen) := by
  refine ⟨?_, ?_, ?_, ?_, ?_, ?_, fun e he => ?_⟩
  · rw [h.count]
    simp only [timesAdded, List.zip_cons_cons]
    rw [List.countP_cons_of_neg (by simpa using hs)]
  · intro p hp
    cases p with
    | zero => simp [shifted]
    | succ p => exact h.within p (by simpa using hp)
  · intro p y e r' hp hy
    cases p with
    | zero => exact absurd ⟨y, e, (at_zero hp).1, hy⟩ hs
    | succ p => exact h.adds p y e r' (at_succ hp) hy
  · intro p r' hp
    cases p with
    | zero =>
      obtain ⟨h1, rfl⟩ := at_zero hp
      obtain ⟨t, n, g1, g2⟩ := hg h1
      exact ⟨t, n, by simpa [shifted] using g1, g2⟩
    | succ p => exact h.reads p r' (at_succ hp)
  · intro p p' hlt hp'
    cases p' with
    | zero => omega
    | succ p' =>
      cases p with
      | zero => simp [shifted]
      | succ p => exact h.ordered p p' (by omega) (by simpa using hp')
  · intro p p' y e r' hlt hp' hy
    cases p' with
    | zero => omega
    | succ p' =>
      cases p with
      | zero => exact (h.adds p' y e r' (at_succ hp') hy).1
      | succ p => exact h.anew p p' y e r' (by omega) (at_succ hp') hy
  · obtain ⟨q', h1, h2⟩ := h.made e he
    exact ⟨q', by simp [h1], h2⟩

/-- What INCR and DECR do. -/
theorem add_step {a : DB} {k arg : Bytes} {f : Int → Int → Int} {out : Out} {old : Bytes} {w : Int} (h1 : a.strs k = some old) (h2 : IsInt old w) (h : AddStep a k arg f out) :
    (∃ d n s, IsInt arg d ∧ Wraps (f w d) n ∧ IsInt s n ∧ out = done (a.setStr k s) (.int n)) ∨ (¬ ∃ d, IsInt arg d) ∧ ∃ e, out = fails a e := by
  rcases h with ⟨old', w', d, n, s, g1, g2, g3, g4, g5, g6⟩ | ⟨g1, msg, g2⟩ | ⟨-, g1, -⟩ | ⟨-, ⟨old', g1, g2⟩, -⟩
  · rw [h1] at g1
    cases g1
    cases isInt_unique h2 g2
    exact .inl ⟨d, n, s, g3, g4, decimal_isInt g5 g4.1, g6⟩
  · exact .inr ⟨g1, _, g2⟩
  · rw [h1] at g1
    cases g1
  · rw [h1] at g1
    cases g1
    exact absurd ⟨_, h2⟩ g2

theorem counts {a a' : DB} {qs : List (List Resp)} {rs : List Resp} {k : Bytes} (ht : Trace a qs rs a')
    (hk : ∀ q ∈ qs, Writes .str q k → ∃ arg, Means q (.incr k arg) ∨ Means q (.decr k arg)) {old : Bytes} {v w : Int} (h1 : a.strs k = some old) (h2 : IsInt old w) (h3 : Wraps v w) :
    ∃ ds seen, Counts k qs rs v ds seen ∧ ∃ t n, a'.strs k = some t ∧ IsInt t n ∧ Wraps (v + ds.sum) n := by
  induction qs generalizing a rs old v w with
  | nil => cases ht; exact ⟨_, _, counts_end k v, old, w, h1, h2, by simpa using h3⟩
  | cons q qs ih =>
    obtain ⟨a1, r, rs, rfl, t1, f1, -, -, h4⟩ := trace_first ht
    have hk' := fun q hq => hk q (List.mem_cons_of_mem _ hq)
    by_cases hs : ∃ x d, Means q x ∧ AddsTo k x d
    · obtain ⟨x, d, hm, hx⟩ := hs
      have hadd : ∃ s n, a1 = a.setStr k s ∧ IsInt s n ∧ Wraps (w + d) n ∧ r = .int n := by
        have ha := hx
        obtain ⟨arg, e, g1, ⟨rfl, rfl⟩ | ⟨rfl, rfl⟩⟩ := ha
        · rcases h4 _ hm with g | ⟨e, t, g, rfl⟩ <;> rcases add_step h1 h2 g with ⟨d', n, s, j1, j2, j3, j4⟩ | ⟨j1, e, j2⟩
          · cases isInt_unique g1 j1
            cases j4
            exact ⟨s, n, rfl, j3, j2, rfl⟩
          · exact absurd ⟨_, g1⟩ j1
          · cases j4
          · exact absurd ⟨_, g1⟩ j1
        · rcases h4 _ hm with g | ⟨e, t, g, rfl⟩ <;> rcases add_step h1 h2 g with ⟨d', n, s, j1, j2, j3, j4⟩ | ⟨j1, e, j2⟩
          · cases isInt_unique g1 j1
            cases j4
            exact ⟨s, n, rfl, j3, by simpa [Int.sub_eq_add_neg] using j2, rfl⟩
          · exact absurd ⟨_, g1⟩ j1
          · cases j4
          · exact absurd ⟨_, g1⟩ j1
      obtain ⟨s, n, rfl, g1, g2, rfl⟩ := hadd
      have g3 := wraps_trans h3 g2
      obtain ⟨ds, seen, hc, t, m, e1, e2, e3⟩ := ih t1 hk' (by simp [DB.setStr]) g1 g3
      exact ⟨_, _, hc.add hm hx g3, t, m, e1, e2, by rw [List.sum_cons, ← Int.add_assoc]; exact e3⟩
    · have same : a1.strs k = a.strs k := by
        by_cases hw : Writes .str q k
        · obtain ⟨arg, hm⟩ := hk q (by simp) hw
          have no : ¬ ∃ d, IsInt arg d := fun ⟨d, hd⟩ => by
            rcases hm with hm | hm
            · exact hs ⟨_, d, hm, arg, d, hd, .inl ⟨rfl, rfl⟩⟩
            · exact hs ⟨_, -d, hm, arg, d, hd, .inr ⟨rfl, rfl⟩⟩
          rcases hm with hm | hm <;> rcases h4 _ hm with g | ⟨e, t, g, rfl⟩ <;> rcases add_step h1 h2 g with ⟨d', n, s, j1, -⟩ | ⟨j1, e, j2⟩ <;>
            first | (cases j2 <;> rfl) | exact absurd ⟨_, j1⟩ no
        · exact f1 k hw
      obtain ⟨ds, seen, hc, e⟩ := ih t1 hk' (same.trans h1) h2 h3
      refine ⟨_, _, hc.keep hs fun hm => ?_, e⟩
      rcases h4 _ hm with g | ⟨e, t, g, rfl⟩ <;> cases g
      exact ⟨old, w, h3, h2, by rw [h1]; rfl⟩

/-! ### What the users see -/

/-- C102: if nothing but INCR, INCRBY, DECR and DECRBY is ever done to write a key that holds a number, no amount is lost and none counted twice: the key holds, in 64 bits, the number
it began with and all amounts of all requests executed; every line finds the amounts counted up to its own or up to when it read, and lines typed after a reply was seen find
all that had been found. -/
theorem C102_counter {a0 : DB} (h0 : Abs st a0) {tr : List Desk.Ev} {s : Desk.Sys} (h : Exec (Desk.Step ω U) (Desk.new d st) tr s)
    (ho : ∀ x ∈ doneIn (seenIn (serverOf tr)), x.2.1.ord.Fair ∧ Sized x.2.2) {k t0 : Bytes} {v : Int}
    (hk : ∀ objs, Ran tr objs → Writes .str objs k → ∃ arg, Means objs (.incr k arg) ∨ Means objs (.decr k arg)) (hv : a0.strs k = some t0) (hi : IsInt t0 v) :
    ∃ ds seen a, Counter U tr k v ds seen ∧ (∀ e ∈ ds, ∃ objs x, Ran tr objs ∧ Means objs x ∧ AddsTo k x e) ∧
      ds.length = (timesRan tr fun objs _ => ∃ x e, Means objs x ∧ AddsTo k x e) ∧
      Abs s.full.whole.hub.db a ∧ ∃ t n, a.strs k = some t ∧ IsInt t n ∧ Wraps (v + ds.sum) n := by
  obtain ⟨nt, hn, -⟩ := (C82_parts (C85_parts h)).2.1
  obtain ⟨qs, a, place, h1, h2, h3, h4, -⟩ := on_record h0 h ho
  obtain ⟨ds, seen, hc, he⟩ := counts h1 (fun q hq => hk q (ran_of h4 q hq)) hv hi (v := v) ⟨hi.2, 0, by omega⟩
  have ats : ∀ {c i x r}, U c = true → Got tr c i x r → Placed qs _ (place c i) x r := fun hu hg => got_at h3 hu hg
  have lt : ∀ {c i}, U c = true → i < (shownTo c tr).length → place c i < qs.length := fun {c i} hu hj => by
    obtain ⟨_, _, -, -, g, -⟩ := h3.each c i _ hu (List.getElem?_eq_getElem hj)
    exact (List.getElem?_eq_some_iff.1 g).1
  refine ⟨ds, fun c i => seen (place c i), a, ?_, fun e he => ?_, by rw [hc.count, timesRan_eq hn h4]; exact List.countP_congr fun _ _ => by simp, h2, he⟩
  · refine ⟨fun c i hu hj => hc.within _ (lt hu hj), fun c i x e r hu hg hx => hc.adds _ x e r (ats hu hg) hx, fun c i r hu hg => hc.reads _ r (ats hu hg),
      fun c c' i j x x' e e' r r' hu hu' hg hx hg' hx' heq => ?_, fun c c' i j hu hu' hj he => ?_, fun c c' i j x e r hu hu' hg hx he => ?_⟩
    · refine h3.distinct c c' i j hu hu' (got_shown hg) (got_shown hg') ?_
      rcases Nat.lt_trichotomy (place c i) (place c' j) with hlt | e | hlt
      · have := hc.anew _ _ x' e' r' hlt (ats hu' hg') hx'
        omega
      · exact e
      · have := hc.anew _ _ x e r hlt (ats hu hg) hx
        omega
    · obtain ⟨before, after, g1, g2, g3⟩ := he
      exact hc.ordered _ _ (h3.inTime before after c c' i j g1 hu hu' g2 g3 hj) (lt hu' hj)
    · exact hc.anew _ _ x e r (got_later h3 hu hu' he hg) (ats hu' hg) hx
  · obtain ⟨q, g1, x, g2, g3⟩ := hc.made e he
    exact ⟨q, x, ran_of h4 q g1, g2, g3⟩

/-- C102: and if the amounts of all INCRs and DECRs cannot take the number out of 64 bits, it is exact: the final number is the first one and the sum of the amounts. -/
theorem C102_exact {a0 : DB} (h0 : Abs st a0) {tr : List Desk.Ev} {s : Desk.Sys} (h : Exec (Desk.Step ω U) (Desk.new d st) tr s)
    (ho : ∀ x ∈ doneIn (seenIn (serverOf tr)), x.2.1.ord.Fair ∧ Sized x.2.2) {k t0 : Bytes} {v : Int}
    (hk : ∀ objs, Ran tr objs → Writes .str objs k → ∃ arg, Means objs (.incr k arg) ∨ Means objs (.decr k arg)) (hv : a0.strs k = some t0) (hi : IsInt t0 v)
    {b : Nat} (hb : ∀ objs x e, Ran tr objs → Means objs x → AddsTo k x e → e.natAbs ≤ b)
    (hl : v.natAbs + b * (timesRan tr fun objs _ => ∃ x e, Means objs x ∧ AddsTo k x e) < 2 ^ 63) :
    ∃ ds seen a t, Counter U tr k v ds seen ∧ Abs s.full.whole.hub.db a ∧ a.strs k = some t ∧ IsInt t (v + ds.sum) ∧
      (∀ c i x e r, U c = true → Got tr c i x r → AddsTo k x e → r = .int (v + (ds.take (seen c i)).sum)) ∧
      ∀ c i r, U c = true → Got tr c i (.get k) r → ∃ t, IsInt t (v + (ds.take (seen c i)).sum) ∧ r = .bulk t := by
  obtain ⟨ds, seen, a, h1, h2, h3, h4, t, n, h5, h6, h7⟩ := C102_counter h0 h ho hk hv hi
  have small : ∀ es : List Int, (∀ e ∈ es, e.natAbs ≤ b) → es.sum.natAbs ≤ b * es.length := by
    intro es he
    induction es with
    | nil => simp
    | cons e es ih =>
      have i1 := ih fun x hx => he x (by simp [hx])
      have i2 := he e (by simp)
      rw [List.sum_cons, List.length_cons, Nat.mul_succ]
      omega
  have bound : ∀ e ∈ ds, e.natAbs ≤ b := fun e he => by
    obtain ⟨objs, x, g1, g2, g3⟩ := h2 e he
    exact hb objs x e g1 g2 g3
  have fits : ∀ m, InInt64 (v + (ds.take m).sum) := fun m => by
    have i1 := small (ds.take m) fun e he => bound e (List.mem_of_mem_take he)
    have i2 : b * (ds.take m).length ≤ b * ds.length := Nat.mul_le_mul_left _ (by simp)
    rw [← h3] at hl
    simp only [InInt64, minInt64, maxInt64]
    omega
  have all := fits ds.length
  rw [List.take_length] at all
  cases wraps_exact h7 all
  refine ⟨ds, seen, a, t, h1, h4, h5, h6, fun c i x e r hu hg hx => ?_, fun c i r hu hg => ?_⟩
  · obtain ⟨-, -, m, g1, g2⟩ := h1.adds c i x e r hu hg hx
    cases wraps_exact g1 (fits _)
    exact g2
  · obtain ⟨t, m, g1, g2, g3⟩ := h1.reads c i r hu hg
    cases wraps_exact g1 (fits _)
    exact ⟨t, g2, g3⟩

/-! ### Example -/

/-- Two users add to a number and subtract from it. -/
abbrev counting : List Script.Line :=
  [(7, [b!"incrby", b!"n", b!"3"], .int 8), (8, [b!"decrby", b!"n", b!"4"], .int 4)]

theorem incrby_typable : Typable (Script.sent [b!"incrby", b!"n", b!"3"]) :=
  typable_words (l := b!"incrby n 3") (by simp [Line]) (fun p h => by
    have := congrArg List.getLast? h
    simp at this) (by simp [Quits]) (.space (w := b!"incrby") (rest := b!"n 3") (by simp [Plain])
      (.space (w := b!"n") (rest := b!"3") (by simp [Plain]) (.last (w := b!"3") (by simp [Plain]))))

theorem decrby_typable : Typable (Script.sent [b!"decrby", b!"n", b!"4"]) :=
  typable_words (l := b!"decrby n 4") (by simp [Line]) (fun p h => by
    have := congrArg List.getLast? h
    simp at this) (by simp [Quits]) (.space (w := b!"decrby") (rest := b!"n 4") (by simp [Plain])
      (.space (w := b!"n") (rest := b!"4") (by simp [Plain]) (.last (w := b!"4") (by simp [Plain]))))

theorem incrby_parses : parse (Script.sent [b!"incrby", b!"n", b!"3"]) = .ok (.array (req [b!"incrby", b!"n", b!"3"])) [] := by rfl
theorem decrby_parses : parse (Script.sent [b!"decrby", b!"n", b!"4"]) = .ok (.array (req [b!"decrby", b!"n", b!"4"])) [] := by rfl

theorem incrby_means : Means (req [b!"incrby", b!"n", b!"3"]) (.incr b!"n" b!"3") := command_means rfl
theorem decrby_means : Means (req [b!"decrby", b!"n", b!"4"]) (.decr b!"n" b!"4") := command_means rfl

theorem isInt_three : IsInt b!"3" 3 := isInt_iff.2 (by decide +kernel)
theorem isInt_four : IsInt b!"4" 4 := isInt_iff.2 (by decide +kernel)

theorem count_one {st : State} {a : DB} (h : Abs st a) {objs : List Resp} {x : Command} {arg : Bytes} {f : Int → Int → Int} (hm : Means objs x) {s : Bytes} {v e : Int}
    (hf : ∀ out, Step a x out → AddStep a b!"n" arg f out) (hs : a.strs b!"n" = some s) (hv : IsInt s v) (he : IsInt arg e) (hb : InInt64 (f v e)) :
    ∃ st1 a1 s', handle env0 st objs = .ok (st1, .int (f v e)) ∧ Abs st1 a1 ∧ a1.strs b!"n" = some s' ∧ IsInt s' (f v e) := by
  obtain ⟨out, h1, h2⟩ := handle_refines h env0_fair hm
  rcases add_step hs hv (hf _ h1) with ⟨e', n, s', g1, g2, g3, rfl⟩ | ⟨g, -⟩
  · cases isInt_unique he g1
    cases wraps_exact g2 hb
    obtain ⟨st1, g4, g5⟩ := h2
    exact ⟨st1, _, s', g4, g5, by simp [DB.setStr], g3⟩
  · exact absurd ⟨_, he⟩ g

theorem counting_plays : Script.Plays five counting := by
  obtain ⟨st1, a1, s1, h1, h2, h3, h4⟩ := count_one five_abs incrby_means (f := (· + ·)) (fun _ h => h) (s := b!"5") (v := 5) (by simp [DB.setStr]) isInt_five isInt_three (by decide)
  obtain ⟨st2, a2, s2, h5, -⟩ := count_one h2 decrby_means (f := (· - ·)) (fun _ h => h) h3 h4 isInt_four (by decide)
  exact .cons rfl h1 incrby_parses incrby_typable (.int (by omega) (by omega)) (.cons rfl h5 decrby_parses decrby_typable (.int (by omega) (by omega)) (.nil _))

/-- The hypotheses of `C102_counter` and `C102_exact` can be met. -/
example : ∃ (tr : List Desk.Ev) (s : Desk.Sys), Exec (Desk.Step ω Script.isUser) (Desk.new d five) tr s ∧
    (∀ x ∈ doneIn (seenIn (serverOf tr)), x.2.1.ord.Fair ∧ Sized x.2.2) ∧
    (∀ objs, Ran tr objs → Writes .str objs b!"n" → ∃ arg, Means objs (.incr b!"n" arg) ∨ Means objs (.decr b!"n" arg)) ∧
    (∀ objs x e, Ran tr objs → Means objs x → AddsTo b!"n" x e → e.natAbs ≤ 4) ∧
    (5 : Int).natAbs + 4 * (timesRan tr fun objs _ => ∃ x e, Means objs x ∧ AddsTo b!"n" x e) < 2 ^ 63 ∧
    Got tr 7 0 (.incr b!"n" b!"3") (.int 8) ∧ Got tr 8 0 (.decr b!"n" b!"4") (.int 4) ∧ AddsTo b!"n" (.incr b!"n" b!"3") 3 ∧ AddsTo b!"n" (.decr b!"n" b!"4") (-4) := by
  obtain ⟨tr, s, h1, h2, h3, h4⟩ := Script.played (ω := ω) (d := d) counting_plays five_abs
  have asked : ∀ objs, Ran tr objs → objs = req [b!"incrby", b!"n", b!"3"] ∨ objs = req [b!"decrby", b!"n", b!"4"] := fun objs ho => by
    obtain ⟨x, h5, rfl⟩ := ran_in_play h2 ho
    simp only [List.mem_cons, List.not_mem_nil, or_false] at h5
    rcases h5 with rfl | rfl
    · exact .inl rfl
    · exact .inr rfl
  have a3 : AddsTo b!"n" (.incr b!"n" b!"3") 3 := ⟨_, 3, isInt_three, .inl ⟨rfl, rfl⟩⟩
  have a4 : AddsTo b!"n" (.decr b!"n" b!"4") (-4) := ⟨_, 4, isInt_four, .inr ⟨rfl, rfl⟩⟩
  refine ⟨tr, s, h1, h3, fun objs ho _ => ?_, fun objs x e ho hm hx => ?_, ?_, got_play (h4 7 rfl).1 (h4 7 rfl).2 (xs := counting) (ws := [b!"incrby", b!"n", b!"3"]) rfl incrby_means,
    got_play (h4 8 rfl).1 (h4 8 rfl).2 (xs := counting) (ws := [b!"decrby", b!"n", b!"4"]) rfl decrby_means, a3, a4⟩
  · rcases asked objs ho with rfl | rfl
    · exact ⟨_, .inl incrby_means⟩
    · exact ⟨_, .inr decrby_means⟩
  · rcases asked objs ho with rfl | rfl
    · cases means_unique hm incrby_means
      cases addsTo_unique hx a3
      decide
    · cases means_unique hm decrby_means
      cases addsTo_unique hx a4
      decide
  · have : (timesRan tr fun objs _ => ∃ x e, Means objs x ∧ AddsTo b!"n" x e) ≤ (doneIn (seenIn (serverOf tr))).length := List.countP_le_length
    rw [h2, show doneIn (Script.whole counting) = doneIn (Script.rounds 0 counting) from rfl, Script.done_rounds] at this
    simp only [List.length_map, show counting.zipIdx.length = 2 from rfl] at this
    show 5 + 4 * _ < 2 ^ 63
    omega

end Verif.Props
