import Verif.Lemmas.SortedSet5
import Mathlib.Tactic.NormNum

/-! # C53 Sorted set contents, C54 Rank and PopMax -/

namespace Verif.Props

open Spec Skip SkipList

theorem zstep_mono {rnd : Rat → F64} {min min' max max' : ZMap → Bytes → Prop} {rk rk' : ZMap → Bytes → Int → Prop} {z z' : ZMap} {op : ZOp}
    {r : ZResult} (h1 : ∀ z e, min z e → min' z e) (h2 : ∀ z e, max z e → max' z e) (h3 : ∀ z e i, rk z e i → rk' z e i)
    (h : ZStep rnd min max rk z op z' r) : ZStep rnd min' max' rk' z op z' r := by
  cases h with
  | addMismatch h => exact .addMismatch h
  | add h => exact .add h
  | del => exact .del
  | score => exact .score
  | increaseByMissing h => exact .increaseByMissing h
  | increaseBy h h' => exact .increaseBy h h'
  | popMinEmpty => exact .popMinEmpty
  | popMin h h' => exact .popMin h (h1 _ _ h')
  | popMaxEmpty => exact .popMaxEmpty
  | popMax h h' => exact .popMax h (h2 _ _ h')
  | rankMissing h => exact .rankMissing h
  | rank h h' => exact .rank h (h3 _ _ _ h')
  | len => exact .len

theorem ztrace_mono {rnd : Rat → F64} {min min' max max' : ZMap → Bytes → Prop} {rk rk' : ZMap → Bytes → Int → Prop}
    (h1 : ∀ z e, min z e → min' z e) (h2 : ∀ z e, max z e → max' z e) (h3 : ∀ z e i, rk z e i → rk' z e i)
    {z z' : ZMap} {h : List (ZOp × ZResult)} (t : ZTrace rnd min max rk z h z') : ZTrace rnd min' max' rk' z h z' := by
  induction t with
  | nil => exact .nil
  | cons hs _ ih => exact .cons (zstep_mono h1 h2 h3 hs) ih

/-- How many entries come before `e`. -/
def RankIs (z : ZMap) (e : Bytes) (r : Int) : Prop :=
  ∃ x, z.lookup e = some x ∧ ∃ S : Finset Bytes, r = S.card ∧
    ∀ e', e' ∈ S ↔ ∃ x', z.lookup e' = some x' ∧ (ScoreLt x' x ∨ x' = x ∧ LexLt e' e)

/-- C53 (contents): whatever the calls and whatever the random levels, the answers of a sorted set, up to a crash if there is one, are those of
a finite map from entries to scores, and afterwards the set stores this map: an `Add` leaves the entries that are already there alone, an
`IncreaseBy` adds to the score, a pop takes out an entry of the map and answers with it. -/
theorem C53_contents (rnd : Rat → F64) (ops : List (ZOp × (Nat → Nat))) (s : SkipList) (h : List (ZOp × ZResult))
    (hr : run rnd SkipList.new ops = .ok (s, h)) :
    h.map Prod.fst = ops.map Prod.fst ∧
    ∃ z, ZTrace rnd (fun _ _ => True) (fun _ _ => True) RankIs ∅ h z ∧ len s = z.keys.card ∧ ∀ e, SkipList.score s (Str.new e) = z.lookup e := by
  obtain ⟨ns, z, h1, h2, h3, h4⟩ := run_spec (nf := False) (ne := False) rnd ops _ [] ∅ s h inv_new sim_new hr (by simp) (by simp)
  refine ⟨h4, z, ztrace_mono (fun _ _ _ => trivial) (fun _ _ _ => trivial) (fun _ _ _ h => h.elim) h3, sim_len h1.rep h2, ?_⟩
  intro e
  unfold SkipList.score
  rw [h2 e, new_data]; cases s.set.get e <;> rfl

/-- C53 (order, partial): if no score is NaN, every entry that `PopMin` answers with has a least score, and every entry that `PopMax` answers
with a greatest. If in addition the empty string is never an entry, `PopMin` takes the first and `PopMax` the last in the order by score,
then by entry. Missing from the full claim: NaN and the empty string (see `C53_nan` and `C53_empty`), and that the calls do not crash. -/
theorem C53_order_partial (rnd : Rat → F64) (ops : List (ZOp × (Nat → Nat))) (s : SkipList) (h : List (ZOp × ZResult))
    (hr : run rnd SkipList.new ops = .ok (s, h)) (hn : NaNFree h) :
    (∃ z, ZTrace rnd LeastScore GreatestScore RankIs ∅ h z) ∧ (NoEmptyEntry h → ∃ z, ZTrace rnd First Last RankIs ∅ h z) := by
  constructor
  · obtain ⟨ns, z, -, -, h3, -⟩ := run_spec (nf := True) (ne := False) rnd ops _ [] ∅ s h inv_new sim_new hr (fun _ => hn) (by simp)
    exact ⟨z, ztrace_mono (fun _ _ h => h.1 trivial) (fun _ _ h => h.1 trivial) (fun _ _ _ h => h.elim) h3⟩
  · intro he
    obtain ⟨ns, z, -, -, h3, -⟩ := run_spec (nf := True) (ne := True) rnd ops _ [] ∅ s h inv_new sim_new hr (fun _ => hn) (fun _ => he)
    exact ⟨z, ztrace_mono (fun _ _ h => h.2 trivial trivial) (fun _ _ h => h.2 trivial trivial) (fun _ _ _ h => h.elim) h3⟩

/-- C53 (termination): every call ends, with an answer or a crash. -/
theorem C53_terminates (rnd : Rat → F64) (ops : List (ZOp × (Nat → Nat))) : run rnd SkipList.new ops ≠ .diverge :=
  run_total rnd ops _ [] ∅ inv_new sim_new

/-- C53 (no crash, partial): as long as nothing is taken out, no call crashes, whatever the random levels; and one pop is then still possible. -/
theorem C53_adds_partial (rnd : Rat → F64) (ops : List (ZOp × (Nat → Nat))) (h : ∀ p ∈ ops, Keeps p.1) (op : ZOp) (draws : Nat → Nat)
    (hop : Keeps op ∨ op = .popMin) : ∃ s h, run rnd SkipList.new (ops ++ [(op, draws)]) = .ok (s, h) := by
  obtain ⟨s, hist, ns, h1, h2, h3, h4⟩ := run_keeps rnd ops _ [] h inv_new clean_new backOk_new
  obtain ⟨s', r, h5⟩ : ∃ s' r, call rnd s op draws = .ok (s', r) := by
    rcases hop with hop | rfl
    · obtain ⟨s', r, -, h5, -⟩ := call_keeps rnd hop draws h2 h3 h4; exact ⟨s', r, h5⟩
    · exact pop_keeps rnd draws h2 h3 h4 (.inl rfl)
  have key : ∀ (ops : List (ZOp × (Nat → Nat))) (s0 : SkipList) hist, run rnd s0 ops = .ok (s, hist) →
      run rnd s0 (ops ++ [(op, draws)]) = .ok (s', hist ++ [(op, r)]) := by
    intro ops
    induction ops with
    | nil => intro s0 hist h; simp [run] at h; obtain ⟨rfl, rfl⟩ := h; simp [run, h5]
    | cons p ops ih =>
      intro s0 hist h
      obtain ⟨o, dr⟩ := p
      simp only [run, List.cons_append] at h ⊢
      cases hc : call rnd s0 o dr with
      | panic => rw [hc] at h; simp at h
      | diverge => rw [hc] at h; simp at h
      | ok q =>
        obtain ⟨s1, r1⟩ := q
        rw [hc] at h
        simp only [Outcome.bind_ok] at h ⊢
        cases hr : run rnd s1 ops with
        | panic => rw [hr] at h; simp at h
        | diverge => rw [hr] at h; simp at h
        | ok q =>
          obtain ⟨s2, hi⟩ := q
          rw [hr] at h; simp at h; obtain ⟨rfl, rfl⟩ := h
          rw [ih s1 hi hr]; simp
  exact ⟨s', _, key ops _ hist h1⟩

/-- C53 (no crash, partial): if all insertions draw the same level, no call but `PopMax` and `Rank` crashes, whatever is taken out. Missing from
the full claim: insertions at different levels (see `C53_false`). -/
theorem C53_one_level_partial (rnd : Rat → F64) (k : Nat) (ops : List (ZOp × (Nat → Nat))) (h : ∀ p ∈ ops, Basic p.1 ∧ ∀ i, p.2 i = k) :
    ∃ s h, run rnd SkipList.new ops = .ok (s, h) :=
  run_flat rnd ops _ [] h inv_new clean_new (flat_new k)

/-- C53 is false of the code: adding an entry at level 1 and a greater one at level 2, then popping the two, crashes, because the first node
is not found by the deletion and stays in the list without its string. -/
theorem C53_false (rnd : Rat → F64) : run rnd SkipList.new
    [(.add [.fin 1, .fin 2] [b!"a", b!"b"], fun i => i), (.popMin, fun _ => 0), (.popMin, fun _ => 0)] = .panic := by rfl

/-- C53, the same after a `Del`: adding an entry with the score of the deleted one crashes. -/
theorem C53_false_add (rnd : Rat → F64) : run rnd SkipList.new
    [(.add [.fin 1, .fin 2] [b!"a", b!"b"], fun i => i), (.del [b!"a"], fun _ => 0), (.add [.fin 1] [b!"c"], fun _ => 0)] = .panic := by rfl

/-- C53, NaN: an entry with the score NaN makes `PopMin` answer with an entry that is not least. -/
theorem C53_nan (rnd : Rat → F64) : ∃ s, run rnd SkipList.new
    [(.add [.fin 1, .nan, .fin 5] [b!"a", b!"n", b!"b"], fun _ => 0), (.popMin, fun _ => 0)] =
      .ok (s, [(.add [.fin 1, .nan, .fin 5] [b!"a", b!"n", b!"b"], .added true), (.popMin, .popped (some b!"b"))]) := ⟨_, rfl⟩

/-- C53, the empty string: it ends up after an entry with the same score that it should precede. -/
theorem C53_empty (rnd : Rat → F64) : ∃ s, run rnd SkipList.new
    [(.add [.fin 1, .fin 1] [b!"", b!"a"], fun _ => 0), (.popMin, fun _ => 0)] =
      .ok (s, [(.add [.fin 1, .fin 1] [b!"", b!"a"], .added true), (.popMin, .popped (some b!"a"))]) := ⟨_, rfl⟩

example : ∃ s, run (fun _ => .fin 2) SkipList.new
    [(.add [.fin 3, .ninf, .fin 9] [b!"b", b!"z", b!"z"], fun i => 1 - i), (.score b!"z", fun _ => 0), (.len, fun _ => 0),
     (.popMin, fun _ => 0)] =
    .ok (s, [(.add [.fin 3, .ninf, .fin 9] [b!"b", b!"z", b!"z"], .added true), (.score b!"z", .score (some .ninf)),
      (.len, .len 2), (.popMin, .popped (some b!"z"))]) := ⟨_, rfl⟩

example : ∃ s, run (fun _ => .fin 2) SkipList.new
    [(.add [.fin 3, .fin 1] [b!"b", b!"a"], fun _ => 0), (.increaseBy b!"a" (.fin 1), fun _ => 0), (.popMin, fun _ => 0)] =
    .ok (s, [(.add [.fin 3, .fin 1] [b!"b", b!"a"], .added true), (.increaseBy b!"a" (.fin 1), .score (some (.fin 2))),
      (.popMin, .popped (some b!"a"))]) := ⟨_, rfl⟩

/-- The sum of two numbers is determined. -/
example : ScoreSum .fin (.fin 1) (.fin 2) (.fin 3) ∧ ¬ ScoreSum .fin (.fin 1) (.fin 2) (.fin 4) := by
  refine ⟨?_, fun h => ?_⟩
  · have := ScoreSum.fin (rnd := .fin) (a := 1) (b := 2)
    rwa [show (1 + 2 : Rat) = 3 by norm_num] at this
  · have hx : ∀ x y z, ScoreSum .fin x y z → x = .fin 1 → y = .fin 2 → z = .fin 3 := by
      intro x y z h hx hy
      cases h <;> simp_all <;> norm_num
    exact absurd (hx _ _ _ h rfl rfl) (by norm_num)

example : Keeps (.add [.nan] [b!""]) ∧ Keeps (.score b!"a") ∧ Basic .popMin ∧ Basic (.del [b!"a"]) := by simp [Keeps, Basic]

example : NaNFree [(.add [.fin 3, .ninf] [b!"b", b!"z"], .added true), (.increaseBy b!"z" .pinf, .score (some (.fin 1)))] ∧
    NoEmptyEntry [(.add [.fin 3, .ninf] [b!"b", b!"z"], .added true), (.increaseBy b!"z" .pinf, .score (some (.fin 1)))] := by
  constructor
  · constructor
    · intro xs es r hm; simp at hm; rw [hm.1.1]; simp
    · intro e i hm; simp at hm
  · intro xs es r hm; simp at hm; rw [hm.1.2]; simp

/-! ## C54 -/

/-- C54 is false of the code: in every state that calls can lead to, `Rank` of an entry that is there crashes. -/
theorem C54_rank_false (rnd : Rat → F64) (ops : List (ZOp × (Nat → Nat))) (s : SkipList) (h : List (ZOp × ZResult))
    (hr : run rnd SkipList.new ops = .ok (s, h)) (e : Bytes) (x : F64) (he : SkipList.score s (Str.new e) = some x) (draws : Nat → Nat) :
    call rnd s (.rank e) draws = .panic := by
  obtain ⟨ns, z, h1, -, -⟩ := run_spec (nf := False) (ne := False) rnd ops _ [] ∅ s h inv_new sim_new hr (by simp) (by simp)
  unfold SkipList.score at he
  rw [new_data] at he
  cases hg : s.set.get e with
  | none => rw [hg] at he; simp at he
  | some a => simp [call, rank_panic h1.rep hg]

/-- C54 (partial): a `PopMax` that does not crash takes out a greatest entry, if no score was NaN; and the last entry in the order by score and
entry, if the empty string was never an entry. Missing from the full claim: that it does not crash. -/
theorem C54_max_partial (rnd : Rat → F64) (ops : List (ZOp × (Nat → Nat))) (s s' : SkipList) (h : List (ZOp × ZResult)) (r : ZResult)
    (draws : Nat → Nat) (hr : run rnd SkipList.new ops = .ok (s, h)) (hn : NaNFree h) (hc : call rnd s .popMax draws = .ok (s', r)) :
    (len s = 0 ∧ r = .popped none) ∨ ∃ e x, r = .popped (some e) ∧ SkipList.score s (Str.new e) = some x ∧ SkipList.score s' (Str.new e) = none ∧
      (∀ e' x', SkipList.score s (Str.new e') = some x' → ¬ ScoreLt x x') ∧
      (∀ e', e' ≠ e → SkipList.score s' (Str.new e') = SkipList.score s (Str.new e')) ∧
      (NoEmptyEntry h → ∀ e' x', SkipList.score s (Str.new e') = some x' → e' ≠ e → ScoreLt x' x ∨ x = x' ∧ LexLt e' e) := by
  obtain ⟨ns, z, h1, h2, -, -⟩ := run_spec (nf := True) (ne := NoEmptyEntry h) rnd ops _ [] ∅ s h inv_new sim_new hr (fun _ => hn) id
  obtain ⟨ns', z', h1', h2', h3⟩ := call_spec rnd h1 h2 hc (fun _ => by simp [NaNFree]) (fun _ => by simp [NoEmptyEntry])
  have hsc : ∀ {z : ZMap} {s : SkipList}, Sim z s → ∀ e, SkipList.score s (Str.new e) = z.lookup e := by
    intro z s h2 e
    unfold SkipList.score
    rw [h2 e, new_data]; cases s.set.get e <;> rfl
  cases h3 with
  | popMaxEmpty => exact .inl ⟨by rw [sim_len h1.rep h2]; rfl, rfl⟩
  | @popMax _ e he hp =>
    right
    obtain ⟨⟨x, p1, p2⟩, p3⟩ := And.intro (hp.1 trivial) (hp.2 trivial)
    refine ⟨e, x, rfl, by rw [hsc h2]; exact p1, by rw [hsc h2', Finmap.lookup_erase], ?_, ?_, ?_⟩
    · intro e' x' he'; rw [hsc h2] at he'; exact p2 e' x' he'
    · intro e' hne; rw [hsc h2, hsc h2', Finmap.lookup_erase_ne hne]
    · intro n e' x' he' hne
      rw [hsc h2] at he'
      obtain ⟨y, q1, q2⟩ := p3 n
      rw [p1] at q1; cases q1
      exact q2 e' x' he' hne

/-- C54 (no crash, partial): as long as nothing has been taken out, `PopMax` does not crash. Missing from the full claim: see `C54_false`. -/
theorem C54_adds_partial (rnd : Rat → F64) (ops : List (ZOp × (Nat → Nat))) (s : SkipList) (h : List (ZOp × ZResult))
    (hk : ∀ p ∈ ops, Keeps p.1) (hr : run rnd SkipList.new ops = .ok (s, h)) (draws : Nat → Nat) :
    ∃ s' r, call rnd s .popMax draws = .ok (s', r) := by
  obtain ⟨s1, hist, ns, h1, h2, h3, h4⟩ := run_keeps rnd ops _ [] hk inv_new clean_new backOk_new
  rw [hr] at h1; cases h1
  exact pop_keeps rnd draws h2 h3 h4 (.inr rfl)

/-- C54 is false of the code: after two additions, the second `PopMax` crashes: the back pointer of the tail is stale. -/
theorem C54_false (rnd : Rat → F64) : run rnd SkipList.new
    [(.add [.fin 1, .fin 2] [b!"a", b!"b"], fun _ => 0), (.popMax, fun _ => 0), (.popMax, fun _ => 0)] = .panic := by rfl

example : ∃ s s', run (fun q => .fin q) SkipList.new [(.add [.fin 1, .fin 2] [b!"a", b!"b"], fun _ => 0)] =
    .ok (s, [(.add [.fin 1, .fin 2] [b!"a", b!"b"], .added true)]) ∧ SkipList.score s (Str.new b!"b") = some (.fin 2) ∧
    call (fun q => .fin q) s .popMax (fun _ => 0) = .ok (s', .popped (some b!"b")) := ⟨_, _, rfl, rfl, rfl⟩

end Verif.Props
