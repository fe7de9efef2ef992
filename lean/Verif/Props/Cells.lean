import Verif.Lemmas.SortedSet7
import Verif.Lemmas.SortedSet5

/-! # C53 The sorted set, crashes included, C54 PopMax -/

namespace Verif.Props

open Spec Skip SkipList

/-- The empty row. -/
def Shelf0 : Shelf := ⟨[], false⟩

/-- C53 (exact): whatever the calls and whatever the random levels, the sorted set answers as the row of cells of `Spec/Cells.lean` does, and it
crashes exactly where that row says. -/
theorem C53_exact (rnd : Rat → F64) (sum : F64 → F64 → F64) (hsum : ∀ x y, ScoreSum rnd x y (sum x y)) (ops : List (ZOp × (Nat → Nat))) :
    (run rnd SkipList.new ops = .panic ↔ Shelf0.run sum ops = none) ∧
    ∀ h, (∃ s, run rnd SkipList.new ops = .ok (s, h)) ↔ ∃ c, Shelf0.run sum ops = some (c, h) := by
  rcases shows_run hsum ops _ _ _ shows_new with ⟨h1, h2⟩ | ⟨s, ns, c, hist, h1, h2, -⟩
  · have h2' : Shelf0.run sum ops = none := h2
    simp [h1, h2']
  · have h2' : Shelf0.run sum ops = some (c, hist) := h2
    refine ⟨by simp [h1, h2'], fun h => ?_⟩
    simp only [h1, h2', Outcome.ok.injEq, Prod.mk.injEq, Option.some.injEq]
    constructor
    · rintro ⟨_, -, rfl⟩; exact ⟨c, rfl, rfl⟩
    · rintro ⟨_, -, rfl⟩; exact ⟨s, rfl, rfl⟩

/-- C53 (which calls crash): after any calls, with `c` the row they lead to, `Del`, `Score` and `Len` never crash; `PopMin` crashes exactly if
there are entries but the first cell has lost its own; `PopMax` exactly if there are entries and its reference is stale; `Rank` exactly on the
entries that are there; adding one entry exactly if the search for its place meets a cell of the same score that has lost its entry. -/
theorem C53_crashes (rnd : Rat → F64) (sum : F64 → F64 → F64) (hsum : ∀ x y, ScoreSum rnd x y (sum x y)) (ops : List (ZOp × (Nat → Nat)))
    (s : SkipList) (c : Shelf) (h : List (ZOp × ZResult)) (hr : run rnd SkipList.new ops = .ok (s, h)) (hc : Shelf0.run sum ops = some (c, h))
    (draws : Nat → Nat) :
    (∀ es, call rnd s (.del es) draws ≠ .panic) ∧ (∀ e, call rnd s (.score e) draws ≠ .panic) ∧ call rnd s .len draws ≠ .panic ∧
    (call rnd s .popMin draws = .panic ↔ (∃ d ∈ c.cells, d.entry ≠ none) ∧ ∃ d, c.cells.head? = some d ∧ d.entry = none) ∧
    (call rnd s .popMax draws = .panic ↔ (∃ d ∈ c.cells, d.entry ≠ none) ∧ c.back = false) ∧
    (∀ e, call rnd s (.rank e) draws = .panic ↔ ∃ d ∈ c.cells, d.entry = some e) ∧
    (∀ x e, call rnd s (.add [x] [e]) draws = .panic ↔ (∀ d ∈ c.cells, d.entry ≠ some e) ∧ seek x e (top c.cells) c.cells = none) := by
  obtain ⟨s', ns, c', hist, h1, h2, hs⟩ : ∃ s' ns c' hist, run rnd SkipList.new ops = .ok (s', hist) ∧ Shelf0.run sum ops = some (c', hist) ∧
      Shows s' ns c' := by
    rcases shows_run hsum ops _ _ _ shows_new with ⟨h1, -⟩ | h
    · rw [hr] at h1; simp at h1
    · exact h
  rw [hr] at h1; cases h1
  rw [hc] at h2; cases h2
  have key : ∀ op, call rnd s op draws = .panic ↔ c.call sum op draws = none := by
    intro op
    rcases shows_call hsum hs op draws with ⟨h1, h2⟩ | ⟨s', ns', c', r, h1, h2, -⟩
    · simp [h1, h2]
    · simp [h1, h2]
  have hsz : c.size = 0 ↔ ¬ ∃ d ∈ c.cells, d.entry ≠ none := by
    unfold Shelf.size
    rw [List.countP_eq_zero]
    constructor
    · rintro h ⟨d, hd, hx⟩
      exact h d hd (by cases hy : d.entry <;> simp_all)
    · intro h d hd hx
      exact h ⟨d, hd, by intro e; rw [e] at hx; simp at hx⟩
  have hsc : ∀ e, (c.score e).isSome = true ↔ ∃ d ∈ c.cells, d.entry = some e := by
    intro e
    unfold Shelf.score
    rw [Option.isSome_map, List.find?_isSome]
    simp
  refine ⟨fun es => by simp [key, Shelf.call], fun e => by simp [key, Shelf.call], by simp [key, Shelf.call], ?_, ?_, ?_, ?_⟩
  · rw [key]
    unfold Shelf.call
    by_cases h0 : c.size = 0
    · simp only [h0, if_true]
      have := hsz.1 h0
      simp only [reduceCtorEq, false_iff]
      exact fun h => this h.1
    · have h0' : ∃ d ∈ c.cells, d.entry ≠ none := by by_contra hx; exact h0 (hsz.2 hx)
      simp only [h0, if_false, Option.map_eq_none_iff]
      constructor
      · intro hx
        refine ⟨h0', ?_⟩
        obtain ⟨d, hd, -⟩ := h0'
        cases e : c.cells with
        | nil => rw [e] at hd; simp at hd
        | cons d' ds => rw [e] at hx; exact ⟨d', rfl, by simpa using hx⟩
      · rintro ⟨-, d, hd, he⟩
        rw [hd]; simpa using he
  · rw [key]
    unfold Shelf.call
    by_cases h0 : c.size = 0
    · simp only [h0, if_true]
      have := hsz.1 h0
      simp only [reduceCtorEq, false_iff]
      exact fun h => this h.1
    · have h0' : ∃ d ∈ c.cells, d.entry ≠ none := by by_contra hx; exact h0 (hsz.2 hx)
      simp only [h0, if_false]
      by_cases hb : c.back = true
      · simp only [hb, if_true, Bool.true_eq_false, and_false, iff_false]
        obtain ⟨p, p1, p2, p3, p4⟩ := hs.prev
        obtain ⟨q1, q2⟩ := p3 (p4.1 hb)
        have hne : ns ≠ [] := by rintro e; have := p4.1 hb; rw [e] at this; simp at this
        obtain ⟨C, a, rfl⟩ := (nil_or_snoc ns).resolve_left hne
        rw [lastOr_concat] at q1; subst q1
        rw [hs.cells]
        simpa [cellOf] using q2
      · simp only [hb, if_false, Bool.false_eq_true, true_iff]
        exact ⟨h0', by simpa using hb⟩
  · intro e
    rw [key, ← hsc]
    unfold Shelf.call
    by_cases hx : (c.score e).isSome = true <;> simp [hx]
  · intro x e
    rw [key]
    have h1 : (∀ d ∈ c.cells, d.entry ≠ some e) ↔ ¬ (c.score e).isSome = true := by
      rw [hsc]; push Not; rfl
    rw [h1]
    have h2 : c.call sum (.add [x] [e]) draws = (c.insert x e (draws 0)).map fun s' => (s', .added true) := by
      simp only [Shelf.call, List.length_singleton, if_true, Shelf.insertAll]
      cases c.insert x e (draws 0) <;> rfl
    rw [h2, Option.map_eq_none_iff]
    unfold Shelf.insert
    by_cases hx : (c.score e).isSome = true
    · simp [hx]
    · simp [hx]

/-- C54 (what the code does instead): `PopMax` does not work twice in a row. After any calls, if a `PopMax` answers with an entry and
leaves others, the next `PopMax` crashes. -/
theorem C54_twice (rnd : Rat → F64) (ops : List (ZOp × (Nat → Nat))) (s s' : SkipList) (h : List (ZOp × ZResult)) (e : Bytes)
    (draws draws' : Nat → Nat) (hr : run rnd SkipList.new ops = .ok (s, h)) (hp : call rnd s .popMax draws = .ok (s', .popped (some e)))
    (hl : len s' ≠ 0) : call rnd s' .popMax draws' = .panic := by
  have hsum : ∀ x y, ScoreSum rnd x y (F64.add rnd x y) := scoreSum_add rnd
  rcases shows_run hsum ops _ _ _ shows_new with ⟨h1, -⟩ | ⟨s1, ns, c, hist, h1, -, hs⟩
  · rw [hr] at h1; simp at h1
  rw [hr] at h1; cases h1
  rcases shows_call hsum hs .popMax draws with ⟨h1, -⟩ | ⟨s2, n2, c2, r, h1, h2, hs2⟩
  · rw [hp] at h1; simp at h1
  rw [hp] at h1; cases h1
  have hc2 : c2.back = false := by
    unfold Shelf.call at h2
    simp only at h2
    by_cases h0 : c.size = 0
    · rw [if_pos h0] at h2; simp at h2
    · rw [if_neg h0] at h2
      by_cases hb : c.back = true
      · rw [if_pos hb] at h2
        obtain ⟨d, hd, hx⟩ := Option.map_eq_some_iff.1 h2
        simp only [Prod.mk.injEq] at hx
        rw [← hx.1]
        simp [Shelf.remove, hd]
      · rw [if_neg hb] at h2; simp at h2
  rcases shows_call hsum hs2 .popMax draws' with ⟨h1, -⟩ | ⟨s3, n3, c3, r, -, h3, -⟩
  · exact h1
  · exfalso
    unfold Shelf.call at h3
    simp only [shows_size hs2] at h3
    have h0 : ¬ s'.set.length = 0 := by
      intro hx; apply hl; unfold len; simp [hx]
    rw [if_neg h0, hc2] at h3
    simp at h3

theorem keeps_live {sum : F64 → F64 → F64} : ∀ (ops : List (ZOp × (Nat → Nat))) (c c' : Shelf) (h : List (ZOp × ZResult)),
    (∀ p ∈ ops, Keeps p.1) → (∀ d ∈ c.cells, d.entry ≠ none) → c.run sum ops = some (c', h) → ∀ d ∈ c'.cells, d.entry ≠ none := by
  have hins : ∀ (c c' : Shelf) x e k, (∀ d ∈ c.cells, d.entry ≠ none) → c.insert x e k = some c' → ∀ d ∈ c'.cells, d.entry ≠ none := by
    intro c c' x e k hl hi
    unfold Shelf.insert at hi
    split at hi
    · simp at hi; subst hi; exact hl
    · obtain ⟨n, -, rfl⟩ := Option.map_eq_some_iff.1 hi
      intro d hd
      simp only [List.mem_append, List.mem_cons] at hd
      rcases hd with hd | rfl | hd
      · exact hl d (List.mem_of_mem_take hd)
      · simp
      · exact hl d (List.mem_of_mem_drop hd)
  have hall : ∀ (draws : Nat → Nat) (es : List Bytes) (xs : List F64) (i : Nat) (c c' : Shelf), (∀ d ∈ c.cells, d.entry ≠ none) →
      c.insertAll draws i xs es = some c' → ∀ d ∈ c'.cells, d.entry ≠ none := by
    intro draws es
    induction es with
    | nil => intro xs i c c' hl hi; cases xs <;> (simp [Shelf.insertAll] at hi; subst hi; exact hl)
    | cons e es ih =>
      intro xs i c c' hl hi
      cases xs with
      | nil => simp [Shelf.insertAll] at hi; subst hi; exact hl
      | cons x xs =>
        obtain ⟨c1, h1, h2⟩ := Option.bind_eq_some_iff.1 hi
        exact ih xs (i + 1) c1 c' (hins c c1 x e _ hl h1) h2
  intro ops
  induction ops with
  | nil => intro c c' h _ hl hr; simp [Shelf.run] at hr; rw [← hr.1]; exact hl
  | cons p ops ih =>
    intro c c' h hk hl hr
    obtain ⟨op, draws⟩ := p
    simp only [Shelf.run] at hr
    obtain ⟨⟨c1, r⟩, h1, h2⟩ := Option.bind_eq_some_iff.1 hr
    obtain ⟨⟨c2, h'⟩, h3, h4⟩ := Option.map_eq_some_iff.1 h2
    simp at h4; obtain ⟨rfl, rfl⟩ := h4
    refine ih c1 c2 h' (fun p hp => hk p (by simp [hp])) ?_ h3
    have hop := hk (op, draws) (by simp)
    cases op with
    | add xs es =>
      simp only [Shelf.call] at h1
      split at h1
      · obtain ⟨c3, h5, h6⟩ := Option.map_eq_some_iff.1 h1
        simp at h6; rw [← h6.1]
        exact hall draws es xs 0 c c3 hl h5
      · simp at h1; rw [← h1.1]; exact hl
    | score e => simp [Shelf.call] at h1; rw [← h1.1]; exact hl
    | len => simp [Shelf.call] at h1; rw [← h1.1]; exact hl
    | del es => exact hop.elim
    | increaseBy e i => exact hop.elim
    | popMin => exact hop.elim
    | popMax => exact hop.elim
    | rank e => exact hop.elim

theorem drain_iff {sum : F64 → F64 → F64} : ∀ (cs : List Cell) (b : Bool), (∀ d ∈ cs, d.entry ≠ none) →
    ((Shelf.run sum ⟨cs, b⟩ (List.replicate cs.length (.popMin, fun _ => 0)) ≠ none) ↔ cs.Pairwise fun d d' => d'.height ≤ d.height) := by
  intro cs
  induction cs with
  | nil => intro b _; simp [Shelf.run]
  | cons d cs ih =>
    intro b hl
    obtain ⟨e, he⟩ : ∃ e, d.entry = some e := by
      cases hx : d.entry with
      | none => exact absurd hx (hl d (by simp))
      | some e => exact ⟨e, rfl⟩
    have hsz : (⟨d :: cs, b⟩ : Shelf).size ≠ 0 := by simp [Shelf.size, he]
    have hcall : (⟨d :: cs, b⟩ : Shelf).call sum .popMin (fun _ => 0) = some ((⟨d :: cs, b⟩ : Shelf).remove e, .popped (some e)) := by
      simp [Shelf.call, hsz, he]
    rw [List.length_cons, List.replicate_succ, List.pairwise_cons]
    simp only [Shelf.run, hcall, Option.bind_some]
    rw [ne_eq, Option.map_eq_none_iff]
    by_cases ht : ∃ d' ∈ cs, d.height < d'.height
    · have hrem : ∃ b', (⟨d :: cs, b⟩ : Shelf).remove e = ⟨{ d with entry := none } :: cs, b'⟩ := by
        simp only [Shelf.remove, takeOut, he, if_true, if_pos ht]; exact ⟨_, rfl⟩
      obtain ⟨b', hrem⟩ := hrem
      rw [hrem]
      obtain ⟨d', hd', hlt⟩ := ht
      have hnone : Shelf.run sum ⟨{ d with entry := none } :: cs, b'⟩ (List.replicate cs.length (.popMin, fun _ => 0)) = none := by
        cases cs with
        | nil => simp at hd'
        | cons d1 cs =>
          have hsz' : (⟨{ d with entry := none } :: d1 :: cs, b'⟩ : Shelf).size ≠ 0 := by
            have := hl d1 (by simp)
            cases hx : d1.entry <;> simp_all [Shelf.size]
          simp [List.replicate_succ, Shelf.run, Shelf.call, hsz']
      simp only [hnone, not_true_eq_false, false_iff, not_and]
      intro h
      have := h d' hd'
      omega
    · have hrem : ∃ b', (⟨d :: cs, b⟩ : Shelf).remove e = ⟨cs, b'⟩ := by
        simp only [Shelf.remove, takeOut, he, if_true, if_neg ht]; exact ⟨_, rfl⟩
      obtain ⟨b', hrem⟩ := hrem
      rw [hrem]
      have := ih b' (fun d hd => hl d (by simp [hd]))
      rw [ne_eq] at this
      rw [this]
      push Not at ht
      exact ⟨fun h => ⟨ht, h⟩, fun h => h.2⟩

theorem shelf_run_append {sum : F64 → F64 → F64} : ∀ (a b : List (ZOp × (Nat → Nat))) (c c1 : Shelf) (h : List (ZOp × ZResult)),
    c.run sum a = some (c1, h) → (c.run sum (a ++ b) = none ↔ c1.run sum b = none) := by
  intro a
  induction a with
  | nil => intro b c c1 h hr; simp [Shelf.run] at hr; rw [← hr.1]; rfl
  | cons p a ih =>
    intro b c c1 h hr
    obtain ⟨op, draws⟩ := p
    simp only [Shelf.run, List.cons_append] at hr ⊢
    obtain ⟨⟨c2, r⟩, h1, h2⟩ := Option.bind_eq_some_iff.1 hr
    obtain ⟨⟨c3, h'⟩, h3, h4⟩ := Option.map_eq_some_iff.1 h2
    simp at h4; obtain ⟨rfl, rfl⟩ := h4
    rw [h1]
    simp only [Option.bind_some, Option.map_eq_none_iff]
    exact ih b c2 c3 h' h3

/-- C53 (emptying): after any calls that take nothing out, with `cs` the row they lead to, taking the entries out one after the other with
`PopMin` works exactly if no cell of the row is higher than one before it. -/
theorem C53_drain (rnd : Rat → F64) (sum : F64 → F64 → F64) (hsum : ∀ x y, ScoreSum rnd x y (sum x y)) (ops : List (ZOp × (Nat → Nat)))
    (hk : ∀ p ∈ ops, Keeps p.1) :
    ∃ c h, Shelf0.run sum ops = some (c, h) ∧ (∀ d ∈ c.cells, d.entry ≠ none) ∧
      (run rnd SkipList.new (ops ++ List.replicate c.cells.length (.popMin, fun _ => 0)) ≠ .panic ↔
        c.cells.Pairwise fun d d' => d'.height ≤ d.height) := by
  obtain ⟨s, hist, ns, h1, -⟩ := run_keeps rnd ops _ [] hk inv_new clean_new backOk_new
  obtain ⟨c, hc⟩ := ((C53_exact rnd sum hsum ops).2 hist).1 ⟨s, h1⟩
  have hl := keeps_live ops _ c hist hk (by simp [Shelf0]) hc
  refine ⟨c, hist, hc, hl, ?_⟩
  rw [ne_eq, (C53_exact rnd sum hsum _).1, shelf_run_append ops _ _ _ _ hc]
  exact drain_iff c.cells c.back hl

/-! ### examples -/

/-- Two entries, the second higher: the row, and what is left after taking out the first. -/
example : (Shelf0.run (F64.add .fin) [(.add [.fin 1, .fin 2] [b!"a", b!"b"], fun i => i)]).map (·.1) =
    some ⟨[⟨.fin 1, some b!"a", 1⟩, ⟨.fin 2, some b!"b", 2⟩], true⟩ := by decide +kernel
example : (Shelf0.run (F64.add .fin) [(.add [.fin 1, .fin 2] [b!"a", b!"b"], fun i => i), (.popMin, fun _ => 0)]).map (·.1) =
    some ⟨[⟨.fin 1, none, 1⟩, ⟨.fin 2, some b!"b", 2⟩], true⟩ := by decide +kernel
/-- The cell that stayed makes the addition of an entry with its score crash. -/
example : Shelf0.run (F64.add .fin) [(.add [.fin 1, .fin 2] [b!"a", b!"b"], fun i => i), (.del [b!"a"], fun _ => 0),
    (.add [.fin 1] [b!"c"], fun _ => 0)] = none := by decide +kernel
/-- The other way round nothing stays: the row is emptied from the front. -/
example : ∃ c h, Shelf0.run (F64.add .fin) [(.add [.fin 2, .fin 1] [b!"b", b!"a"], fun i => i), (.popMin, fun _ => 0), (.popMin, fun _ => 0),
    (.popMin, fun _ => 0)] = some (c, h) ∧ c.cells = [] ∧ h.map Prod.snd = [.added true, .popped (some b!"a"), .popped (some b!"b"), .popped none] :=
  ⟨_, _, rfl, by decide +kernel, by decide +kernel⟩
example : ∀ x y, ScoreSum .fin x y (F64.add .fin x y) := scoreSum_add .fin
example : ∃ s s', run (fun q => .fin q) SkipList.new [(.add [.fin 1, .fin 2] [b!"a", b!"b"], fun _ => 0)] =
    .ok (s, [(.add [.fin 1, .fin 2] [b!"a", b!"b"], .added true)]) ∧
    call (fun q => .fin q) s .popMax (fun _ => 0) = .ok (s', .popped (some b!"b")) ∧ len s' ≠ 0 := ⟨_, _, rfl, rfl, by decide⟩

end Verif.Props
