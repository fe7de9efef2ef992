import Verif.Model.Util
import Verif.Spec.Util

/-! # C48 LexicalCompare, C49 Index/Slice, C50 Pipeline -/

namespace Verif.Props

open Spec

/-! ## C48 -/

/-- The value of the comparison in terms of the common prefix: what `LexicalCompare` returns, case by case. -/
theorem lexLoop_prefix (ln rn : Nat) (p : Bytes) (i : Nat) (as bs : Bytes) :
    lexLoop ln rn i (p ++ as) (p ++ bs) = lexLoop ln rn (i + p.length) as bs := by
  induction p generalizing i with
  | nil => simp
  | cons c p ih =>
    simp only [List.cons_append, lexLoop]
    rw [if_neg (by simp), if_neg (by simp), ih]
    simp only [List.length_cons]; congr 1; omega

/-- C48 (position): strings that differ at position `|p|` (0-based) give -(|p|+1) or |p|+1; a proper prefix gives minus/plus its length; equal
strings give 0. These cases cover all pairs of strings. -/
theorem C48_value (p : Bytes) (x y : UInt8) (as bs : Bytes) :
    (x < y → lexicalCompare (p ++ x :: as) (p ++ y :: bs) = -((p.length : Int) + 1)) ∧
    (y < x → lexicalCompare (p ++ x :: as) (p ++ y :: bs) = (p.length : Int) + 1) ∧
    lexicalCompare p (p ++ y :: bs) = -(p.length : Int) ∧
    lexicalCompare (p ++ x :: as) p = (p.length : Int) ∧
    lexicalCompare p p = 0 := by
  refine ⟨fun h => ?_, fun h => ?_, ?_, ?_, ?_⟩
  · unfold lexicalCompare
    rw [lexLoop_prefix]; simp [lexLoop, h]; omega
  · unfold lexicalCompare
    rw [lexLoop_prefix]
    have : ¬ x < y := by intro h'; exact absurd (UInt8.lt_trans h h') (UInt8.lt_irrefl _)
    simp [lexLoop, h, this]
  · have := lexLoop_prefix p.length (p ++ y :: bs).length p 0 [] (y :: bs)
    unfold lexicalCompare
    rw [List.append_nil] at this
    rw [this]; simp [lexLoop]
  · have := lexLoop_prefix (p ++ x :: as).length p.length p 0 (x :: as) []
    unfold lexicalCompare
    rw [List.append_nil] at this
    rw [this]; simp [lexLoop]; omega
  · have := lexLoop_prefix p.length p.length p 0 [] []
    unfold lexicalCompare
    rw [List.append_nil] at this
    rw [this]; simp [lexLoop]

/-- Every pair of strings is in one of the five cases of `C48_value`. -/
theorem C48_cases (a b : Bytes) :
    (∃ p x y as bs, a = p ++ x :: as ∧ b = p ++ y :: bs ∧ (x < y ∨ y < x)) ∨
    (∃ y bs, b = a ++ y :: bs) ∨ (∃ x as, a = b ++ x :: as) ∨ a = b := by
  induction a generalizing b with
  | nil =>
    cases b with
    | nil => simp
    | cons y bs => exact .inr (.inl ⟨y, bs, rfl⟩)
  | cons x as ih =>
    cases b with
    | nil => exact .inr (.inr (.inl ⟨x, as, rfl⟩))
    | cons y bs =>
      by_cases hxy : x = y
      · subst hxy
        rcases ih bs with ⟨p, u, v, us, vs, rfl, rfl, h⟩ | ⟨u, us, rfl⟩ | ⟨u, us, rfl⟩ | rfl
        · exact .inl ⟨x :: p, u, v, us, vs, rfl, rfl, h⟩
        · exact .inr (.inl ⟨u, us, rfl⟩)
        · exact .inr (.inr (.inl ⟨u, us, rfl⟩))
        · exact .inr (.inr (.inr rfl))
      · refine .inl ⟨[], x, y, as, bs, rfl, rfl, ?_⟩
        rcases Nat.lt_trichotomy x.toNat y.toNat with h | h | h
        · exact .inl h
        · exact absurd (UInt8.toNat_inj.1 h) hxy
        · exact .inr h

/-- C48 is false of the code: the empty string compares equal to every string. -/
theorem C48_counterexample : LexLt b!"" b!"a" ∧ lexicalCompare b!"" b!"a" = 0 := ⟨.nil, by decide⟩

theorem lexLt_append (p : Bytes) {a b : Bytes} (h : LexLt a b) : LexLt (p ++ a) (p ++ b) := by
  induction p with
  | nil => exact h
  | cons c p ih => exact .tail ih

theorem lexLt_asymm {a b : Bytes} (h : LexLt a b) : ¬ LexLt b a := by
  induction h with
  | nil => intro h; cases h
  | head hab =>
    intro h
    cases h with
    | head hba => exact absurd (UInt8.lt_trans hab hba) (UInt8.lt_irrefl _)
    | tail _ => exact UInt8.lt_irrefl _ hab
  | tail _ ih =>
    intro h
    cases h with
    | head hba => exact UInt8.lt_irrefl _ hba
    | tail h => exact ih h

theorem lexLt_irrefl (a : Bytes) : ¬ LexLt a a := fun h => lexLt_asymm h h

/-- C48 (partial): missing from the full claim are exactly the pairs of which one string is empty and the other is not. For all other pairs
the sign is the lexicographic order. -/
theorem C48_order_partial (a b : Bytes) (h : a = [] ↔ b = []) :
    (lexicalCompare a b < 0 ↔ LexLt a b) ∧ (lexicalCompare a b = 0 ↔ a = b) ∧ (0 < lexicalCompare a b ↔ LexLt b a) := by
  rcases C48_cases a b with ⟨p, x, y, as, bs, rfl, rfl, hxy⟩ | ⟨y, bs, rfl⟩ | ⟨x, as, rfl⟩ | rfl
  · obtain ⟨h1, h2, _⟩ := C48_value p x y as bs
    have hne : x :: as ≠ y :: bs := by
      rintro e; cases e; rcases hxy with h | h <;> exact UInt8.lt_irrefl _ h
    rcases hxy with hxy | hxy
    · have hl : LexLt (p ++ x :: as) (p ++ y :: bs) := lexLt_append p (.head hxy)
      rw [h1 hxy]
      refine ⟨⟨fun _ => hl, fun _ => by omega⟩, ⟨fun e => by omega, fun e => ?_⟩,
        ⟨fun e => by omega, fun e => absurd e (lexLt_asymm hl)⟩⟩
      exact absurd (List.append_cancel_left e) hne
    · have hl : LexLt (p ++ y :: bs) (p ++ x :: as) := lexLt_append p (.head hxy)
      rw [h2 hxy]
      refine ⟨⟨fun e => by omega, fun e => absurd e (lexLt_asymm hl)⟩, ⟨fun e => by omega, fun e => ?_⟩,
        ⟨fun _ => hl, fun _ => by omega⟩⟩
      exact absurd (List.append_cancel_left e) hne
  · have ha : a ≠ [] := fun e => by simpa using h.1 e
    have hpos := List.length_pos_iff.2 ha
    have hl : LexLt a (a ++ y :: bs) := by
      have := lexLt_append a (LexLt.nil (b := y) (bs := bs)); rwa [List.append_nil] at this
    rw [(C48_value a y y [] bs).2.2.1]
    refine ⟨⟨fun _ => hl, fun _ => by omega⟩, ⟨fun e => by omega, fun e => ?_⟩,
        ⟨fun e => by omega, fun e => absurd e (lexLt_asymm hl)⟩⟩
    have := congrArg List.length e; simp at this
  · have hb : b ≠ [] := fun e => by simpa using h.2 e
    have hpos := List.length_pos_iff.2 hb
    have hl : LexLt b (b ++ x :: as) := by
      have := lexLt_append b (LexLt.nil (b := x) (bs := as)); rwa [List.append_nil] at this
    rw [(C48_value b x x as []).2.2.2.1]
    refine ⟨⟨fun e => by omega, fun e => absurd e (lexLt_asymm hl)⟩, ⟨fun e => by omega, fun e => ?_⟩,
        ⟨fun _ => hl, fun _ => by omega⟩⟩
    have := congrArg List.length e; simp at this
  · rw [(C48_value a 0 0 [] []).2.2.2.2]
    simp [lexLt_irrefl]

/-- C48 (the exact gap): when exactly one string is empty the result is 0 although the strings differ. -/
theorem C48_empty (c : UInt8) (cs : Bytes) : lexicalCompare [] (c :: cs) = 0 ∧ lexicalCompare (c :: cs) [] = 0 := by
  constructor
  · exact (C48_value [] c c [] cs).2.2.1
  · exact (C48_value [] c c cs []).2.2.2.1

example : lexicalCompare b!"abc" b!"abd" = -3 ∧ lexicalCompare b!"ab" b!"abc" = -2 ∧ lexicalCompare b!"b" b!"abc" = 1 := by decide

/-! ## C49 -/

/-- C49 (index): `Resolve` answers the existing position an index denotes, or -1 exactly when there is none. -/
theorem C49_index (i n p : Int) (hn : 0 ≤ n) :
    (indexResolve i n = p ∧ p ≠ -1 ↔ Denotes i n p) ∧ (indexResolve i n = -1 ↔ ¬ ∃ p, Denotes i n p) := by
  have key : ∀ p, indexResolve i n = p ∧ p ≠ -1 ↔ Denotes i n p := by
    intro p
    unfold indexResolve indexResolveRaw Denotes
    simp only
    split <;> split <;> omega
  refine ⟨key p, ?_⟩
  constructor
  · rintro h ⟨q, hq⟩
    have := (key q).2 hq; omega
  · intro h
    apply Classical.byContradiction
    intro hne
    exact h ⟨_, (key _).1 ⟨rfl, hne⟩⟩

/-- C49 (slice): `Resolve` answers the window the pair denotes, or (-1, -1) exactly when there is none; an answered window lies within
the sequence and is not empty. -/
theorem C49_slice (l r n a b : Int) (hn : 0 ≤ n) :
    (sliceResolve l r n = (a, b) ∧ a ≠ -1 ↔ Window l r n a b) ∧
    (sliceResolve l r n = (-1, -1) ↔ ¬ ∃ a b, Window l r n a b) ∧
    (sliceResolve l r n = (a, b) → (a = -1 ∧ b = -1) ∨ (0 ≤ a ∧ a ≤ b ∧ b < n)) := by
  have key : ∀ a b, sliceResolve l r n = (a, b) ∧ a ≠ -1 ↔ Window l r n a b := by
    intro a b
    unfold sliceResolve sliceResolveRaw indexResolveRaw Window Denotes
    simp only
    split <;> split <;> split <;> try split
    all_goals simp only [Prod.mk.injEq]; omega
  have range : ∀ a b, sliceResolve l r n = (a, b) → (a = -1 ∧ b = -1) ∨ (0 ≤ a ∧ a ≤ b ∧ b < n) := by
    intro a b h
    by_cases ha : a = -1
    · left
      refine ⟨ha, ?_⟩
      subst ha
      revert h
      unfold sliceResolve sliceResolveRaw indexResolveRaw
      simp only
      split <;> split <;> split <;> try split
      all_goals simp only [Prod.mk.injEq]; omega
    · right
      have := (key a b).1 ⟨h, ha⟩
      unfold Window Denotes at this; omega
  refine ⟨key a b, ?_, range a b⟩
  constructor
  · rintro h ⟨a, b, hw⟩
    have := (key a b).2 hw
    rw [h] at this
    simp only [Prod.mk.injEq] at this; omega
  · intro h
    cases hr : sliceResolve l r n with
    | mk a b =>
      rcases range a b hr with ⟨rfl, rfl⟩ | h'
      · rfl
      · exact absurd ⟨a, b, (key a b).1 ⟨hr, by omega⟩⟩ h

example : indexResolve (-1) 3 = 2 ∧ indexResolve 3 3 = -1 ∧ indexResolve (-4) 3 = -1  := by decide
example : Denotes (-1) 3 2 := by unfold Denotes; omega
example : sliceResolve (-3) 100 5 = (2, 4) ∧ sliceResolve 3 1 5 = (-1, -1) ∧ sliceResolve 0 (-6) 5 = (-1, -1) := by decide
example : Window (-3) 100 5 2 4 := by unfold Window Denotes; omega

/-! ## C50 -/

/-- Running a list of handlers that all succeed, threading the context. -/
inductive AllSucceed {σ ε : Type} : List (Handler σ ε) → σ → σ → Prop where
  | nil (c) : AllSucceed [] c c
  | cons {h hs c c' c''} : h c = .ok (c', none) → AllSucceed hs c' c'' → AllSucceed (h :: hs) c c''

theorem runPipelineFrom_prefix {σ ε : Type} {pre : List (Handler σ ε)} {c c' : σ} (h : AllSucceed pre c c')
    (hs : List (Handler σ ε)) (e : Option ε) (he : e = none) :
    runPipelineFrom (pre ++ hs) c e = runPipelineFrom hs c' none := by
  induction h generalizing e with
  | nil => simp [he]
  | cons h1 _ ih => simp only [List.cons_append, runPipelineFrom, h1]; exact ih _ rfl

/-- C50: if the first handlers succeed and the next one fails, `Run` returns that handler's context and error and runs none of the later
handlers – whatever they are, even ones that panic or never return. -/
theorem C50_stops_at_first_error {σ ε : Type} (pre post : List (Handler σ ε)) (h : Handler σ ε) (c c' c'' : σ) (e : ε)
    (hpre : AllSucceed pre c c') (hh : h c' = .ok (c'', some e)) :
    runPipeline (pre ++ h :: post) c = .ok (c'', some e) := by
  unfold runPipeline
  rw [runPipelineFrom_prefix hpre _ _ rfl]
  simp [runPipelineFrom, hh]

/-- C50: if all handlers succeed, `Run` returns the context threaded through all of them in order, and no error. -/
theorem C50_all_succeed {σ ε : Type} (hs : List (Handler σ ε)) (c c' : σ) (h : AllSucceed hs c c') :
    runPipeline hs c = .ok (c', none) := by
  have := runPipelineFrom_prefix h [] none rfl
  simpa [runPipeline, runPipelineFrom] using this

/-- C50: these are the only ways `Run` returns. -/
theorem C50_only_ways {σ ε : Type} (hs : List (Handler σ ε)) (c c' : σ) (r : Option ε) (h : runPipeline hs c = .ok (c', r)) :
    (r = none ∧ AllSucceed hs c c') ∨
    (∃ pre hd post c₁ e, hs = pre ++ hd :: post ∧ AllSucceed pre c c₁ ∧ hd c₁ = .ok (c', some e) ∧ r = some e) := by
  unfold runPipeline at h
  induction hs generalizing c with
  | nil =>
    simp [runPipelineFrom] at h
    left; obtain ⟨rfl, rfl⟩ := h; exact ⟨rfl, .nil _⟩
  | cons hd tl ih =>
    simp only [runPipelineFrom] at h
    split at h
    · rename_i c2 e he
      simp at h
      obtain ⟨rfl, rfl⟩ := h
      exact .inr ⟨[], hd, tl, c, e, rfl, .nil _, he, rfl⟩
    · rename_i c2 he
      rcases ih c2 h with ⟨h1, h2⟩ | ⟨pre, hd', post, c1, e, rfl, h2, h3, h4⟩
      · exact .inl ⟨h1, .cons he h2⟩
      · exact .inr ⟨hd :: pre, hd', post, c1, e, rfl, .cons he h2, h3, h4⟩
    · simp at h
    · simp at h

/-- C50: handlers run in the order they were added: when those before succeed, the one added last decides how `Run` ends. -/
theorem C50_order {σ ε : Type} (hs : List (Handler σ ε)) (h : Handler σ ε) (c c' : σ) (hpre : AllSucceed hs c c') :
    runPipeline (addHandler hs h) c = h c' := by
  unfold runPipeline addHandler
  rw [runPipelineFrom_prefix hpre [h] none rfl]
  simp only [runPipelineFrom]
  split <;> simp_all

/-- C50: a handler that panics or never returns, after ones that succeed, makes `Run` do the same, and these are the only ways it does. -/
theorem C50_no_return {σ ε : Type} (hs : List (Handler σ ε)) (c : σ) {out : Outcome (σ × Option ε)} (ho : out = .panic ∨ out = .diverge) :
    runPipeline hs c = out ↔ ∃ pre h post c', hs = pre ++ h :: post ∧ AllSucceed pre c c' ∧ h c' = out := by
  constructor
  · intro h
    unfold runPipeline at h
    induction hs generalizing c with
    | nil => rcases ho with rfl | rfl <;> simp [runPipelineFrom] at h
    | cons hd tl ih =>
      simp only [runPipelineFrom] at h
      split at h
      · rcases ho with rfl | rfl <;> cases h
      · rename_i c2 he
        obtain ⟨pre, g, post, c', rfl, h2, h3⟩ := ih c2 h
        exact ⟨hd :: pre, g, post, c', rfl, .cons he h2, h3⟩
      · rename_i he
        exact ⟨[], hd, tl, c, rfl, .nil _, he.trans h⟩
      · rename_i he
        exact ⟨[], hd, tl, c, rfl, .nil _, he.trans h⟩
  · rintro ⟨pre, g, post, c', rfl, h1, h2⟩
    unfold runPipeline
    rw [runPipelineFrom_prefix h1 _ _ rfl]
    rcases ho with rfl | rfl <;> simp [runPipelineFrom, h2]

example : runPipeline (σ := List Nat) (ε := Nat)
    [fun c => .ok (c ++ [1], none), fun c => .ok (c ++ [2], some 7), fun _ => .panic] [] = .ok ([1, 2], some 7) := by decide
example : AllSucceed (σ := List Nat) (ε := Nat) [fun c => .ok (c ++ [1], none)] [] [1] := .cons rfl (.nil _)

end Verif.Props
