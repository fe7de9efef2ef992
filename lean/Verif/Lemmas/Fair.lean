import Verif.Spec.Fair
import Verif.Lemmas.LTS
import Mathlib.Data.Nat.Pairing
import Mathlib.Data.Countable.Defs

/-! Executions without end. -/

namespace Verif.Props

open Spec

variable {S L : Type} {step : S → L → S → Prop} {s0 s s' : S} {tr : List L}

theorem until_succ (r : Run step s0) (i : Nat) : r.until (i + 1) = r.until i ++ (r.ev i).toList := by
  rw [Run.until, List.range_succ, List.filterMap_append]
  cases h : r.ev i <;> simp [h, Run.until]

theorem run_exec (r : Run step s0) (i : Nat) : Exec step s0 (r.until i) (r.state i) := by
  induction i with
  | zero => rw [r.start]; exact .nil
  | succ i ih =>
    rw [until_succ]
    rcases r.next i with ⟨l, h1, h2⟩ | ⟨h1, h2⟩
    · simpa [h1] using ih.snoc h2
    · simpa [h1, h2] using ih

theorem run_step (r : Run step s0) {i : Nat} {l : L} (h : r.ev i = some l) : step (r.state i) l (r.state (i + 1)) := by
  rcases r.next i with ⟨l', h1, h2⟩ | ⟨h1, h2⟩
  · rw [h] at h1; cases h1; exact h2
  · rw [h] at h1; cases h1

/-- What is true until something happens, and allows a goroutine that makes it happen to go on, is not true for ever. -/
theorem leads (r : Run step s0) {acts : L → Prop} (hf : r.Fair acts) (P : S → Prop) (Q : Nat → Prop) {i : Nat} (hi : P (r.state i))
    (keep : ∀ j l, i ≤ j → P (r.state j) → r.ev j = some l → P (r.state (j + 1)) ∨ Q (j + 1))
    (can : ∀ j, i ≤ j → P (r.state j) → Possible step acts (r.state j))
    (does : ∀ j l, i ≤ j → P (r.state j) → r.ev j = some l → acts l → Q (j + 1)) : ∃ j, i ≤ j ∧ Q j := by
  by_contra hn
  have hn : ∀ j, i ≤ j → ¬ Q j := fun j hj hq => hn ⟨j, hj, hq⟩
  have hP : ∀ k, P (r.state (i + k)) := by
    intro k
    induction k with
    | zero => exact hi
    | succ k ih =>
      rcases r.next (i + k) with ⟨l, h1, h2⟩ | ⟨h1, h2⟩
      · rcases keep _ l (by omega) ih h1 with h | h
        · exact h
        · exact absurd h (hn _ (by omega))
      · rw [← Nat.add_assoc, h2]; exact ih
  have hP : ∀ j, i ≤ j → P (r.state j) := fun j hj => by
    have := hP (j - i)
    rwa [Nat.add_sub_cancel' hj] at this
  obtain ⟨j, l, h1, h2, h3⟩ := hf i fun j hj => can j hj (hP j hj)
  exact hn _ (by omega) (does j l h1 (hP j h1) h2 h3)

/-- What is kept by all that happens stays true. -/
theorem lasts (r : Run step s0) (P : S → Prop) {i : Nat} (hi : P (r.state i))
    (keep : ∀ j l, i ≤ j → P (r.state j) → r.ev j = some l → P (r.state (j + 1))) {j : Nat} (hj : i ≤ j) : P (r.state j) := by
  induction j, hj using Nat.le_induction with
  | base => exact hi
  | succ j hj ih =>
    rcases r.next j with ⟨l, h1, h2⟩ | ⟨h1, h2⟩
    · exact keep j l hj ih h1
    · rw [h2]; exact ih

/-! ### There are such executions -/

/-- One more thing before. -/
def runCons {l : L} (h : step s l s') (r : Run step s') : Run step s where
  state
    | 0 => s
    | i + 1 => r.state i
  ev
    | 0 => some l
    | i + 1 => r.ev i
  start := rfl
  next
    | 0 => .inl ⟨l, rfl, by show step s l (r.state 0); rw [r.start]; exact h⟩
    | i + 1 => r.next i

/-- What has happened can be put before an execution without end. -/
theorem run_after (h : Exec step s0 tr s) : ∀ r : Run step s, ∃ r' : Run step s0, r'.until tr.length = tr ∧
    ∀ i, r'.state (tr.length + i) = r.state i ∧ r'.ev (tr.length + i) = r.ev i := by
  induction h with
  | nil => exact fun r => ⟨r, rfl, fun i => by simp⟩
  | snoc h1 h2 ih =>
    intro r
    obtain ⟨r', g1, g2⟩ := ih (runCons h2 r)
    refine ⟨r', ?_, fun i => ?_⟩
    · rw [List.length_append, List.length_singleton, until_succ, g1]
      have := (g2 0).2
      rw [Nat.add_zero] at this
      rw [this]
      rfl
    · have := g2 (i + 1)
      rw [List.length_append, List.length_singleton, Nat.add_assoc, Nat.add_comm 1 i]
      exact this

open Classical in
/-- A scheduler that asks one goroutine after the other. -/
noncomputable def rota {G : Type} (acts : G → L → Prop) (turn : Nat → G) (step : S → L → S → Prop) (s : S) : Nat → S × Option L
  | 0 => (s, none)
  | i + 1 =>
    let now := (rota acts turn step s i).1
    if h : Possible step (acts (turn i)) now then (h.choose_spec.choose, some h.choose) else (now, none)

/-- Whatever has happened, it can go on so that none of countably many goroutines is ever forgotten. -/
theorem fair_run {G : Type} [Countable G] [Nonempty G] (acts : G → L → Prop) (h : Exec step s0 tr s) :
    ∃ r : Run step s0, r.until tr.length = tr ∧ r.state tr.length = s ∧ (∀ g, r.Fair (acts g)) ∧
      ∀ j l, tr.length ≤ j → r.ev j = some l → ∃ g, acts g l := by
  obtain ⟨f, hf⟩ := exists_surjective_nat G
  let turn : Nat → G := fun i => f i.unpair.1
  let ρ := rota acts turn step s
  have h0 : ∀ i, (∃ l, (ρ (i + 1)).2 = some l ∧ acts (turn i) l ∧ step (ρ i).1 l (ρ (i + 1)).1) ∨
      (¬ Possible step (acts (turn i)) (ρ i).1 ∧ (ρ (i + 1)).2 = none ∧ (ρ (i + 1)).1 = (ρ i).1) := by
    intro i
    by_cases hp : Possible step (acts (turn i)) (ρ i).1
    · have : ρ (i + 1) = (hp.choose_spec.choose, some hp.choose) := by
        show rota acts turn step s (i + 1) = _
        rw [rota]
        exact dif_pos hp
      rw [this]
      exact .inl ⟨_, rfl, hp.choose_spec.choose_spec⟩
    · have : ρ (i + 1) = ((ρ i).1, none) := by
        show rota acts turn step s (i + 1) = _
        rw [rota]
        exact dif_neg hp
      rw [this]
      exact .inr ⟨hp, rfl, rfl⟩
  let r : Run step s :=
    { state := fun i => (ρ i).1, ev := fun i => (ρ (i + 1)).2, start := rfl
      next := fun i => by
        rcases h0 i with ⟨l, g1, -, g2⟩ | ⟨-, g1, g2⟩
        · exact .inl ⟨l, g1, g2⟩
        · exact .inr ⟨g1, g2⟩ }
  obtain ⟨r', k1, k2⟩ := run_after h r
  refine ⟨r', k1, by simpa using (k2 0).1.trans r.start, ?_, fun j l hj he => ?_⟩
  rotate_left
  · obtain ⟨i, rfl⟩ : ∃ i, j = tr.length + i := ⟨j - tr.length, by omega⟩
    rw [(k2 i).2] at he
    rcases h0 i with ⟨l', g1, g2, -⟩ | ⟨-, g1, -⟩
    · have : some l' = some l := g1.symm.trans he
      cases this
      exact ⟨_, g2⟩
    · have : none = some l := g1.symm.trans he
      cases this
  intro g i hi
  obtain ⟨a, ha⟩ := hf g
  -- the next turn of `g`
  let j := Nat.pair a i
  have hj : i ≤ j := Nat.right_le_pair a i
  have ht : turn j = g := by simp [turn, j, ha]
  rcases h0 j with ⟨l, g1, g2, -⟩ | ⟨g1, -⟩
  · exact ⟨tr.length + j, l, by omega, by rw [(k2 j).2]; exact g1, ht ▸ g2⟩
  · have := hi (tr.length + j) (by omega)
    rw [(k2 j).1] at this
    exact absurd (ht ▸ this) g1

end Verif.Props
