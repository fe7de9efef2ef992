import Verif.Spec.Calls
import Verif.Model.Future

/-! Going on with a sequence of calls. -/

namespace Verif

open Spec
open Fut (upd)

variable {L Pc : Type}

theorem Spec.CallsThen.nil {mine : L → Bool} {whole : List L → Prop} : CallsThen mine whole [] [] := ⟨[], rfl, by simp⟩

theorem Spec.CallsThen.other {mine : L → Bool} {whole : List L → Prop} {tr rest : List L} {e : L} (h : CallsThen mine whole tr rest) (he : mine e = false) :
    CallsThen mine whole (tr ++ [e]) rest := by
  obtain ⟨cs, h1, h2⟩ := h
  exact ⟨cs, by rw [List.filter_append, h1]; simp [he], h2⟩

theorem Spec.CallsThen.goes {mine : L → Bool} {whole : List L → Prop} {tr rest : List L} {e : L} (h : CallsThen mine whole tr rest) (he : mine e = true) :
    CallsThen mine whole (tr ++ [e]) (rest ++ [e]) := by
  obtain ⟨cs, h1, h2⟩ := h
  exact ⟨cs, by rw [List.filter_append, h1]; simp [he], h2⟩

theorem Spec.CallsThen.ends {mine : L → Bool} {whole : List L → Prop} {tr rest : List L} {e : L} (h : CallsThen mine whole tr rest) (he : mine e = true)
    (hw : whole (rest ++ [e])) : CallsThen mine whole (tr ++ [e]) [] := by
  obtain ⟨cs, h1, h2⟩ := h
  refine ⟨cs ++ [rest ++ [e]], by rw [List.filter_append, h1]; simp [he], ?_⟩
  intro c hc
  rcases List.mem_append.1 hc with hc | hc
  · exact h2 c hc
  · rw [List.mem_singleton.1 hc]; exact hw

/-- Goroutine `i` has made whole calls and is at `pc`, `course` telling what it has done since its last call began. -/
def CallsAt (mine : Nat → L → Bool) (whole : Nat → List L → Prop) (course : Nat → Pc → List L → Prop) (i : Nat) (tr : List L) (pc : Pc) : Prop :=
  ∃ rest, CallsThen (mine i) (whole i) tr rest ∧ course i pc rest

namespace CallsAt

variable {mine : Nat → L → Bool} {whole : Nat → List L → Prop} {course : Nat → Pc → List L → Prop} {i : Nat} {tr : List L}

theorem nil {pc : Pc} (h : course i pc []) : CallsAt mine whole course i [] pc := ⟨[], .nil, h⟩

theorem other {pc : Pc} {e : L} (h : CallsAt mine whole course i tr pc) (he : mine i e = false) : CallsAt mine whole course i (tr ++ [e]) pc := by
  obtain ⟨rest, h1, h2⟩ := h
  exact ⟨rest, h1.other he, h2⟩

/-- Goroutine `j` goes on with its call. -/
theorem goes {pcs : Nat → Pc} {pc' : Pc} {e : L} (h : CallsAt mine whole course i tr (pcs i)) (j : Nat) (he : ∀ k, mine k e = decide (k = j))
    (hn : ∀ rest, course j (pcs j) rest → course j pc' (rest ++ [e])) : CallsAt mine whole course i (tr ++ [e]) (upd pcs j pc' i) := by
  by_cases hij : i = j
  · subst hij
    simp only [upd, if_pos]
    obtain ⟨rest, h1, h2⟩ := h
    exact ⟨rest ++ [e], h1.goes (by simp [he]), hn _ h2⟩
  · simp only [upd, if_neg hij]
    exact h.other (by simp [he, hij])

/-- Goroutine `j` finishes its call. -/
theorem ends {pcs : Nat → Pc} {pc' : Pc} {e : L} (h : CallsAt mine whole course i tr (pcs i)) (j : Nat) (he : ∀ k, mine k e = decide (k = j))
    (hp : course j pc' []) (hn : ∀ rest, course j (pcs j) rest → whole j (rest ++ [e])) : CallsAt mine whole course i (tr ++ [e]) (upd pcs j pc' i) := by
  by_cases hij : i = j
  · subst hij
    simp only [upd, if_pos]
    obtain ⟨rest, h1, h2⟩ := h
    exact ⟨[], h1.ends (by simp [he]) (hn _ h2), hp⟩
  · simp only [upd, if_neg hij]
    exact h.other (by simp [he, hij])

/-- Goroutine `j` makes a call that is a single event. -/
theorem single {pcs : Nat → Pc} {e : L} (h : CallsAt mine whole course i tr (pcs i)) (j : Nat) (he : ∀ k, mine k e = decide (k = j))
    (hp : ∀ rest, course j (pcs j) rest → rest = []) (hn : whole j [e]) : CallsAt mine whole course i (tr ++ [e]) (pcs i) := by
  by_cases hij : i = j
  · subst hij
    obtain ⟨rest, h1, h2⟩ := h
    have := hp _ h2
    subst this
    exact ⟨[], h1.ends (by simp [he]) hn, h2⟩
  · exact h.other (by simp [he, hij])

end CallsAt

end Verif
