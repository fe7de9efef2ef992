import Verif.Spec.LTS

/-! Induction over executions. -/

namespace Verif.Spec

variable {S L : Type} {step : S → L → S → Prop} {s0 : S}

theorem Exec.inv {P : List L → S → Prop} (h0 : P [] s0) (hs : ∀ tr s l s', Exec step s0 tr s → P tr s → step s l s' → P (tr ++ [l]) s')
    {tr : List L} {s : S} (h : Exec step s0 tr s) : P tr s := by
  induction h with
  | nil => exact h0
  | snoc h hst ih => exact hs _ _ _ _ h ih hst

theorem Exec.one {s : S} {l : L} (h : step s0 l s) : Exec step s0 [l] s := .snoc .nil h

theorem Exec.append {tr tr' : List L} {s s' : S} (h : Exec step s0 tr s) (h' : Exec step s tr' s') : Exec step s0 (tr ++ tr') s' := by
  induction h' with
  | nil => simpa using h
  | snoc _ hst ih => rw [← List.append_assoc]; exact .snoc ih hst

theorem Exec.cons {tr : List L} {s s' : S} {l : L} (h : step s0 l s) (h' : Exec step s tr s') : Exec step s0 (l :: tr) s' :=
  (Exec.one h).append h'

theorem Exec.split_snoc {tr : List L} {s : S} {l : L} (h : Exec step s0 (tr ++ [l]) s) : ∃ s1, Exec step s0 tr s1 ∧ step s1 l s := by
  generalize e : tr ++ [l] = tr' at h
  cases h with
  | nil => simp at e
  | snoc h hst =>
    obtain ⟨e1, e2⟩ := List.append_inj' e rfl
    simp only [List.cons.injEq, and_true] at e2
    subst e1; subst e2
    exact ⟨_, h, hst⟩

theorem Exec.split {before after : List L} {s : S} (h : Exec step s0 (before ++ after) s) : ∃ s1, Exec step s0 before s1 ∧ Exec step s1 after s := by
  generalize e : before ++ after = tr at h
  induction h generalizing after with
  | nil =>
    obtain ⟨rfl, rfl⟩ := List.append_eq_nil_iff.1 e
    exact ⟨s0, .nil, .nil⟩
  | @snoc tr s s' l h hst ih =>
    rcases List.eq_nil_or_concat after with rfl | ⟨as, a, rfl⟩
    · rw [List.append_nil] at e
      subst e
      exact ⟨s', .snoc h hst, .nil⟩
    · rw [List.concat_eq_append, ← List.append_assoc] at e
      obtain ⟨e1, e2⟩ := List.append_inj' e rfl
      simp only [List.cons.injEq, and_true] at e2
      subst e2
      obtain ⟨s1, g1, g2⟩ := ih e1
      rw [List.concat_eq_append]
      exact ⟨s1, g1, .snoc g2 hst⟩

/-- To show that `P` holds before each `l` it suffices that every state in which `l` can happen was reached by a trace with `P`. -/
theorem After.of_step {tr : List L} {s : S} {l : L} {P : List L → Prop} (h : Exec step s0 tr s)
    (hs : ∀ tr1 s1 s2, Exec step s0 tr1 s1 → step s1 l s2 → P tr1) : After tr l P := by
  rintro before after rfl
  have : before ++ l :: after = (before ++ [l]) ++ after := by simp
  rw [this] at h
  obtain ⟨s1, h1, -⟩ := h.split
  obtain ⟨s2, h2, h3⟩ := h1.split_snoc
  exact hs _ _ _ h2 h3

/-- After an event that leads into states without steps, nothing happens any more. -/
theorem Exec.last {before after : List L} {s : S} {l : L} (h : Exec step s0 (before ++ l :: after) s) (dead : S → Prop) (h1 : ∀ s s', step s l s' → dead s')
    (h2 : ∀ s l s', dead s → ¬ step s l s') : after = [] := by
  have e : before ++ l :: after = (before ++ [l]) ++ after := by simp
  rw [e] at h
  obtain ⟨s1, g1, g2⟩ := h.split
  obtain ⟨s0, -, hs⟩ := g1.split_snoc
  have key : after = [] ∧ dead s := by
    refine g2.inv (P := fun tr s => tr = [] ∧ dead s) ⟨rfl, h1 _ _ hs⟩ ?_
    rintro tr s l s' - ⟨-, hd⟩ hs
    exact absurd hs (h2 s l s' hd)
  exact key.1

end Verif.Spec
