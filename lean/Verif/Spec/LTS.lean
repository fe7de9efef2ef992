/-! Executions of labelled transition systems. -/

namespace Verif.Spec

/-- `Exec step s tr s'`: from `s` the steps with labels `tr`, in this order, lead to `s'`. -/
inductive Exec {S L : Type} (step : S → L → S → Prop) (s0 : S) : List L → S → Prop where
  | nil : Exec step s0 [] s0
  | snoc {tr : List L} {s s' : S} {l : L} : Exec step s0 tr s → step s l s' → Exec step s0 (tr ++ [l]) s'

/-- A state some execution leads to. -/
def Reach {S L : Type} (step : S → L → S → Prop) (s0 s : S) : Prop := ∃ tr, Exec step s0 tr s

/-- Whenever `l` happens, `P` holds of what happened before. -/
def After {L : Type} (tr : List L) (l : L) (P : List L → Prop) : Prop := ∀ before after, tr = before ++ l :: after → P before

end Verif.Spec
