import Verif.Spec.LTS

/-! What one goroutine does, seen as a sequence of calls. -/

namespace Verif.Spec

/-- The events of `tr` that are `mine` are whole calls, one after the other, and then `rest`. -/
def CallsThen {L : Type} (mine : L → Bool) (whole : List L → Prop) (tr rest : List L) : Prop :=
  ∃ cs, tr.filter mine = List.flatten cs ++ rest ∧ ∀ c ∈ cs, whole c

/-- The events of `tr` that are `mine` are whole calls; unless its owner is `idle`, a proper part of another one follows. -/
def InCalls {L : Type} (mine : L → Bool) (whole : List L → Prop) (tr : List L) (idle : Prop) : Prop :=
  ∃ rest, CallsThen mine whole tr rest ∧ (idle ∧ rest = [] ∨ ¬ idle ∧ rest ≠ [] ∧ ∃ more, more ≠ [] ∧ whole (rest ++ more))

end Verif.Spec
