import Verif.Model.Hub
import Verif.Spec.LTS

/-! What can be seen of the server if its event bus cannot be seen. -/

namespace Verif.Spec

/-- Without what happens inside the bus. -/
def seenOf (tr : List Hub.Ev) : List Pipe.Ev := tr.filterMap fun
  | .seen e => some e
  | _ => none

/-- Two systems that cannot be told apart by what `vis` shows of the first, at any moment and with all that can still happen: weak bisimilarity by the
relation `R`, the second system having no hidden steps. -/
structure Alike {S L T M : Type} (step : S → L → S → Prop) (step' : T → M → T → Prop) (vis : List L → List M) (R : S → T → Prop) : Prop where
  forth : ∀ s t, R s t → ∀ l s', step s l s' → ∃ t', Exec step' t (vis [l]) t' ∧ R s' t'
  back : ∀ s t, R s t → ∀ m t', step' t m t' → ∃ ls s', Exec step s ls s' ∧ vis ls = [m] ∧ R s' t'

end Verif.Spec
