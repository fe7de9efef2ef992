import Verif.Model.EventBus
import Verif.Spec.RWLock

/-! When a topic exists, in terms of the calls and their results. -/

namespace Verif.Spec

open Bus

/-- How many topics have been made. -/
def madeBy (h : List (Op × Ret)) : Nat :=
  (h.filter fun x => match x with
    | (.newTopic _, .bool true) => true
    | _ => false).length

/-- After `h` the name belongs to topic number `id`: the `id`-th successful `NewTopic` was for this name, and no `RemoveTopic` of it succeeded
since. -/
def Alive (h : List (Op × Ret)) (name : Bytes) (id : Nat) : Prop :=
  ∃ before after, h = before ++ (.newTopic name, .bool true) :: after ∧ (.removeTopic name, .bool true) ∉ after ∧ madeBy before = id

/-- The right answer to a call made after `h`. -/
def BusAnswer (h : List (Op × Ret)) : Op → Ret → Prop
  | .publish n, r => (∃ id, r = .topic id ∧ Alive h n id) ∨ (r = .noSuchTopic ∧ ∀ id, ¬ Alive h n id)
  | .subscribe n, r => (∃ id, r = .topic id ∧ Alive h n id) ∨ (r = .noSuchTopic ∧ ∀ id, ¬ Alive h n id)
  | .newTopic n, r => ∃ b, r = .bool b ∧ (b = true ↔ ∀ id, ¬ Alive h n id)
  | .removeTopic n, r => ∃ b, r = .bool b ∧ (b = true ↔ ∃ id, Alive h n id)
  | .existTopic n, r => ∃ b, r = .bool b ∧ (b = true ↔ ∃ id, Alive h n id)

end Verif.Spec
