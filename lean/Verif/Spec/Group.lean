import Verif.Spec.Recipe
import Verif.Spec.Isolation

/-!
Users who keep to their own keys, among others.
-/

namespace Verif.Spec

/-- A request of connection `c` was executed: `objs`. -/
def RanBy (tr : List Desk.Ev) (c : Nat) (objs : List Resp) : Prop :=
  ∃ e ∈ doneIn (seenIn (serverOf tr)), ∃ o, (e.1, o) ∈ askedBy c (seenIn (serverOf tr)) ∧ ArrayOf o objs

/-- The keys that requests of the group mention. -/
def KeyOfGroup (G : Nat → Bool) (tr : List Desk.Ev) (sp : Space) (k : Bytes) : Prop := ∃ c objs, G c = true ∧ RanBy tr c objs ∧ Names sp objs k

/-- Nobody outside the group writes to a key of the group. They may read them. -/
def KeepsOwn (G : Nat → Bool) (tr : List Desk.Ev) : Prop :=
  ∀ c objs sp k, G c = false → RanBy tr c objs → Writes sp objs k → ¬ KeyOfGroup G tr sp k

end Verif.Spec
