import Verif.Spec.Group
import Verif.Spec.RecipeLives

/-!
Users who keep to their own keys, over any number of processes that run one after the other on the same file.
-/

namespace Verif.Spec

/-- `OneDatabase`, over processes: what the users of all processes see is what the abstract database replies to the requests `qs` one after the other. The request at `place n c i`
is that of line `i` of user `c` of the process number `n`; different lines have different places; and they are in real time. -/
structure OneDatabaseIn (U : Nat → Bool) (trs : List (List Site.Ev)) (qs : List (List Resp)) (rs : List Resp) (place : Nat → Nat → Nat → Nat) : Prop where
  each : ∀ n c i x r, U c = true → GotIn trs n c i x r → ∃ q, qs[place n c i]? = some q ∧ Means q x ∧ rs[place n c i]? = some r
  distinct : ∀ n n' c c' i j x x' r r', U c = true → U c' = true → GotIn trs n c i x r → GotIn trs n' c' j x' r' → place n c i = place n' c' j → n = n' ∧ c = c' ∧ i = j
  inTime : ∀ n n' c c' i j x x' r r', U c = true → U c' = true → GotIn trs n c i x r → GotIn trs n' c' j x' r' → EarlierIn trs n c i n' c' j → place n c i < place n' c' j

/-- The keys that requests of the group mention in some process. -/
def KeyOfGroupIn (G : Nat → Bool) (trs : List (List Site.Ev)) (sp : Space) (k : Bytes) : Prop := ∃ tr ∈ trs, KeyOfGroup G (deskOf tr) sp k

/-- In no process anybody outside the group writes to a key that the group mentions in any of them. -/
def KeepsOwnIn (G : Nat → Bool) (trs : List (List Site.Ev)) : Prop :=
  ∀ tr ∈ trs, ∀ c objs sp k, G c = false → RanBy (deskOf tr) c objs → Writes sp objs k → ¬ KeyOfGroupIn G trs sp k

end Verif.Spec
