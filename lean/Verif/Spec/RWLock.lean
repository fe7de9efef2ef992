import Verif.Model.RWLock
import Verif.Spec.LTS

/-! Sequential histories of an object. -/

namespace Verif.Spec

/-- Calling the methods one after the other, from `v`, gives these results and ends in `v'`. -/
inductive Legal {σ op ret : Type} (obj : Obj σ op ret) (v : σ) : List (op × ret) → σ → Prop where
  | nil : Legal obj v [] v
  | snoc {h : List (op × ret)} {w : σ} (o : op) : Legal obj v h w → Legal obj v (h ++ [(o, (obj.run o w).2)]) (obj.run o w).1

/-- The bodies executed, in the order of their ends. -/
def appliedOf {op ret : Type} : List (RW.Ev op ret) → List (op × ret)
  | [] => []
  | .applied _ o r :: tr => (o, r) :: appliedOf tr
  | _ :: tr => appliedOf tr

/-- The calls of goroutine `t`: what it did, without the locking. -/
inductive Act (op ret : Type) where
  | call (o : op)
  | applied (o : op) (r : ret)
  | returned (o : op) (r : ret)

/-- What goroutine `t` did. -/
def actsOf {op ret : Type} (t : Nat) : List (RW.Ev op ret) → List (Act op ret)
  | [] => []
  | .call u o :: tr => if u = t then .call o :: actsOf t tr else actsOf t tr
  | .applied u o r :: tr => if u = t then .applied o r :: actsOf t tr else actsOf t tr
  | .returned u o r :: tr => if u = t then .returned o r :: actsOf t tr else actsOf t tr
  | _ :: tr => actsOf t tr

/-- Complete calls, each consisting of the call, the execution and the return of the same method with the same result. -/
inductive Calm {op ret : Type} : List (Act op ret) → Prop where
  | nil : Calm []
  | snoc {as : List (Act op ret)} (o : op) (r : ret) : Calm as → Calm (as ++ [.call o, .applied o r, .returned o r])

/-- Complete calls, and possibly one more under way. -/
def Orderly {op ret : Type} (as : List (Act op ret)) : Prop :=
  ∃ bs, Calm bs ∧ (as = bs ∨ (∃ o, as = bs ++ [.call o]) ∨ ∃ o r, as = bs ++ [.call o, .applied o r])

end Verif.Spec
