import Verif.Model.Registry
import Verif.Spec.LTS

/-! What is asked of a master that is stopped. -/

namespace Verif.Spec

/-- The full claim, first part: whatever replicas do while a master is stopped, the process is not ended by the Go runtime. -/
def NeverCrashes : Prop := ∀ (addr : Nat → Nat) (tr : List Registry.Ev) (s : Registry.Sys), Exec (Registry.Step addr) Registry.new tr s → s.crashed = false

/-- The full claim, second part: once `stop` has returned no replica that is being served has an open connection, and none is served any more. -/
def StopEnds : Prop := ∀ (addr : Nat → Nat) (tr tr' : List Registry.Ev) (s s' : Registry.Sys) (c : Nat), Exec (Registry.Step addr) Registry.new tr s → s.stop = .over →
  Exec (Registry.Step addr) s tr' s' → (s.pcs c ≠ .absent → s.closed c = true) ∧ .sent c ∉ tr'

/-- Between the release of the mutex by `stop` and its end no change of the map begins. -/
def Undisturbed (tr : List Registry.Ev) : Prop := ∀ before after l, tr = before ++ l :: after → (∃ c, l = .adding c ∨ l = .removing c) →
  .letGo ∉ before ∨ .over ∈ before

end Verif.Spec
