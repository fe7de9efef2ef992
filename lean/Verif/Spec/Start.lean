import Verif.Model.Start

/-! What a configuration asks for. -/

namespace Verif.Spec

/-- Replicas are to be served, on port `p`: the one configured if it can be told apart from the server's own, otherwise the one after that. -/
def ReplicaPort (c : Config) (p : Int) : Prop :=
  c.enableReplica = true ∧ ((0 < c.replicaPort ∧ c.replicaPort ≠ c.port ∧ p = c.replicaPort) ∨
    (¬ (0 < c.replicaPort ∧ c.replicaPort ≠ c.port) ∧ p = c.port + 1))

/-- A port that can be listened on. -/
def Usable (w : World) (p : Int) : Prop := 0 < p ∧ p < 65536 ∧ w.free p = true

end Verif.Spec
