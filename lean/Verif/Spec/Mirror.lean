import Verif.Spec.History
import Verif.Model.Master

/-! What a replica may hold. -/

namespace Verif.Spec

/-- Database 1 holds what a server holds after the first `n` of the requests `h`, and the other databases hold nothing. -/
def HoldsAfter (dbs : DBs) (h : List Req) (n : Nat) : Prop :=
  ∃ s rs a, serve State.empty (served (h.take n)) = .ok (s, rs) ∧ Abs s a ∧ Abs (dbs 1) a ∧ ∀ i, i ≠ 1 → dbs i = State.empty

/-- `handleConn` has not written the log out for connection `c` yet. -/
def Early (s : Master.Sys) (c : Nat) : Prop :=
  s.pcs c = .absent ∨ s.pcs c = .accepted ∨ s.pcs c = .entered ∨ s.pcs c = .listed ∨ s.pcs c = .created

end Verif.Spec
