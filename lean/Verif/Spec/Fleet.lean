import Verif.Model.Fleet
import Verif.Spec.Site
import Verif.Spec.Mirror

/-! A process with users and replicas. -/

namespace Verif.Spec

/-- What happens in the process and at the terminals. -/
def siteOf (tr : List Fleet.Ev) : List Site.Ev := tr.filterMap fun
  | .site e => some e
  | .flush _ => some Fleet.flushes
  | .hand _ => none

/-- What happens to the replicas; whatever happens in the process may have changed its log. -/
def handOf (tr : List Fleet.Ev) : List Master.Ev := tr.map fun
  | .site _ => .engine
  | .hand l | .flush l => l

/-- The engine may have done anything that does not take back what is on the disk. -/
def Grows (e e' : Engine) : Prop := e.file.disk <+: e'.file.disk

/-- Steps in which the engine begins with a request only when the writers before have been to the file. -/
def Fleet.Calmly (ω : Nat → Nat) (U : Nat → Bool) (s : Fleet.Sys) (e : Fleet.Ev) (s' : Fleet.Sys) : Prop :=
  Fleet.Step ω U s e s' ∧ ∀ q, .received q ∈ wholeOf (fullOf (procOf (siteOf [e]))) → s.site.proc.full.whole.pending = []

end Verif.Spec
