import Verif.Model.Site
import Verif.Spec.Desk
import Verif.Spec.Proc

/-! Users at terminals, at processes that run one after the other on the same file. -/

namespace Verif.Spec

/-- What happens in the process. -/
def procOf (tr : List Site.Ev) : List Proc.Ev := tr.filterMap fun
  | .proc e => some e
  | _ => none

/-- What happens at the terminals and in the server. -/
def deskOf (tr : List Site.Ev) : List Desk.Ev := tr.filterMap fun
  | .proc (.full e) | .proc (.both e _) => some (.server e)
  | .proc _ => none
  | .desk e => some e

/-- Processes run one after the other on the same file, which was new for the first, each stopped in an orderly way and with time for its log, and with users at
the connections `U` of each; with what happens in each of them. -/
inductive SiteLives (m : Bool) (U : Nat → Bool) : List (List Site.Ev) → Bytes → Prop where
  | none : SiteLives m U [] []
  | next {trs : List (List Site.Ev)} {d : Bytes} {st : State} {ω : Nat → Nat} {tr : List Site.Ev} {s : Site.Sys} : SiteLives m U trs d → Begins d st →
      Exec (Site.Step m ω U) (Site.new d st) tr s → StoppedWell (Proc.Calmly m ω) (Proc.new d st) (procOf tr) s.proc →
      SiteLives m U (trs ++ [tr]) s.proc.full.whole.file.disk

end Verif.Spec
