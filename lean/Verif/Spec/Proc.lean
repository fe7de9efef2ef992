import Verif.Model.Proc
import Verif.Spec.Full
import Verif.Spec.Stop

/-! A process from its start to its end. -/

namespace Verif.Spec

/-- What happens in the server. -/
def fullOf (tr : List Proc.Ev) : List Full.Ev := tr.filterMap fun
  | .full e | .both e _ => some e
  | _ => none

/-- What happens in stopping it. -/
def stopOf (tr : List Proc.Ev) : List Stop.Ev := tr.filterMap fun
  | .stop x | .both _ x => some x
  | _ => none

/-- What clients send and get, and what happens in between. -/
def seenOver (tr : List Proc.Ev) : List Net.Ev := seenIn (fullOf tr)

/-- Steps of the process in which the engine begins with a request only when the writers before have been to the file. -/
def Proc.Calmly (m : Bool) (ω : Nat → Nat) (s : Proc.Sys) (e : Proc.Ev) (s' : Proc.Sys) : Prop :=
  Proc.Step m ω s e s' ∧ ∀ q, .received q ∈ wholeOf (fullOf [e]) → s.full.whole.pending = []

/-- By steps `R`, the log is flushed in stopping the process when the engine has left and every writer has written, and nothing fails at the file, then or
before or after. -/
def StoppedWell (R : Proc.Sys → Proc.Ev → Proc.Sys → Prop) (s0 : Proc.Sys) (tr : List Proc.Ev) (s : Proc.Sys) : Prop :=
  ∃ before s1 i s2 after, tr = before ++ .both (.whole .flushed) (.did i .flush) :: after ∧ Exec R s0 before s1 ∧ s1.left = true ∧
    s1.full.whole.pending = [] ∧ R s1 (.both (.whole .flushed) (.did i .flush)) s2 ∧ Exec R s2 after s ∧ s.full.whole.file.failed = false

/-- Processes run one after the other, by steps `R`, on the same file, which was new for the first, each stopped in an orderly way, with what happens in each
of them. -/
inductive ProcLives (R : (Nat → Nat) → Proc.Sys → Proc.Ev → Proc.Sys → Prop) : List (List Proc.Ev) → Bytes → Prop where
  | none : ProcLives R [] []
  | next {trs : List (List Proc.Ev)} {d : Bytes} {st : State} {ω : Nat → Nat} {tr : List Proc.Ev} {s : Proc.Sys} : ProcLives R trs d → Begins d st →
      StoppedWell (R ω) (Proc.new d st) tr s → ProcLives R (trs ++ [tr]) s.full.whole.file.disk

end Verif.Spec
