import Verif.Model.Whole
import Verif.Spec.Net
import Verif.Spec.Hub
import Verif.Spec.Lives

/-! What can be seen of the whole server from the network, and what its engine received. -/

namespace Verif.Spec

/-- Without what happens in the bus and in the log. -/
def netOf (tr : List Whole.Ev) : List Net.Ev := tr.filterMap fun
  | .net e => some e
  | _ => none

/-- The requests the engine has begun to execute, with what their records get. -/
def begunIn (tr : List Whole.Ev) : List Whole.Record := tr.filterMap fun
  | .received q => some q
  | _ => none

/-- Steps in which the engine does not begin with a request while a writer is still waiting. -/
def Whole.Calmly (ω : Nat → Nat) (s : Whole.Sys) (l : Whole.Ev) (s' : Whole.Sys) : Prop :=
  Whole.Step ω s l s' ∧ ((∃ q, l = .received q) → s.pending = [])

/-- A record as it can occur: with a clock in range, own id and address in UTF-8, and below 4 GiB. -/
structure Recordable (q : Whole.Record) : Prop where
  time : InInt64 q.1.time
  id : ValidUTF8 q.1.id
  host : ValidUTF8 q.1.host
  small : (requestLog q.1 q.2).length < 2 ^ 32 + 4

/-- A request of the engine's, as its writer sees it. -/
def recordOf (q : Req) : Whole.Record := (q.stamp, q.objs)

/-- The history `h` consists of the requests executed in `tr`, each of which some client sent, in the surroundings in which they were executed. -/
def Executed (tr : List Net.Ev) (h : List Req) : Prop :=
  List.Forall₂ (fun x q => q.env = x.2.1 ∧ ∃ c o, (x.1, o) ∈ askedBy c tr ∧ ArrayOf o q.objs) (doneIn tr) h

/-- The file has not been touched. -/
def Untouched (tr : List Whole.Ev) : Prop := .flushed ∉ tr ∧ ∀ q, .recorded q ∉ tr

/-- A server between two requests, all of whose writers have written and whose buffer has gone to the disk. -/
structure Settled (w : Whole.Sys) : Prop where
  begun : w.begun = none
  pending : w.pending = []
  failed : w.file.failed = false
  buf : w.file.buf = []

/-- Servers run one after the other, by steps `R`, on the same file, which was new for the first, with what happens in each of them. -/
inductive NetLives (R : (Nat → Nat) → Whole.Sys → Whole.Ev → Whole.Sys → Prop) : List (List Whole.Ev) → Bytes → Prop where
  | none : NetLives R [] []
  | next {trs : List (List Whole.Ev)} {d : Bytes} {st : State} {ω : Nat → Nat} {tr : List Whole.Ev} {w : Whole.Sys} : NetLives R trs d → Begins d st →
      Exec (R ω) (Whole.new d st) tr w → Settled w → NetLives R (trs ++ [tr]) w.file.disk

/-- Records are as they can occur, and so are the iteration orders. -/
def Really (tr : List Whole.Ev) : Prop := (∀ r ∈ begunIn tr, Recordable r) ∧ ∀ x ∈ doneIn (netOf tr), x.2.1.ord.Fair

/-- The requests are in UTF-8 and neither LTRIM nor SPOP; records are as they can occur, and so are the iteration orders. -/
def Plainly (tr : List Whole.Ev) : Prop :=
  (∀ q : Req, recordOf q ∈ begunIn tr → Recordable (recordOf q) ∧ ¬ q.Is b!"ltrim" ∧ ¬ q.Is b!"spop" ∧ ∀ o ∈ q.objs, TextObj o) ∧
  ∀ x ∈ doneIn (netOf tr), x.2.1.ord.Fair

end Verif.Spec
