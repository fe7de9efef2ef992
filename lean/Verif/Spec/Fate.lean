import Verif.Spec.Pipe

/-! What can become of a request. -/

namespace Verif.Spec

/-- How the way of a request ends. -/
inductive Fate where
  /-- The event telling the engine about it expired. -/
  | dropped
  /-- It is no array. -/
  | ignored
  /-- The event telling the response worker about its reply expired. -/
  | unqueued
  /-- The connection did not take the reply. -/
  | refused
  | answered
deriving DecidableEq

/-- The requests whose way has ended, with the way it did. -/
def fatesOf : List Pipe.Ev → List (Nat × Fate)
  | [] => []
  | .dropped n :: tr => (n, .dropped) :: fatesOf tr
  | .ignored n :: tr => (n, .ignored) :: fatesOf tr
  | .unqueued n :: tr => (n, .unqueued) :: fatesOf tr
  | .refused _ n :: tr => (n, .refused) :: fatesOf tr
  | .wrote _ n _ :: tr => (n, .answered) :: fatesOf tr
  | _ :: tr => fatesOf tr

/-- The request is still on its way: being told to the engine, at the engine, or its reply is on its way back. -/
def OnItsWay (s : Pipe.Sys) (n : Nat) : Prop :=
  (∃ m, (n, m) ∈ s.requests) ∨ (∃ m, s.engine = some (n, m)) ∨ (∃ m, (n, m) ∈ s.responses) ∨ (∃ m, (n, m) ∈ s.buffer) ∨ ∃ c b, s.worker = some (n, c, b)

/-- Events on the way of a reply back to its client. -/
def Delivers : Pipe.Ev → Prop
  | .queued _ | .answering _ | .wrote .. => True
  | _ => False

/-- Events that need someone outside: a client that connects or sends. -/
def External : Pipe.Ev → Prop
  | .connected _ | .read .. => True
  | _ => False

end Verif.Spec
