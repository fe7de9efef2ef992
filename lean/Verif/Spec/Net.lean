import Verif.Model.Net
import Verif.Spec.Feed
import Verif.Spec.Pipe

/-! What a client sends and gets. -/

namespace Verif.Spec

/-- The pieces connection `c` has sent. -/
def piecesOf (c : Nat) : List Net.Ev → List Bytes
  | [] => []
  | .feed c' (.arrived b) :: tr => if c' = c then b :: piecesOf c tr else piecesOf c tr
  | _ :: tr => piecesOf c tr

/-- The requests read from connection `c`: number, object. -/
def askedBy (c : Nat) : List Net.Ev → List (Nat × Resp)
  | [] => []
  | .read c' n o :: tr => if c' = c then (n, o) :: askedBy c tr else askedBy c tr
  | _ :: tr => askedBy c tr

/-- The replies written to connection `c`: number of the request, bytes. -/
def answersTo (c : Nat) : List Net.Ev → List (Nat × Bytes)
  | [] => []
  | .pipe (.wrote c' n b) :: tr => if c' = c then (n, b) :: answersTo c tr else answersTo c tr
  | _ :: tr => answersTo c tr

/-- The requests executed, in order: number, surroundings, reply. -/
def doneIn : List Net.Ev → List (Nat × Env × Resp)
  | [] => []
  | .pipe (.executed n env r) :: tr => (n, env, r) :: doneIn tr
  | _ :: tr => doneIn tr

/-- What happens inside. -/
def pipeOf : List Net.Ev → List Pipe.Ev
  | [] => []
  | .pipe e :: tr => e :: pipeOf tr
  | .read c n o :: tr => .read c n o :: pipeOf tr
  | _ :: tr => pipeOf tr

/-- The client at connection `c` sends one request at a time and waits for its reply before it sends the next. -/
def Patient (c : Nat) (tr : List Net.Ev) : Prop :=
  ∀ before b after, tr = before ++ .feed c (.arrived b) :: after → (∃ o, Taken o b) ∧ (piecesOf c before).length = (answersTo c before).length

end Verif.Spec
