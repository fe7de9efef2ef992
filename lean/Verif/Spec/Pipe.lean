import Verif.Model.Pipe
import Verif.Spec.Request
import Verif.Spec.LTS

/-! Requests and replies in terms of what happened. -/

namespace Verif.Spec

/-- The requests read: number, connection, object. -/
def requestsOf : List Pipe.Ev → List (Nat × Nat × Resp)
  | [] => []
  | .read c n o :: tr => (n, c, o) :: requestsOf tr
  | _ :: tr => requestsOf tr

/-- The requests executed, in order: number, surroundings, reply. -/
def executedOf : List Pipe.Ev → List (Nat × Env × Resp)
  | [] => []
  | .executed n env r :: tr => (n, env, r) :: executedOf tr
  | _ :: tr => executedOf tr

/-- The replies written: number of the request, connection, bytes. -/
def writtenOf : List Pipe.Ev → List (Nat × Nat × Bytes)
  | [] => []
  | .wrote c n b :: tr => (n, c, b) :: writtenOf tr
  | _ :: tr => writtenOf tr

/-- `o` is a request array of these objects (or the null array, which has none). -/
def ArrayOf (o : Resp) (objs : List Resp) : Prop := o = .array objs ∨ (o = .nullArray ∧ objs = [])

end Verif.Spec
