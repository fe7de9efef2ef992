import Verif.Spec.LTS
import Verif.Model.Expiry

/-! When a connection expires, in terms of what happened on it. -/

namespace Verif.Spec

open Expiry

/-- The time that has passed. -/
def ticks (tr : List Expiry.Ev) : Nat := tr.count .tick

/-- When timers were started in `es`, which began at time `now`: whenever `Read` or `Write` made the worker wait anew. -/
def startedFrom (now : Nat) : List Expiry.Ev → List Nat
  | [] => []
  | .tick :: es => startedFrom (now + 1) es
  | .readReset :: es | .wrote :: es => now :: startedFrom now es
  | _ :: es => startedFrom now es

/-- When timers were started: when the connection began, and later. -/
def started (tr : List Expiry.Ev) : List Nat := 0 :: startedFrom 0 tr

/-- Not the server's doing. -/
def Outside : Expiry.Ev → Prop
  | .tick | .arrived | .bytes | .malformed | .ended | .writeCall => True
  | _ => False

end Verif.Spec
