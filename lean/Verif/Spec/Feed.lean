import Verif.Spec.Wire
import Verif.Spec.Resp
import Verif.Spec.LTS
import Verif.Model.Feed

/-! What a client can tell about the requests it sends on one connection. -/

namespace Verif.Spec

open Feed

/-- All bytes that have arrived. -/
def arrivedOf (tr : List Feed.Ev) : Bytes :=
  tr.flatMap fun
    | .arrived b => b
    | _ => []

/-- The requests that were read. -/
def readOf (tr : List Feed.Ev) : List Resp :=
  tr.flatMap fun
    | .read o => [o]
    | _ => []

/-- Caused by the client. -/
def FromClient : Feed.Ev → Prop
  | .arrived _ | .ended => True
  | _ => False

/-- The server has nothing to do any more unless the client does something. -/
def AtRest (s : Feed.Sys) : Prop := ∀ e s', Feed.Step s e s' → FromClient e

/-- No continuation makes this the beginning of an object. -/
def Hopeless (p : Bytes) : Prop := ∀ later o b r, p ++ later = b ++ r → ¬ Taken o b

/-- No object yet, but not refused either. -/
def Incomplete (p : Bytes) : Prop := ∀ o b r, p = b ++ r → ¬ Taken o b

end Verif.Spec
