import Verif.Model.DataChannel
import Verif.Spec.LTS

/-! What goes into a data channel and what comes out. -/

namespace Verif.Spec

open DataChan

/-- The events whose `Send` returned `Success`, in that order. -/
def sentOf {E : Type} : List (Ev E) → List E
  | [] => []
  | .sent _ e :: tr => e :: sentOf tr
  | .handed _ e _ :: tr => e :: sentOf tr
  | _ :: tr => sentOf tr

/-- The events `Receive` returned, in that order. -/
def receivedOf {E : Type} : List (Ev E) → List E
  | [] => []
  | .received _ e :: tr => e :: receivedOf tr
  | .handed _ e _ :: tr => e :: receivedOf tr
  | _ :: tr => receivedOf tr

/-- The events passed to `Send`. -/
def offeredOf {E : Type} : List (Ev E) → List E
  | [] => []
  | .sendCall _ e :: tr => e :: offeredOf tr
  | _ :: tr => offeredOf tr

/-- The events whose `Send` returned `Closed` or `Expired`. -/
def refusedOf {E : Type} : List (Ev E) → List E
  | [] => []
  | .sendClosed _ e :: tr => e :: refusedOf tr
  | .expired _ e :: tr => e :: refusedOf tr
  | _ :: tr => refusedOf tr

end Verif.Spec
