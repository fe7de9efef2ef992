import Verif.Model.Wired
import Verif.Spec.Topic
import Verif.Spec.DataChannel

/-! What reaches the subscribers of a topic. -/

namespace Verif.Spec

open Wired

/-- What happens on the topic. -/
def onTopic {E : Type} : List (Wired.Ev E) → List Topic.Ev
  | [] => []
  | .subscribed n id _ :: tr => .subscribed n id :: onTopic tr
  | .publish d _ :: tr => .publish d :: onTopic tr
  | .topic x :: tr => x :: onTopic tr
  | .chan _ _ :: tr => onTopic tr
  | .both x _ _ :: tr => x :: onTopic tr

/-- What happens on the channel of subscription `id`. -/
def onChan {E : Type} (id : Nat) : List (Wired.Ev E) → List (DataChan.Ev (Mail E))
  | [] => []
  | .chan i y :: tr => if i = id then y :: onChan id tr else onChan id tr
  | .both _ i y :: tr => if i = id then y :: onChan id tr else onChan id tr
  | _ :: tr => onChan id tr

/-- The publishes that subscription `id` accepted, in the order in which it did. -/
def acceptedAt (id : Nat) : List Topic.Ev → List Nat
  | [] => []
  | .own d (.tried _ i .success) :: tr => if i = id then d :: acceptedAt id tr else acceptedAt id tr
  | _ :: tr => acceptedAt id tr

/-- What the receiver of subscription `id` got, in order: which publish it was, and the event. -/
def got {E : Type} (id : Nat) (tr : List (Wired.Ev E)) : List (Mail E) := receivedOf (onChan id tr)

end Verif.Spec
