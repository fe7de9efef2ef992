import Verif.Model.Topic
import Verif.Spec.LTS

/-! Deliveries and subscriptions in terms of what happened on a topic. -/

namespace Verif.Spec

open Topic

/-- What run `d` did. -/
def runOf (d : Nat) : List Topic.Ev → List DEv
  | [] => []
  | .own d' e :: tr => if d' = d then e :: runOf d tr else runOf d tr
  | _ :: tr => runOf d tr

/-- The subscriptions whose channel accepted the event of this run. -/
def acceptedBy : List DEv → List (Bytes × Nat)
  | [] => []
  | .tried n id .success :: es => (n, id) :: acceptedBy es
  | _ :: es => acceptedBy es

/-- The names subscribed. -/
def namesOf : List Topic.Ev → List Bytes
  | [] => []
  | .subscribed n _ :: tr => n :: namesOf tr
  | _ :: tr => namesOf tr

/-- `name` belongs to subscription `id`: it was subscribed so, was not subscribed again, and was not removed. -/
def Current (tr : List Topic.Ev) (name : Bytes) (id : Nat) : Prop :=
  ∃ before after, tr = before ++ .subscribed name id :: after ∧ (∀ i, .subscribed name i ∉ after) ∧ ∀ d, .deleted d name ∉ after

/-- Subscription `id` was made under `name`, the name was not subscribed again, and the receiver has not closed its channel. -/
def Live (tr : List Topic.Ev) (name : Bytes) (id : Nat) : Prop :=
  ∃ before after, tr = before ++ .subscribed name id :: after ∧ (∀ i, .subscribed name i ∉ after) ∧ .closed id ∉ after

/-- What the goroutine serving the subscriber `name` does, and its start. -/
def ofServing (name : Bytes) : DEv → Bool
  | .visited m _ | .tried m _ _ | .counted m | .reported m | .ended m => m = name
  | _ => false

/-- From beginning to end: it is started for a subscription, sends once, counts a success or reports a closed channel, and ends. -/
inductive WholeServing (name : Bytes) : List DEv → Prop where
  | success (id : Nat) : WholeServing name [.visited name id, .tried name id .success, .counted name, .ended name]
  | closed (id : Nat) : WholeServing name [.visited name id, .tried name id .closed, .reported name, .ended name]
  | expired (id : Nat) : WholeServing name [.visited name id, .tried name id .expired, .ended name]

/-- What `distributeEvent` does itself. -/
def ofDistributing : DEv → Bool
  | .started | .ranged | .published _ | .chClosed | .spawned => true
  | _ => false

end Verif.Spec
