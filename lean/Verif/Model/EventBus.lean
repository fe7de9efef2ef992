import Verif.Model.GoMap
import Verif.Model.RWLock

/-! pkg/concurrency/event_bus.go: the table of topics. What a topic does with an event is in Model/Topic.lean. -/

namespace Verif

namespace Bus

/-- The calls. pkg/concurrency/event_bus.go:131-155 `Publish` and `PublishWithSource` differ only in the event, 157-181 `Subscribe` and
`SubscribeWithOptions` only in the channel. -/
inductive Op where
  | publish (name : Bytes)
  | subscribe (name : Bytes)
  | newTopic (name : Bytes)
  | removeTopic (name : Bytes)
  | existTopic (name : Bytes)
deriving DecidableEq

/-- Their results: the topic that got the event or the subscriber, `ErrNoSuchTopic`, or a boolean. -/
inductive Ret where
  | topic (id : Nat)
  | noSuchTopic
  | bool (b : Bool)
deriving DecidableEq

/-- pkg/concurrency/event_bus.go:125-129 `eventBus`. The topics are numbered in the order of their creation. -/
structure State where
  topics : GoMap Nat
  made : Nat

/-- pkg/concurrency/event_bus.go:224-232 `GetEventBus`. -/
def empty : State := { topics := [], made := 0 }

/-- event_bus.go:135-141, 148-154, 161-167, 174-180: look the topic up and hand over to it. -/
def find (s : State) (name : Bytes) : State × Ret :=
  match s.topics.get name with
  | none => (s, .noSuchTopic)
  | some id => (s, .topic id)

/-- event_bus.go:183-196 `NewTopic`. -/
def newTopic (s : State) (name : Bytes) : State × Ret :=
  match s.topics.get name with
  | some _ => (s, .bool false)
  | none => ({ topics := s.topics.set name s.made, made := s.made + 1 }, .bool true)

/-- event_bus.go:198-212 `RemoveTopic`. The call of `topic.Remove()` sends a last event and waits until it is distributed, which always
happens (C39). -/
def removeTopic (s : State) (name : Bytes) : State × Ret :=
  match s.topics.get name with
  | none => (s, .bool false)
  | some _ => ({ s with topics := s.topics.erase name }, .bool true)

/-- event_bus.go:214-221 `ExistTopic`. -/
def existTopic (s : State) (name : Bytes) : State × Ret := (s, .bool (s.topics.get name).isSome)

/-- The bodies of the methods and the locks they take. -/
def obj : Obj State Op Ret where
  run
    | .publish n, s => find s n
    | .subscribe n, s => find s n
    | .newTopic n, s => newTopic s n
    | .removeTopic n, s => removeTopic s n
    | .existTopic n, s => existTopic s n
  reads
    | .publish _ | .subscribe _ | .existTopic _ => true
    | .newTopic _ | .removeTopic _ => false

end Bus

end Verif
