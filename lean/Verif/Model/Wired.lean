import Verif.Model.Topic
import Verif.Model.DataChannel

/-!
A topic together with the channels of its subscribers: pkg/concurrency/topic.go and pkg/concurrency/data_channel.go at work on each other. The
steps are those of `Topic.Step` and `DataChan.Step`; what a run of `distributeEvent` does in `Send` and what happens to the subscriber's channel
is one step of both.
-/

namespace Verif

namespace Wired

open Fut (upd)

/-- An event on its way: the number of the publish stands for the event's own UUID (pkg/concurrency/event_bus.go:86). -/
abbrev Mail (E : Type) := Nat × E

/-- A topic (pkg/concurrency/topic.go:40-43), the channel of every subscription made so far (topic.go:46, 52), and the event of every publish
(topic.go:57, 72). -/
structure Sys (E : Type) where
  topic : Topic.Sys
  chans : Nat → DataChan.Sys (Mail E)
  event : Nat → Option E

/-- topic.go:34-38 `NewTopic`. There are no channels yet; the numbers not yet given to a subscription stand for nothing. -/
def new (E : Type) : Sys E := { topic := Topic.new, chans := fun _ => DataChan.new (Mail E) 0, event := fun _ => none }

/-- What happens: something on the topic, something on the channel of subscription `id`, or both at once. `size` is the buffer size asked for
(0 for `Subscribe`), `publish` says which event is published. -/
inductive Ev (E : Type) where
  | subscribed (name : Bytes) (id : Nat) (size : Int)
  | publish (d : Nat) (e : E)
  | topic (x : Topic.Ev)
  | chan (id : Nat) (y : DataChan.Ev (Mail E))
  | both (x : Topic.Ev) (id : Nat) (y : DataChan.Ev (Mail E))

/-- The steps. -/
inductive Step {E : Type} : Sys E → Ev E → Sys E → Prop where
  /-- topic.go:45-55 -/
  | subscribe {s : Sys E} (name : Bytes) (id : Nat) (size : Int) (t : Topic.Sys) : Topic.Step s.topic (.subscribed name id) t →
      Step s (.subscribed name id size) { s with topic := t, chans := upd s.chans id (DataChan.new (Mail E) size) }
  /-- topic.go:57-75 -/
  | publish {s : Sys E} (d : Nat) (e : E) (t : Topic.Sys) : Topic.Step s.topic (.publish d) t →
      Step s (.publish d e) { s with topic := t, event := upd s.event d (some e) }
  /-- topic.go:77-117, all but the `Send` of line 97 -/
  | distribute {s : Sys E} (d : Nat) (x : Topic.DEv) (t : Topic.Sys) : (∀ n id r, x ≠ .tried n id r) → Topic.Step s.topic (.own d x) t →
      Step s (.topic (.own d x)) { s with topic := t }
  /-- topic.go:119-123 -/
  | delete {s : Sys E} (d : Nat) (name : Bytes) (t : Topic.Sys) : Topic.Step s.topic (.deleted d name) t →
      Step s (.topic (.deleted d name)) { s with topic := t }
  /-- topic.go:97, data_channel.go:129: the goroutine of run `d` for `name` calls `Send`. A run has one goroutine for a subscription, so the
  number of the run is taken for that of the sender. -/
  | call {s : Sys E} (d : Nat) (name : Bytes) (id : Nat) (e : E) (x : Topic.Dist) (c : DataChan.Sys (Mail E)) : s.topic.dists d = some x →
      x.snd name = .sending id → s.event d = some e → DataChan.Step (s.chans id) (.sendCall d (d, e)) c →
      Step s (.chan id (.sendCall d (d, e))) { s with chans := upd s.chans id c }
  /-- topic.go:97, data_channel.go:133-134 with a buffer -/
  | sent {s : Sys E} (d : Nat) (name : Bytes) (id : Nat) (m : Mail E) (t : Topic.Sys) (c : DataChan.Sys (Mail E)) :
      Topic.Step s.topic (.own d (.tried name id .success)) t → DataChan.Step (s.chans id) (.sent d m) c →
      Step s (.both (.own d (.tried name id .success)) id (.sent d m)) { s with topic := t, chans := upd s.chans id c }
  /-- topic.go:97, data_channel.go:133-134 and 120 without a buffer -/
  | handed {s : Sys E} (d : Nat) (name : Bytes) (id : Nat) (m : Mail E) (j : Nat) (t : Topic.Sys) (c : DataChan.Sys (Mail E)) :
      Topic.Step s.topic (.own d (.tried name id .success)) t → DataChan.Step (s.chans id) (.handed d m j) c →
      Step s (.both (.own d (.tried name id .success)) id (.handed d m j)) { s with topic := t, chans := upd s.chans id c }
  /-- topic.go:97, data_channel.go:131-132 -/
  | refused {s : Sys E} (d : Nat) (name : Bytes) (id : Nat) (m : Mail E) (t : Topic.Sys) (c : DataChan.Sys (Mail E)) :
      Topic.Step s.topic (.own d (.tried name id .closed)) t → DataChan.Step (s.chans id) (.sendClosed d m) c →
      Step s (.both (.own d (.tried name id .closed)) id (.sendClosed d m)) { s with topic := t, chans := upd s.chans id c }
  /-- topic.go:97, data_channel.go:135-136 -/
  | expired {s : Sys E} (d : Nat) (name : Bytes) (id : Nat) (m : Mail E) (t : Topic.Sys) (c : DataChan.Sys (Mail E)) :
      Topic.Step s.topic (.own d (.tried name id .expired)) t → DataChan.Step (s.chans id) (.expired d m) c →
      Step s (.both (.own d (.tried name id .expired)) id (.expired d m)) { s with topic := t, chans := upd s.chans id c }
  /-- data_channel.go:115-121, the receiver of a subscription calls `Receive` -/
  | recvCall {s : Sys E} (id j : Nat) (c : DataChan.Sys (Mail E)) : id < s.topic.made → DataChan.Step (s.chans id) (.recvCall j) c →
      Step s (.chan id (.recvCall j)) { s with chans := upd s.chans id c }
  /-- data_channel.go:116-118 -/
  | recvClosed {s : Sys E} (id j : Nat) (c : DataChan.Sys (Mail E)) : id < s.topic.made → DataChan.Step (s.chans id) (.recvClosed j) c →
      Step s (.chan id (.recvClosed j)) { s with chans := upd s.chans id c }
  /-- data_channel.go:120 -/
  | received {s : Sys E} (id j : Nat) (m : Mail E) (c : DataChan.Sys (Mail E)) : id < s.topic.made → DataChan.Step (s.chans id) (.received j m) c →
      Step s (.chan id (.received j m)) { s with chans := upd s.chans id c }
  /-- data_channel.go:124, successful -/
  | closeWon {s : Sys E} (id k : Nat) (c : DataChan.Sys (Mail E)) : id < s.topic.made → DataChan.Step (s.chans id) (.closeWon k) c →
      Step s (.chan id (.closeWon k)) { s with chans := upd s.chans id c }
  /-- data_channel.go:124, unsuccessful -/
  | closeLost {s : Sys E} (id k : Nat) (c : DataChan.Sys (Mail E)) : id < s.topic.made → (s.chans id).closers k = .idle →
      DataChan.Step (s.chans id) (.closed k) c → Step s (.chan id (.closed k)) { s with chans := upd s.chans id c }
  /-- data_channel.go:125: from now on `Send` can report `Closed` -/
  | close {s : Sys E} (id k : Nat) (t : Topic.Sys) (c : DataChan.Sys (Mail E)) : (s.chans id).closers k = .closing →
      Topic.Step s.topic (.closed id) t → DataChan.Step (s.chans id) (.closed k) c →
      Step s (.both (.closed id) id (.closed k)) { s with topic := t, chans := upd s.chans id c }

end Wired

end Verif
