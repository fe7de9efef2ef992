import Verif.Model.GoMap
import Verif.Model.Proto
import Verif.Model.Future

/-!
pkg/concurrency/topic.go as a transition system: any number of concurrent `Subscribe`, `Close`, `Publish` and `Remove` on one topic.
-/

namespace Verif

namespace Topic

open Fut (upd)

/-- What `Send` returned (pkg/concurrency/data_channel.go:20-29). -/
inductive Status where
  | success | closed | expired
deriving DecidableEq

/-- Where the goroutine started for a subscriber is (pkg/concurrency/topic.go:96-107). -/
inductive SPc where
  /-- Not started. -/
  | none
  /-- topic.go:97, in `Send` to subscription `id`. -/
  | sending (id : Nat)
  /-- topic.go:99 -/
  | reporting
  /-- topic.go:103 -/
  | adding
  /-- topic.go:106 -/
  | ending
  | done
deriving DecidableEq

/-- The position of goroutine `n` changes. -/
def put (f : Bytes → SPc) (n : Bytes) (p : SPc) : Bytes → SPc := fun m => if m = n then p else f m

/-- Where the goroutine running `distributeEvent` is (pkg/concurrency/topic.go:77-117). -/
inductive DPc where
  /-- Started by `go`, topic.go:64, 72. -/
  | called
  /-- topic.go:90-110, in `Range`. -/
  | ranging
  /-- topic.go:112 -/
  | waiting
  /-- topic.go:114 -/
  | closing
  /-- topic.go:116 -/
  | spawning
  /-- topic.go:119-123, in `batchRemove` with these keys left. -/
  | cleaning (keys : List Bytes)
deriving DecidableEq

/-- One run of `distributeEvent` (pkg/concurrency/topic.go:77-117) with its goroutines. The names of `sync.Map.Range`'s visits are distinct, so a
name identifies a goroutine. `window` and `due` say what `Range` may and must visit: its documentation promises only that no key is visited
twice and that a key whose value is changed during the call may be visited with any of the values it had during the call. -/
structure Dist where
  pc : DPc
  /-- Everything the map contained at some moment since `Range` was called. -/
  window : List (Bytes × Nat)
  /-- The keys that were in the map when `Range` was called and were not deleted since. -/
  due : List Bytes
  visited : List Bytes
  snd : Bytes → SPc
  /-- The wait group's counter. -/
  wg : Int
  /-- `successCount`, an `int32`. -/
  count : Int
  /-- `ch` is closed. -/
  chClosed : Bool
  /-- The goroutine of topic.go:84-88 has received this key and not yet appended it. -/
  collector : Option Bytes
  /-- The goroutine of topic.go:84-88 runs. -/
  collecting : Bool
  /-- `closedKeys`. -/
  keys : List Bytes

/-- topic.go:78-82. -/
def Dist.new : Dist :=
  { pc := .called, window := [], due := [], visited := [], snd := fun _ => .none, wg := 0, count := 0, chClosed := false, collector := none
    collecting := true, keys := [] }

/-- What happens within one `distributeEvent`. -/
inductive DEv where
  | started
  | visited (name : Bytes) (id : Nat)
  | ranged
  /-- `Send` to subscription `id` returned. -/
  | tried (name : Bytes) (id : Nat) (r : Status)
  | counted (name : Bytes)
  | reported (name : Bytes)
  | collected (name : Bytes)
  | ended (name : Bytes)
  /-- The number is sent to `successChan` (topic.go:113), which has room for it. The future of `Publish` yields it (topic.go:60-62), `Remove`
  returns (topic.go:74). -/
  | published (n : Int)
  | chClosed
  /-- The goroutine of topic.go:84-88 ended. -/
  | collectorLeft
  | spawned
  | crash
deriving DecidableEq

/-- The steps of one `distributeEvent`. `subs` is the map of subscribers, `closed` tells which receivers are closed. Whether `Send` succeeds or
expires depends on the receiver's goroutine and the clock, and is left open. -/
inductive DStep (subs : GoMap Nat) (closed : Nat → Bool) : Dist → DEv → Dist → Prop where
  /-- topic.go:90, the call of `Range` -/
  | start {d : Dist} : d.pc = .called → DStep subs closed d .started { d with pc := .ranging, window := subs, due := subs.keys }
  /-- topic.go:91-109 -/
  | visit {d : Dist} (name : Bytes) (id : Nat) : d.pc = .ranging → (name, id) ∈ d.window → name ∉ d.visited →
      DStep subs closed d (.visited name id) { d with visited := name :: d.visited, wg := d.wg + 1, snd := put d.snd name (.sending id) }
  /-- topic.go:110 -/
  | ranged {d : Dist} : d.pc = .ranging → (∀ n ∈ d.due, n ∈ d.visited) → DStep subs closed d .ranged { d with pc := .waiting }
  /-- topic.go:97 -/
  | sent {d : Dist} (name : Bytes) (id : Nat) : d.snd name = .sending id →
      DStep subs closed d (.tried name id .success) { d with snd := put d.snd name .adding }
  | sendClosed {d : Dist} (name : Bytes) (id : Nat) : d.snd name = .sending id → closed id = true →
      DStep subs closed d (.tried name id .closed) { d with snd := put d.snd name .reporting }
  | sendExpired {d : Dist} (name : Bytes) (id : Nat) : d.snd name = .sending id →
      DStep subs closed d (.tried name id .expired) { d with snd := put d.snd name .ending }
  /-- topic.go:103 -/
  | count {d : Dist} (name : Bytes) : d.snd name = .adding →
      DStep subs closed d (.counted name) { d with count := Proto.wrap32 (d.count + 1), snd := put d.snd name .ending }
  /-- topic.go:99 and 85, the collector being ready -/
  | report {d : Dist} (name : Bytes) : d.snd name = .reporting → d.chClosed = false → d.collecting = true → d.collector = none →
      DStep subs closed d (.reported name) { d with collector := some name, snd := put d.snd name .ending }
  /-- topic.go:99, the channel being closed -/
  | crash {d : Dist} (name : Bytes) : d.snd name = .reporting → d.chClosed = true → DStep subs closed d .crash d
  /-- topic.go:86 -/
  | collect {d : Dist} (name : Bytes) : d.collector = some name →
      DStep subs closed d (.collected name) { d with keys := d.keys ++ [name], collector := none }
  /-- topic.go:85-88, the channel being closed -/
  | collectorLeft {d : Dist} : d.collecting = true → d.collector = none → d.chClosed = true →
      DStep subs closed d .collectorLeft { d with collecting := false }
  /-- topic.go:106 -/
  | finish {d : Dist} (name : Bytes) : d.snd name = .ending → DStep subs closed d (.ended name) { d with wg := d.wg - 1, snd := put d.snd name .done }
  /-- topic.go:112-113 -/
  | publish {d : Dist} : d.pc = .waiting → d.wg = 0 → DStep subs closed d (.published d.count) { d with pc := .closing }
  /-- topic.go:114 -/
  | close {d : Dist} : d.pc = .closing → DStep subs closed d .chClosed { d with pc := .spawning, chClosed := true }
  /-- topic.go:116. The slice is read while the collector may still be about to append its last key; the read is taken as atomic. -/
  | spawn {d : Dist} : d.pc = .spawning → DStep subs closed d .spawned { d with pc := .cleaning d.keys }

/-- The map got a new value while `Range` may be running. -/
def Dist.stored (name : Bytes) (id : Nat) (d : Dist) : Dist := { d with window := (name, id) :: d.window }

/-- A key was deleted while `Range` may be running. -/
def Dist.deleted (name : Bytes) (d : Dist) : Dist := { d with due := d.due.filter (· ≠ name) }

/-- A topic (pkg/concurrency/topic.go:40-43). `subscribers` is the `sync.Map`, the subscriptions are numbered, `closed` tells which receivers
have closed their channel, and `dists` holds the runs of `distributeEvent`. -/
structure Sys where
  subscribers : GoMap Nat
  made : Nat
  closed : Nat → Bool
  dists : Nat → Option Dist

/-- topic.go:34-38 `NewTopic`. -/
def new : Sys := { subscribers := [], made := 0, closed := fun _ => false, dists := fun _ => none }

/-- What happens on the topic. -/
inductive Ev where
  /-- `Subscribe` or `SubscribeWithOptions` made subscription `id`. -/
  | subscribed (name : Bytes) (id : Nat)
  /-- The receiver of subscription `id` closed its channel. -/
  | closed (id : Nat)
  /-- `Publish` or `Remove` was called and started run `d`. -/
  | publish (d : Nat)
  | own (d : Nat) (e : DEv)
  /-- Run `d` removed a subscriber. -/
  | deleted (d : Nat) (name : Bytes)
deriving DecidableEq

/-- The steps. -/
inductive Step : Sys → Ev → Sys → Prop where
  /-- topic.go:45-55 -/
  | subscribe {s : Sys} (name : Bytes) : Step s (.subscribed name s.made)
      { s with subscribers := s.subscribers.set name s.made, made := s.made + 1, dists := fun d => (s.dists d).map (Dist.stored name s.made) }
  /-- pkg/concurrency/data_channel.go:123-127 -/
  | close {s : Sys} (id : Nat) : id < s.made → Step s (.closed id) { s with closed := upd s.closed id true }
  /-- topic.go:57-75 -/
  | publish {s : Sys} (d : Nat) : s.dists d = none → Step s (.publish d) { s with dists := upd s.dists d (some Dist.new) }
  | own {s : Sys} (d : Nat) (x x' : Dist) (e : DEv) : s.dists d = some x → DStep s.subscribers s.closed x e x' →
      Step s (.own d e) { s with dists := upd s.dists d (some x') }
  /-- topic.go:120-122 -/
  | delete {s : Sys} (d : Nat) (x : Dist) (name : Bytes) (rest : List Bytes) : s.dists d = some x → x.pc = .cleaning (name :: rest) →
      Step s (.deleted d name)
        { s with subscribers := s.subscribers.erase name
                 dists := fun d' => (upd s.dists d (some { x with pc := .cleaning rest }) d').map (Dist.deleted name) }

end Topic

end Verif
