import Verif.Spec.Full

/-! Executions that go on for ever, and what it means that no goroutine is forgotten in them. -/

namespace Verif.Spec

/-- An execution without end. At any time nothing may happen for a while. -/
structure Run {S L : Type} (step : S → L → S → Prop) (s0 : S) where
  state : Nat → S
  ev : Nat → Option L
  start : state 0 = s0
  next : ∀ i, (∃ l, ev i = some l ∧ step (state i) l (state (i + 1))) ∨ (ev i = none ∧ state (i + 1) = state i)

/-- What has happened before time `i`. -/
def Run.until {S L : Type} {step : S → L → S → Prop} {s0 : S} (r : Run step s0) (i : Nat) : List L := (List.range i).filterMap r.ev

/-- One of these can happen now. -/
def Possible {S L : Type} (step : S → L → S → Prop) (acts : L → Prop) (s : S) : Prop := ∃ l s', acts l ∧ step s l s'

/-- A goroutine is not forgotten: if from some time on there is always something it can do, it does something. -/
def Run.Fair {S L : Type} {step : S → L → S → Prop} {s0 : S} (r : Run step s0) (acts : L → Prop) : Prop :=
  ∀ i, (∀ j, i ≤ j → Possible step acts (r.state j)) → ∃ j l, i ≤ j ∧ r.ev j = some l ∧ acts l

/-- The goroutines on the way of a request: for request number `n` the one running `distributeEvent` (topic.go:64, 77) and the one it starts for the
subscriber (topic.go:96), until `Send` has returned, for the request itself and for the reply to it (`reply`); the engine's
(pkg/network/server.go:171); and the response worker's (server.go:166-169). -/
inductive Goroutine where
  | spread (reply : Bool) (n : Nat)
  | send (reply : Bool) (n : Nat)
  | engine
  | worker

/-- What happens in one of the two topics. -/
def inTopic (reply : Bool) (e : Wired.Ev (GoMap Pipe.Val)) : Full.Ev := .whole (.bus (if reply then .responses e else .requests e))

/-- What happens to a request. -/
def onTheWay (e : Pipe.Ev) : Full.Ev := .whole (.net (.pipe e))

/-- What `distributeEvent` does itself. -/
def itself : Topic.DEv → Bool
  | .started | .visited _ _ | .ranged | .published _ | .chClosed | .spawned => true
  | _ => false

/-- Who does what. When a request is handed over, two goroutines do something. -/
inductive DoneBy : Goroutine → Full.Ev → Prop where
  | spread (reply : Bool) (n : Nat) (x : Topic.DEv) : itself x = true → DoneBy (.spread reply n) (inTopic reply (.topic (.own n x)))
  | call (reply : Bool) (n : Nat) (m : Nat × GoMap Pipe.Val) : DoneBy (.send reply n) (inTopic reply (.chan 0 (.sendCall n m)))
  | hand (n : Nat) : DoneBy (.send false n) (onTheWay (.taken n))
  | drop (n : Nat) : DoneBy (.send false n) (onTheWay (.dropped n))
  | queue (n : Nat) : DoneBy (.send true n) (onTheWay (.queued n))
  | unqueue (n : Nat) : DoneBy (.send true n) (onTheWay (.unqueued n))
  | wait : DoneBy .engine (inTopic false (.chan 0 (.recvCall 0)))
  | take (n : Nat) : DoneBy .engine (onTheWay (.taken n))
  | ignore (n : Nat) : DoneBy .engine (onTheWay (.ignored n))
  | receive (q : Whole.Record) : DoneBy .engine (.whole (.received q))
  | execute (n : Nat) (env : Env) (r : Resp) : DoneBy .engine (onTheWay (.executed n env r))
  | crash (n : Nat) (env : Env) : DoneBy .engine (onTheWay (.crash n env))
  | await : DoneBy .worker (inTopic true (.chan 0 (.recvCall 0)))
  | answer (n : Nat) : DoneBy .worker (onTheWay (.answering n))
  | look : DoneBy .worker (.whole (.bus .looked))
  | nobody (n : Nat) : DoneBy .worker (onTheWay (.nobody n))
  | writeCall (c : Nat) (b : Bytes) : DoneBy .worker (.line c (.writeCall 1 b))
  | writeReset (c : Nat) : DoneBy .worker (.line c (.writeReset 1))
  | wrote (c n : Nat) (b : Bytes) : DoneBy .worker (.both (.net (.pipe (.wrote c n b))) c (.wrote 1 b))
  | refuse (c n : Nat) (b : Bytes) : DoneBy .worker (.both (.net (.pipe (.refused c n))) c (.writeClosed 1 b))
  | fail (c n : Nat) (b : Bytes) : DoneBy .worker (.both (.net (.pipe (.refused c n))) c (.writeErr 1 b))

/-- None of them is ever forgotten. -/
def Run.FairToAll {ω : Nat → Nat} {s0 : Full.Sys} (r : Run (Full.Step ω) s0) : Prop := ∀ g, r.Fair (DoneBy g)

/-- The process is never killed. -/
def Run.Lives {ω : Nat → Nat} {s0 : Full.Sys} (r : Run (Full.Step ω) s0) : Prop := ∀ j, (r.state j).up

/-- Every walk over a map goes over the map. -/
def Run.Sane {ω : Nat → Nat} {s0 : Full.Sys} (r : Run (Full.Step ω) s0) : Prop :=
  ∀ j, ∀ x ∈ executedOf (pipeOf (seenIn (r.until j))), x.2.1.ord.Fair

/-- Request `n` is read at some time. -/
def Run.Asks {ω : Nat → Nat} {s0 : Full.Sys} (r : Run (Full.Step ω) s0) (n : Nat) : Prop := ∃ i c o, .read c n o ∈ seenIn (r.until i)

/-- Request `n` meets one of its fates at some time. -/
def Run.Settles {ω : Nat → Nat} {s0 : Full.Sys} (r : Run (Full.Step ω) s0) (n : Nat) : Prop := ∃ i f, (n, f) ∈ fatesOf (pipeOf (seenIn (r.until i)))

/-- From some time on the response worker is for ever in one call of `Write`, because the expire worker of that connection is gone (conn.go:100) or
because again and again its client is found not to read (conn.go:102). -/
def Run.Holds {ω : Nat → Nat} {s0 : Full.Sys} (r : Run (Full.Step ω) s0) : Prop := ∃ i c b,
  (∀ j, i ≤ j → ((r.state j).lines c).pcs 1 = .writeReset b ∧ ((r.state j).lines c).worker ≠ .selecting) ∨
  ((∀ j, i ≤ j → ((r.state j).lines c).pcs 1 = .writing b) ∧ ∀ j, i ≤ j → ∃ k, j ≤ k ∧ ((r.state k).lines c).client = .stalled)

end Verif.Spec
