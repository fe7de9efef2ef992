import Verif.Spec.Fair
import Verif.Spec.Proc

/-! What it means that a process told to stop is gone in the end. -/

namespace Verif.Spec

/-- Those who have a part in stopping: whoever calls `stop` and is not the main goroutine for `i ≠ 0`, and the main goroutine, at
pkg/network/server.go:177-180, for `i = 0`; the goroutine that accepts (server.go:140-164); and the response worker (server.go:166-169). -/
inductive StopPart where
  | caller (i : Nat)
  | acceptor
  | worker

/-- Who does what. Nobody has to call `stop` but the main goroutine. -/
inductive PartOf : StopPart → Proc.Ev → Prop where
  | main : PartOf (.caller 0) (.stop (.call 0))
  | won (i : Nat) : PartOf (.caller i) (.stop (.won i))
  | lost (i : Nat) : PartOf (.caller i) (.stop (.lost i))
  | did (i : Nat) (a : Stop.Act) : PartOf (.caller i) (.stop (.did i a))
  | flush (i : Nat) : PartOf (.caller i) (.both (.whole .flushed) (.did i .flush))
  | masterLeft (i : Nat) : PartOf (.caller i) (.stop (.masterLeft i))
  | returned (i : Nat) : PartOf (.caller i) (.stop (.returned i))
  | exit : PartOf (.caller 0) (.stop .exit)
  | accepted (c : Nat) : PartOf .acceptor (.both (onTheWay (.connected c)) (.accepted c))
  | acceptorLeft : PartOf .acceptor (.stop .acceptorLeft)
  | workerLeft : PartOf .worker (.stop .workerLeft)
  | works (e : Full.Ev) : DoneBy .worker e → PartOf .worker (.full e)
  | moves (e : Full.Ev) (x : Stop.Ev) : DoneBy .worker e → PartOf .worker (.both e x)

variable {m : Bool} {ω : Nat → Nat} {s0 : Proc.Sys}

/-- None of them is ever forgotten. -/
def Run.FairToStop (r : Run (Proc.Step m ω) s0) : Prop := ∀ g, r.Fair (PartOf g)

/-- At some time `stop` is called, because of a signal (server.go:126-129) or by `Stop`. -/
def Run.Called (r : Run (Proc.Step m ω) s0) : Prop := ∃ j i, i ≠ 0 ∧ r.ev j = some (.stop (.call i))

/-- At some time the process is there no more. -/
def Run.Gone (r : Run (Proc.Step m ω) s0) : Prop := ∃ j, ¬ (r.state j).up

/-- At some time `main` has returned. -/
def Run.Exits (r : Run (Proc.Step m ω) s0) : Prop := ∃ j, (r.state j).stop.exited = true

/-- Nothing kills the process. -/
def Run.Unkilled (r : Run (Proc.Step m ω) s0) : Prop := ∀ j, (r.state j).full.up ∧ (r.state j).stop.crashed = false

/-- From some time on the response worker waits in `Receive` (server.go:238), where nothing is. -/
def Run.WaitsForever (r : Run (Proc.Step m ω) s0) : Prop := ∃ i, ∀ j, i ≤ j → (r.state j).stop.worker = .receiving ∧ (r.state j).stop.queue = []

/-- From some time on the response worker is in one call of `Write`, because the expire worker of that connection is gone (pkg/network/conn.go:100) or
because again and again its client is found not to read (conn.go:102). -/
def Run.WritesForever (r : Run (Proc.Step m ω) s0) : Prop := ∃ i c b,
  (∀ j, i ≤ j → ((r.state j).full.lines c).pcs 1 = .writeReset b ∧ ((r.state j).full.lines c).worker ≠ .selecting) ∨
  ((∀ j, i ≤ j → ((r.state j).full.lines c).pcs 1 = .writing b) ∧ ∀ j, i ≤ j → ∃ k, j ≤ k ∧ ((r.state k).full.lines c).client = .stalled)

end Verif.Spec
