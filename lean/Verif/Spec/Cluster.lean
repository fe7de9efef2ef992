import Verif.Model.Cluster
import Verif.Model.Master
import Verif.Spec.Fair

/-! What it means that servers get up. -/

namespace Verif.Spec

variable {cfg : Nat → Cluster.Config}

/-- Those who have a part in the start of server `i`: its main goroutine; the master's loop that accepts, which takes connections in the order in which
they were made, so that none is passed over for ever; the goroutine that serves it there; the garbage collector there. -/
inductive Starter where
  | main | queue | handler | collector

/-- Who does what for server `i`. -/
inductive StartedBy (i : Nat) : Starter → Cluster.Ev → Prop where
  | alone : StartedBy i .main (.alone i)
  | dialled : StartedBy i .main (.dialled i)
  | refused : StartedBy i .main (.refused i)
  | received : StartedBy i .main (.received i)
  | served : StartedBy i .main (.served i)
  | accepted : StartedBy i .queue (.accepted i)
  | noFile : StartedBy i .handler (.noFile i)
  | sent : StartedBy i .handler (.sent i)
  | failed : StartedBy i .handler (.failed i)
  | collected : StartedBy i .collector (.collected i)

/-- None of them is ever forgotten. -/
def Run.FairToStarters (r : Run (Cluster.Step cfg) Cluster.new) : Prop := ∀ i g, r.Fair (StartedBy i g)

/-- Server `i` is there at time `t` and is not killed later. -/
def Run.Stays (r : Run (Cluster.Step cfg) Cluster.new) (i t : Nat) : Prop := r.state t i ≠ .off ∧ ∀ j, t ≤ j → r.ev j ≠ some (.died i)

/-- Server `i` serves its clients at some time from `t` on. -/
def Run.GetsUp (r : Run (Cluster.Step cfg) Cluster.new) (i t : Nat) : Prop := ∃ j b, t ≤ j ∧ r.state j i = .up b

/-- The full claim: a server that is started and not killed serves its clients in the end. -/
def AllGetUp : Prop := ∀ (cfg : Nat → Cluster.Config) (r : Run (Cluster.Step cfg) Cluster.new), r.FairToStarters → ∀ i t, r.Stays i t → r.GetsUp i t

/-- From some time on server `i` is for ever where it is. -/
def Run.For (r : Run (Cluster.Step cfg) Cluster.new) (i : Nat) (p : Cluster.Pc) : Prop := ∃ t, ∀ j, t ≤ j → r.state j i = p

/-- The servers in `S` wait for each other for ever, or for a server that does not accept connections any more. -/
def Run.Deadlocked (r : Run (Cluster.Step cfg) Cluster.new) (S : Nat → Prop) : Prop := ∀ k, S k → r.For k (.waiting .queued) ∧
  ∃ m, (cfg k).master = some m ∧ (S m ∨ r.For m (.up false))

/-- A goroutine is not forgotten, where what it does in each state is given. -/
def Run.FairIn {S L : Type} {step : S → L → S → Prop} {s0 : S} (r : Run step s0) (acts : S → L → Prop) : Prop :=
  ∀ i, (∀ j, i ≤ j → ∃ l s', acts (r.state j) l ∧ step (r.state j) l s') → ∃ j l, i ≤ j ∧ r.ev j = some l ∧ acts (r.state j) l

/-- What `handleConn` does for connection `c` by itself: it sends only what the network takes, which is not up to it, and it gives up only for a reason: the
log cannot be flushed, or the connection is gone. -/
inductive Handles (c : Nat) (s : Master.Sys) : Master.Ev → Prop where
  | noFile : Handles c s (.noFile c)
  | entered : Handles c s (.entered c)
  | listed : Handles c s (.listed c)
  | created : Handles c s (.created c)
  | flushed : Handles c s (.flushed c)
  | opened : Handles c s (.opened c)
  | copied : Handles c s (.copied c)
  | prepared : Handles c s (.prepared c)
  | finished : Handles c s (.finished c)
  | failed : s.pcs c = .created ∨ s.closed c = true → Handles c s (.failed c)

/-- From some time on nothing more is taken of what is sent to the replica at `c`, and the connection is there. -/
def Run.Clogged {R : Engine → Engine → Prop} {ω : Nat → Nat} {s0 : Master.Sys} (r : Run (Master.Step R ω) s0) (c : Nat) : Prop :=
  ∃ t b n, n < (transfer b).length ∧ ∀ j, t ≤ j → (r.state j).pcs c = .sending b n ∧ (r.state j).closed c = false

end Verif.Spec
