import Verif.Spec.Leave
import Verif.Spec.Desk

/-! What it means that users at terminals are served in executions without end. -/

namespace Verif.Spec

variable {ω : Nat → Nat} {U : Nat → Bool} {d : Bytes} {st : State}

/-- What happens at the server. -/
def Run.atServer (r : Run (Desk.Step ω U) (Desk.new d st)) : Run (Full.Step ω) (Full.new d st) where
  state i := (r.state i).full
  ev i := (r.ev i).bind fun
    | .server e => some e
    | _ => none
  start := by rw [r.start]; rfl
  next i := by
    rcases r.next i with ⟨l, h1, h2⟩ | ⟨h1, h2⟩
    · rw [h1]
      generalize r.state (i + 1) = s' at h2 ⊢
      cases h2 with
      | server e f _ _ h => exact .inl ⟨e, rfl, h⟩
      | _ => exact .inr ⟨rfl, rfl⟩
    · rw [h1, h2]; exact .inr ⟨rfl, rfl⟩

/-- Something of what the client at `c` has sent arrives. -/
def Carries (c : Nat) (e : Desk.Ev) : Prop := ∃ b, b ≠ [] ∧ e = .server (.whole (.net (.feed c (.arrived b))))

/-- What the client at `c` does while it waits for a reply (cmd/client/main.go:49-55). -/
inductive AtTerminal (c : Nat) : Desk.Ev → Prop where
  | took (b : Bytes) : AtTerminal c (.took c b)
  | shown (x : Resp) : AtTerminal c (.shown c x)
  | failed : AtTerminal c (.failed c)
  | crashed : AtTerminal c (.crashed c)

/-- The user at `c` waits for a reply. -/
def Expecting (s : Desk.Sys) (c : Nat) : Prop := (s.terms c).pc = .waiting

/-- The client of the user at `c` is not forgotten, what it sends arrives, and it reads while it waits for a reply. While the process of the server is
there, those who close the connection are not forgotten and its timer runs. -/
structure Run.Served (r : Run (Desk.Step ω U) (Desk.new d st)) (c : Nat) : Prop where
  client : r.Fair (AtTerminal c)
  network : r.Fair (Carries c)
  reads : ∀ j, Expecting (r.state j) c → ((r.state j).full.lines c).client ≠ .stalled
  closers : ∀ k, r.Fair fun e => ∃ x, e = .server x ∧ Closer c k x
  ticks : (∀ j, (r.state j).full.up ∧ (r.state j).gone = false) → r.atServer.Ticks c

/-- Every walk over a map goes over the map, and no reply is too long to be read back. -/
def Run.Decent {s0 : Full.Sys} (r : Run (Full.Step ω) s0) : Prop := ∀ j, ∀ x ∈ doneIn (seenIn (r.until j)), x.2.1.ord.Fair ∧ Sized x.2.2

/-- Neither of the two topics loses a request of connection `c` or the reply to one. -/
def Run.Delivers {s0 : Full.Sys} (r : Run (Full.Step ω) s0) (c : Nat) : Prop :=
  ∀ j, ∀ x ∈ r.readBy c j, .pipe (.dropped x.1) ∉ seenIn (r.until j) ∧ .pipe (.unqueued x.1) ∉ seenIn (r.until j)

/-- All is well for the user at `c`: the process lives and none of its goroutines is forgotten, those of connection `c` included; the response worker is not
held for ever; the connection is left alone and nothing of it is lost; what the client sends arrives, and it is not forgotten itself. -/
structure Run.Healthy (r : Run (Desk.Step ω U) (Desk.new d st)) (c : Nat) : Prop where
  lives : r.atServer.Lives
  here : ∀ j, (r.state j).gone = false
  all : r.atServer.FairToAll
  free : ¬ r.atServer.Holds
  reader : r.atServer.Fair (Reader c)
  keeps : r.atServer.Keeps c
  delivers : r.atServer.Delivers c
  network : r.Fair (Carries c)
  client : r.Fair (AtTerminal c)

end Verif.Spec
