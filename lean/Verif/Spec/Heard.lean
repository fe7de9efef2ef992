import Verif.Spec.Fair

/-! What it means that the goroutine reading from a connection is not forgotten, and that the connection is left alone. -/

namespace Verif.Spec

/-- What the goroutine of connection `c` does (pkg/network/server.go:190-207, pkg/network/conn.go:76-93). -/
inductive Reader (c : Nat) : Full.Ev → Prop where
  | call : Reader c (.line c (.readCall 2))
  | reset : Reader c (.line c (.readReset 2))
  | read (n : Nat) (o : Resp) : Reader c (.both (.net (.read c n o)) c (.read 2))
  | finish (e : Feed.Ev) : Reader c (.both (.net (.feed c e)) c (.readErr 2))
  | crash : Reader c (.whole (.net (.feed c .crash)))
  | fail : Reader c (.line c (.readErr 2))

/-- Connection `c` is never closed from here, its timer never fires, and its client does not go away. -/
def Run.Keeps {ω : Nat → Nat} {s0 : Full.Sys} (r : Run (Full.Step ω) s0) (c : Nat) : Prop :=
  ∀ j, ((r.state j).lines c).flag = false ∧ ((r.state j).lines c).worker = .selecting ∧ ((r.state j).lines c).client ≠ .gone

/-- All bytes that have arrived on connection `c` by time `i`. -/
def Run.sentBy {ω : Nat → Nat} {s0 : Full.Sys} (r : Run (Full.Step ω) s0) (c i : Nat) : Bytes := (piecesOf c (seenIn (r.until i))).flatten

/-- What has been read from connection `c` by time `i`: numbers of the requests and objects. -/
def Run.readBy {ω : Nat → Nat} {s0 : Full.Sys} (r : Run (Full.Step ω) s0) (c i : Nat) : List (Nat × Resp) := askedBy c (seenIn (r.until i))

end Verif.Spec
