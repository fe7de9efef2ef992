import Verif.Model.Full
import Verif.Spec.Whole
import Verif.Spec.Conn
import Verif.Spec.Fate

/-! What happens in the parts of the whole server with its connections, and what is on the wire. -/

namespace Verif.Spec

/-- What happens in the server. -/
def wholeOf (tr : List Full.Ev) : List Whole.Ev := tr.filterMap fun
  | .whole e | .both e _ _ => some e
  | .line _ _ => none

/-- What happens in connection `c`. -/
def lineOf (c : Nat) (tr : List Full.Ev) : List Conn.Ev := tr.filterMap fun
  | .line c' x | .both _ c' x => if c' = c then some x else none
  | .whole _ => none

/-- What clients send and get, and what happens in between. -/
def seenIn (tr : List Full.Ev) : List Net.Ev := netOf (wholeOf tr)

/-- The replies on the wire. -/
def repliesIn (out : List Conn.Out) : List Bytes := out.filterMap fun
  | .reply b => some b
  | _ => none

/-- The bytes on the wire. -/
def wireOf (out : List Conn.Out) : Bytes := out.flatMap fun
  | .reply b | .part b => b
  | .farewell => b!"TTL expired"

/-- Nobody has closed the connection, its timer has not fired, and the client reads. -/
structure Open (x : Conn.Sys) : Prop where
  flag : x.flag = false
  worker : x.worker = .selecting
  client : x.client = .reads

/-- What the server does at a connection. -/
def touches : Whole.Ev → Option Nat
  | .net (.feed c _) | .net (.read c _ _) | .net (.pipe (.wrote c _ _)) | .net (.pipe (.refused c _)) => some c
  | _ => none

/-- What an undisturbed connection does. -/
def smooth : Conn.Ev → Bool
  | .readCall _ | .readReset _ | .read _ | .readErr _ | .writeCall _ _ | .writeReset _ | .wrote _ _ => true
  | _ => false

/-- The request `n` came from client `c` and was executed with reply `r`, and nothing has become of the reply yet. -/
structure Outstanding (tr : List Full.Ev) (n c : Nat) (r : Resp) : Prop where
  asked : ∃ o, (n, o) ∈ askedBy c (seenIn tr)
  done : ∃ env, (n, env, r) ∈ doneIn (seenIn tr)
  fate : ∀ f, (n, f) ∉ fatesOf (pipeOf (seenIn tr))

/-- From `s` on, the reply `r` to request `n` of client `c` can still be written. -/
def CanAnswer (ω : Nat → Nat) (s : Full.Sys) (n c : Nat) (r : Resp) : Prop :=
  ∃ after s', Exec (Full.Step ω) s after s' ∧ .pipe (.wrote c n r.encode) ∈ seenIn after

/-- Whatever other clients do, a client that stays connected and reads can be answered, as long as the process lives. -/
def Isolated : Prop :=
  ∀ ω d st tr s, Exec (Full.Step ω) (Full.new d st) tr s → s.up → ∀ n c r, Outstanding tr n c r → Open (s.lines c) → CanAnswer ω s n c r

/-- The response worker waits for an expire worker that has gone (conn.go:100). -/
def Silenced (s : Full.Sys) : Prop := ∃ c b, (s.lines c).pcs 1 = .writeReset b ∧ (s.lines c).worker ≠ .selecting

end Verif.Spec
