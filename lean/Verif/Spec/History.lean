import Verif.Spec.Request
import Verif.Spec.Log
import Mathlib.Logic.Relation

/-! Histories of a server with a log file. -/

namespace Verif.Spec

/-- The log file of a history whose records were written in execution order. -/
def historyLog (h : List Req) : Bytes := h.flatMap fun q => requestLog q.stamp q.objs

/-- Every string inside the object is UTF-8. -/
inductive TextObj : Resp → Prop where
  | simple {d} : ValidUTF8 d → TextObj (.simple d)
  | bulk {d} : ValidUTF8 d → TextObj (.bulk d)
  | nullBulk : TextObj .nullBulk
  | error {d} : ValidUTF8 d → TextObj (.error d)
  | int {n} : TextObj (.int n)
  | array {items} : (∀ o ∈ items, TextObj o) → TextObj (.array items)
  | nullArray : TextObj .nullArray

end Verif.Spec

namespace Verif

open Spec

/-- A request as it can occur: read from a connection, with a clock in range, own id and address in UTF-8, and a record below 4 GiB. -/
structure Req.Occurs (q : Req) : Prop where
  fair : q.env.ord.Fair
  wire : ∃ s r, parse s = .ok (.array q.objs) r
  time : InInt64 q.stamp.time
  id : ValidUTF8 q.stamp.id
  host : ValidUTF8 q.stamp.host
  small : (requestLog q.stamp q.objs).length < 2 ^ 32 + 4

/-- The request names the command `name`. -/
def Req.Is (q : Req) (name : Bytes) : Prop := ∃ os, Calls q.objs name os

end Verif

namespace Verif.Spec

/-- The requests as the server sees them. -/
def served (h : List Req) : List (Env × List Resp) := h.map fun q => (q.env, q.objs)

/-- No database holds anything. -/
def noDBs : DBs := fun _ => State.empty

/-- For all histories of requests with property `P` that the server survives: starting a new server on the log rebuilds the same contents, in
database 1 and nowhere else, whatever iteration orders the replay meets. -/
def Rebuilds (P : Req → Prop) : Prop :=
  ∀ (h : List Req) (st : State) (rs : List Resp), (∀ q ∈ h, q.Occurs ∧ P q) → serve State.empty (served h) = .ok (st, rs) →
    ∀ envs : Nat → Env, (∀ i, (envs i).ord.Fair) →
      ∃ dbs a, fromFile noDBs envs (historyLog h) = .ok dbs ∧ Abs st a ∧ Abs (dbs 1) a ∧ ∀ i, i ≠ 1 → dbs i = State.empty

/-- The same reply, or internal errors with possibly different texts. -/
def SameReply (r s : Resp) : Prop := r = s ∨ InternalError r ∧ InternalError s

/-- A run of engine and writers from start to `e`. -/
def Runs (ω : Nat → Nat) (d : Bytes) (h : List Req) (e : Engine) : Prop := Relation.ReflTransGen (Engine.Step ω) (Engine.start d h) e

/-- Nothing is left to do: all requests have been answered and all writers have finished. -/
def Idle (e : Engine) : Prop := e.todo = [] ∧ e.current = none ∧ e.pending = []

/-- The commands whose replies follow a map's iteration order or a random choice. -/
def unordered : List Bytes :=
  [b!"hkeys", b!"hvals", b!"hgetall", b!"smembers", b!"srandmember", b!"spop", b!"sdiff", b!"sinter", b!"sunion"]

/-- Two runs of the same requests: both die, or both give the same replies and end with the same contents. -/
def SameRun : Outcome (State × List Resp) → Outcome (State × List Resp) → Prop
  | .ok (st, rs), .ok (st', rs') => List.Forall₂ SameReply rs rs' ∧ ∃ a, Abs st a ∧ Abs st' a
  | .panic, .panic => True
  | _, _ => False

end Verif.Spec
