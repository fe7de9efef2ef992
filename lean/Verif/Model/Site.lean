import Verif.Model.Desk
import Verif.Model.Proc

/-!
Users at terminals (`Desk`, cmd/client/main.go:16-56) at a process that is started, serves and is stopped (`Proc`, cmd/server/main.go:29-50).
-/

namespace Verif

namespace Site

/-- The process, the client at each connection, and whether the process has ended. -/
structure Sys where
  proc : Proc.Sys
  terms : Nat → Desk.Term
  gone : Bool

/-- A process that has just begun on a log file with contents `d`, with what it has read from it. -/
def new (d : Bytes) (st : State) : Sys := { proc := Proc.new d st, terms := fun _ => Desk.start, gone := false }

/-- What happens: something in the process; or at a terminal, or the end of the process. -/
inductive Ev where
  | proc (e : Proc.Ev)
  | desk (e : Desk.Ev)

/-- What happens in the server with this, see `Proc.Step`. -/
def inside : Proc.Ev → Option Full.Ev
  | .full e | .both e _ => some e
  | _ => none

/-- The terminals after this, see `Desk.moved`. -/
def moved (U : Nat → Bool) (t : Nat → Desk.Term) (e : Proc.Ev) : Nat → Desk.Term :=
  match inside e with
  | some f => Desk.moved U t f
  | none => t

/-- The terminals and the server. -/
def Sys.desk (s : Sys) : Desk.Sys := { full := s.proc.full, terms := s.terms, gone := s.gone }

/-- The steps; `m` tells whether there is a master, and at the connections `U` are command line clients. -/
inductive Step (m : Bool) (ω : Nat → Nat) (U : Nat → Bool) : Sys → Ev → Sys → Prop where
  /-- see `Proc.Step` and `Desk.Step` -/
  | proc {s : Sys} (e : Proc.Ev) (p : Proc.Sys) : s.gone = false → (∀ f, inside e = some f → Desk.fits U s.terms f) → Proc.Step m ω s.proc e p →
      Step m ω U s (.proc e) { proc := p, terms := moved U s.terms e, gone := false }
  /-- The process ends: because `main` returns (cmd/server/main.go:49-50), because of a panic, or by force. -/
  | gone {s : Sys} : Step m ω U s (.desk .gone) { s with gone := true }
  /-- see `Desk.Step` -/
  | desk {s : Sys} (e : Desk.Ev) (t : Nat → Desk.Term) : Desk.ofUser e = true → Desk.Step ω U s.desk e { s.desk with terms := t } →
      Step m ω U s (.desk e) { s with terms := t }

end Site

end Verif
