import Verif.Model.Site
import Verif.Model.Master

/-!
A process with replication (`Site`) and the goroutines that serve its replicas (`Master`): pkg/db/engine.go:55-61, 139-142, 199-203, 288-294, pkg/replication/master.go:62-177,
pkg/network/server.go:305-356.
-/

namespace Verif

namespace Fleet

/-- The process with its users, and its master. Of the engine in `hand` nothing but the log file is used, which is the one of the process
(server.go:344, engine.go:288-294). -/
structure Sys where
  site : Site.Sys
  hand : Master.Sys

/-- A process that has just begun on a log file with contents `d`, with what it has read from it, and without replicas. -/
def new (d : Bytes) (st : State) : Sys := { site := Site.new d st, hand := Master.new (Engine.start d []) true }

/-- What happens: something in the process; something with a replica; or the log is flushed for a replica, which is both. -/
inductive Ev where
  | site (e : Site.Ev)
  | hand (l : Master.Ev)
  | flush (l : Master.Ev)

/-- The process flushes its log because of a replica (master.go:119). -/
def flushes : Site.Ev := .proc (.both (.whole .flushed) .replicaFlush)

/-- The same with this log file. -/
def withFile (h : Master.Sys) (p : PFile) : Master.Sys := { h with engine := { h.engine with file := p } }

/-- The engine is in `site`. -/
def still (_ _ : Engine) : Prop := False

/-- What is neither the engine's nor the result of `Flush` (master.go:119-123). -/
def aside (h : Master.Sys) : Master.Ev → Prop
  | .engine | .flushed _ => False
  | .failed c => h.pcs c ≠ .created
  | _ => True

/-- The process is there. -/
def Sys.up (s : Sys) : Prop := s.site.gone = false ∧ s.site.proc.up

/-- The steps; at the connections `U` are command line clients. When the process has ended, all that happens to replicas is that their connections break. -/
inductive Step (ω : Nat → Nat) (U : Nat → Bool) : Sys → Ev → Sys → Prop where
  /-- see `Site.Step` -/
  | site {s : Sys} (e : Site.Ev) (t : Site.Sys) : e ≠ flushes → Site.Step true ω U s.site e t →
      Step ω U s (.site e) { site := t, hand := withFile s.hand t.proc.full.whole.file }
  /-- master.go:119-123 -/
  | flush {s : Sys} (c : Nat) (l : Master.Ev) (t : Site.Sys) (h : Master.Sys) : s.hand.pcs c = .created → (l = .flushed c ∨ l = .failed c) →
      Site.Step true ω U s.site flushes t → Master.Step still ω s.hand l h → Step ω U s (.flush l) { site := t, hand := h }
  /-- see `Master.Step` -/
  | hand {s : Sys} (l : Master.Ev) (h : Master.Sys) : aside s.hand l → (s.up ∨ ∃ c, l = .broke c) → Master.Step still ω s.hand l h →
      Step ω U s (.hand l) { s with hand := h }

end Fleet

end Verif
