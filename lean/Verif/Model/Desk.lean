import Verif.Model.Full
import Verif.Model.ClientMain

/-!
Users at terminals: any number of command line clients, cmd/client/main.go:16-56, at the whole server with its connections (`Full`), beside any number
of other clients.
-/

namespace Verif

namespace Desk

open Fut (upd)

/-- Where the loop of cmd/client/main.go:26-55 is. -/
inductive Pc where
  /-- At its beginning, line 27. -/
  | top
  /-- Waiting for a line, line 28. -/
  | asking
  /-- Waiting for a reply, line 49. -/
  | waiting
  /-- Ended, or crashed. -/
  | over
deriving DecidableEq

/-- A command line client. `sent` is what it has written and what has not arrived at the server yet, `pos` how many bytes it has read from the
connection, `buf` those of them that the `bufio.Reader` of line 49 has read, `screen` what the user sees. -/
structure Term where
  pc : Pc
  sent : Bytes
  pos : Nat
  buf : Bytes
  screen : List Client.Seen

/-- main.go:16-24, connected. -/
def start : Term := { pc := .top, sent := [], pos := 0, buf := [], screen := [] }

/-- The server, the client at each connection, and whether the process of the server has ended, by itself (cmd/server/main.go:49-50) or by force. -/
structure Sys where
  full : Full.Sys
  terms : Nat → Term
  gone : Bool

/-- A server without clients that stores `st`, on a log file with contents `d`. -/
def new (d : Bytes) (st : State) : Sys := { full := Full.new d st, terms := fun _ => start, gone := false }

/-- What happens: something at the server; or at the client of connection `c`. -/
inductive Ev where
  | server (e : Full.Ev)
  /-- The process of the server ends. -/
  | gone
  /-- The prompt is printed. -/
  | prompted (c : Nat)
  /-- The user types the line `s`, and it is sent. -/
  | typed (c : Nat) (s : Bytes)
  /-- The user types the line `s`, and it cannot be sent. -/
  | unsent (c : Nat) (s : Bytes)
  /-- The user types `quit`, a line that is too long, or nothing more. -/
  | quit (c : Nat)
  /-- Bytes are read from the connection. -/
  | took (c : Nat) (b : Bytes)
  /-- A reply is shown. -/
  | shown (c : Nat) (r : Resp)
  /-- Reading a reply fails. -/
  | failed (c : Nat)
  | crashed (c : Nat)

/-- What is done at a terminal. -/
def ofUser : Ev → Bool
  | .server _ | .gone => false
  | _ => true

/-- What has been written to a socket, pkg/network/conn.go:102, 115. -/
def wire (out : List Conn.Out) : Bytes := out.flatMap fun
  | .reply b | .part b => b
  | .farewell => Conn.closeMessage

/-- What happens at the server must fit the clients at the connections `U`: nothing arrives that was not sent, and a client closes its end only when it
has ended (main.go:24; or the operating system does, lines 52 and 21). -/
def fits (U : Nat → Bool) (t : Nat → Term) : Full.Ev → Prop
  | .whole (.net (.feed c (.arrived b))) => U c = true → b <+: (t c).sent
  | .whole (.net (.feed c .ended)) => U c = true → (t c).pc = .over ∧ (t c).sent = []
  | .line c (.client .gone) => U c = true → (t c).pc = .over
  | _ => True

/-- What has arrived is no longer on its way. -/
def moved (U : Nat → Bool) (t : Nat → Term) : Full.Ev → Nat → Term
  | .whole (.net (.feed c (.arrived b))) => if U c then upd t c { t c with sent := (t c).sent.drop b.length } else t
  | _ => t

/-- The connection of `c` is closed by the server, or the process there has died or ended: then the operating system closes it. -/
def cutOff (s : Sys) (c : Nat) : Prop := (s.full.lines c).sock = true ∨ ¬ s.full.up ∨ s.gone = true

/-- The client at `c` is now `t`. -/
def Sys.put (s : Sys) (c : Nat) (t : Term) : Sys := { s with terms := upd s.terms c t }

/-- main.go:28-36: a line of the input is `s` and no order to quit; see `Client.scan`. -/
def isLine (s : Bytes) : Prop := ∃ l : Bytes, (10 : UInt8) ∉ l ∧ l.length < 65536 ∧ Client.dropCR l = s ∧ s ≠ b!"QUIT" ∧ s ≠ b!"quit"

/-- The steps; at the connections `U` are command line clients, at the others anybody. Bytes written by the server can be read once `Write` has returned
there; in truth a client can read them a little earlier. -/
inductive Step (ω : Nat → Nat) (U : Nat → Bool) : Sys → Ev → Sys → Prop where
  | server {s : Sys} (e : Full.Ev) (f : Full.Sys) : s.gone = false → fits U s.terms e → Full.Step ω s.full e f →
      Step ω U s (.server e) { full := f, terms := moved U s.terms e, gone := false }
  /-- The end of the process may come at any time. -/
  | gone {s : Sys} : Step ω U s .gone { s with gone := true }
  /-- main.go:27 -/
  | prompt {s : Sys} (c : Nat) : U c = true → (s.terms c).pc = .top →
      Step ω U s (.prompted c) (s.put c { s.terms c with pc := .asking, screen := (s.terms c).screen ++ [.print Client.prompt] })
  /-- main.go:28-43. That the kernel takes the bytes does not mean that they arrive. -/
  | typed {s : Sys} (c : Nat) (l req : Bytes) : U c = true → (s.terms c).pc = .asking → isLine l → Client.formatInput l = .ok req →
      Step ω U s (.typed c l) (s.put c { s.terms c with pc := .waiting, sent := (s.terms c).sent ++ req, buf := [] })
  /-- main.go:43-47 -/
  | unsent {s : Sys} (c : Nat) (l req : Bytes) : U c = true → (s.terms c).pc = .asking → isLine l → Client.formatInput l = .ok req → cutOff s c →
      Step ω U s (.unsent c l) (s.put c { s.terms c with pc := .top, screen := (s.terms c).screen ++ [.writeError] })
  /-- main.go:28-36 -/
  | quit {s : Sys} (c : Nat) : U c = true → (s.terms c).pc = .asking →
      Step ω U s (.quit c) (s.put c { s.terms c with pc := .over })
  /-- main.go:49: while what is there is not an object, the reader reads more. -/
  | took {s : Sys} (c : Nat) (b : Bytes) : U c = true → (s.terms c).pc = .waiting → parse (s.terms c).buf = .eof → b ≠ [] →
      b <+: (wire (s.full.lines c).out).drop (s.terms c).pos →
      Step ω U s (.took c b) (s.put c { s.terms c with pos := (s.terms c).pos + b.length, buf := (s.terms c).buf ++ b })
  /-- main.go:49, 55. The next reply is read with a new reader: what this one has buffered after the object is lost. -/
  | shown {s : Sys} (c : Nat) (r : Resp) (rest : Bytes) : U c = true → (s.terms c).pc = .waiting → parse (s.terms c).buf = .ok r rest →
      Step ω U s (.shown c r)
        (s.put c { s.terms c with pc := .top, buf := [], screen := (s.terms c).screen ++ [.print (Client.formatOutput r ++ [10])] })
  /-- main.go:49-53, on bytes that are no object, or the end of the connection -/
  | failed {s : Sys} (c : Nat) : U c = true → (s.terms c).pc = .waiting → (parse (s.terms c).buf = .bad ∨ parse (s.terms c).buf = .eof ∧ cutOff s c) →
      Step ω U s (.failed c) (s.put c { s.terms c with pc := .over, screen := (s.terms c).screen ++ [.readError] })
  /-- main.go:49 with a panic -/
  | crash {s : Sys} (c : Nat) : U c = true → (s.terms c).pc = .waiting → parse (s.terms c).buf = .panic →
      Step ω U s (.crashed c) (s.put c { s.terms c with pc := .over, screen := (s.terms c).screen ++ [.crash] })
  /-- main.go:37 with a panic -/
  | choke {s : Sys} (c : Nat) (l : Bytes) : U c = true → (s.terms c).pc = .asking → isLine l → Client.formatInput l = .panic →
      Step ω U s (.crashed c) (s.put c { s.terms c with pc := .over, screen := (s.terms c).screen ++ [.crash] })

end Desk

end Verif
