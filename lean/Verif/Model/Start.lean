import Verif.Model.Master
import Verif.Model.Stop

/-!
Starting the server: pkg/network/server.go:76-132 `Init` with pkg/db/engine.go:42-64 `NewEngine` and pkg/replication/master.go:43-60 `NewMaster`, as a
function of the configuration and of what the rest of the machine is like.
-/

namespace Verif

/-- pkg/common/config.go:10-18 `Config`, without the options of the server's own log. -/
structure Config where
  port : Int
  databaseFile : Bytes
  enableReplica : Bool
  replicaPort : Int
  masterAddress : Bytes

/-- pkg/common/config.go:21-31 `NewConfig`. -/
def Config.new : Config := { port := 8081, databaseFile := [], enableReplica := false, replicaPort := 0, masterAddress := [] }

/-- The configuration in cmd/server/main.go:33-40. -/
def Config.main : Config :=
  { port := 6789, databaseFile := b!"./database.vpf", enableReplica := true, replicaPort := 9999, masterAddress := [] }

/-- What the server finds. `free p`: the port can be bound. `pick` is the port the system chooses when asked for port 0. `file f` is the contents of
the database file `f` (empty if it was just created), `none` if it cannot be opened. `remote a` is what arrives from the master at `a` until the
connection ends or `Receive` returns, `none` if it cannot be connected to. -/
structure World where
  free : Int → Bool
  pick : Int
  file : Bytes → Option Bytes
  remote : Bytes → Option Bytes

/-- `net.ListenTCP` on a port of all addresses when this process already listens on `own`: the port that is listened on. -/
def World.listen (w : World) (own : Option Int) (port : Int) : Option Int :=
  if port = 0 then some w.pick
  else if 0 < port ∧ port < 65536 ∧ w.free port = true ∧ own ≠ some port then some port
  else none

/-- The argument of `NewEngine` (server.go:110-118). -/
def Config.enginePort (c : Config) : Int :=
  if c.enableReplica then
    if c.replicaPort ≤ 0 ∨ c.port = c.replicaPort then c.port + 1 else c.replicaPort
  else -1

/-- pkg/db/engine.go:55-61 with pkg/replication/master.go:43-60: the port replicas connect to, `none` if `engine.master` is nil. -/
def World.newMaster (w : World) (own : Int) (port : Int) : Option Int := if 0 < port then w.listen (some own) port else none

/-- What `Init` leaves: the ports listened on, the database file that is open, and the databases. -/
structure Started where
  port : Int
  replicas : Option Int
  file : Option Bytes
  dbs : DBs

/-- pkg/network/server.go:76-132 `Init`; `ok none` is `false` (the deferred function then ends the process if its log is set up, 80-86). The two
subscriptions (104, engine.go:49) cannot fail as the topics exist (100-101). -/
def Config.init (w : World) (envs envs' : Nat → Env) (c : Config) : Outcome (Option Started) :=
  match w.listen none c.port with
  | none => .ok none
  | some port => do
    let opened := if c.databaseFile = [] then none else w.file c.databaseFile
    let dbs ← syncExternal envs envs' (if c.databaseFile = [] then none else some (opened.getD [])) (if c.masterAddress = [] then none else w.remote c.masterAddress)
    .ok (some { port := port, replicas := w.newMaster port c.enginePort, file := opened.map fun _ => c.databaseFile, dbs := dbs })

/-- What `stop` will find. -/
def Started.forStop (s : Started) : Stop.Config := { master := s.replicas.isSome, file := s.file.isSome }

end Verif
