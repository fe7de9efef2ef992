import Verif.Model.Stop
import Verif.Spec.PFile
import Verif.Spec.Conn

/-! An orderly end. -/

namespace Verif.Spec

/-- The whole shutdown, in order. -/
def shutdownSequence : List Stop.Act :=
  [.removeRequest, .removeResponse, .closeListener, .closeShut, .stopMaster, .flush, .closeEngine, .closeClients]

/-- Which parts of the shutdown were done, in order, whoever did them. -/
def shutdownOf : List Stop.Ev → List Stop.Act
  | [] => []
  | .did _ a :: tr => a :: shutdownOf tr
  | _ :: tr => shutdownOf tr

/-- The bytes given to the log. -/
def loggedOf : List Stop.Ev → Bytes
  | [] => []
  | .logged b :: tr => b ++ loggedOf tr
  | _ :: tr => loggedOf tr

/-- The calls of the log file's methods. -/
def fileOpsOf : List Stop.Ev → List FileOp
  | [] => []
  | .logged b :: tr => .write b :: fileOpsOf tr
  | .did _ .flush :: tr => .flush :: fileOpsOf tr
  | .replicaFlush :: tr => .flush :: fileOpsOf tr
  | _ :: tr => fileOpsOf tr

end Verif.Spec
