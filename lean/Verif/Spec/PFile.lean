import Verif.Model.Log

/-! Using the buffered file. -/

namespace Verif.Spec

/-- A method call. -/
inductive FileOp where
  | write (b : Bytes)
  | writeByte (c : UInt8)
  | writeString (b : Bytes)
  | flush

/-- The bytes a call asks to be written. -/
def FileOp.bytes : FileOp → Bytes
  | .write b => b
  | .writeByte c => [c]
  | .writeString b => b
  | .flush => []

/-- One call; the second part is how many bytes it reports as written. -/
def FileOp.run (ω : Nat → Nat) (p : PFile) : FileOp → PFile × Nat
  | .write b => p.write ω b
  | .writeByte c => p.writeByte ω c
  | .writeString b => p.writeString ω b
  | .flush => (p.flush ω, 0)

/-- A sequence of calls. -/
def runOps (ω : Nat → Nat) (p : PFile) : List FileOp → PFile × List Nat
  | [] => (p, [])
  | op :: ops =>
    let (p1, n) := op.run ω p
    let (p2, ns) := runOps ω p1 ops
    (p2, n :: ns)

/-- All bytes the calls ask to be written. -/
def asked (ops : List FileOp) : Bytes := ops.flatMap FileOp.bytes

end Verif.Spec
