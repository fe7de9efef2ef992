import Verif.Spec.Restart

/-! What survives the end of the process. -/

namespace Verif.Spec

/-- A step that is not the serving of a replica: only writers change the file. -/
def Unserved (ω : Nat → Nat) (e e' : Engine) : Prop := Engine.Step ω e e' ∧ (e'.file = e.file ∨ e'.pending.length < e.pending.length)

/-- Everything that was logged has left the buffer, and no write has failed. -/
def AllOut (e : Engine) : Prop := e.file.failed = false ∧ e.file.buf = []

end Verif.Spec
