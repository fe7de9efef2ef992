import Verif.Spec.Pipe

/-! Events as server and engine understand them. -/

namespace Verif.Spec

/-- The event says of connection `id`, under the name `what`, the object `o`. Whatever else it says does not matter. -/
structure EventSays (m : GoMap Pipe.Val) (what id : Bytes) (o : Resp) : Prop where
  sender : m.get b!"id" = some (.str id)
  payload : m.get what = some (.obj o)

end Verif.Spec
