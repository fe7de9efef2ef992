import Verif.Model.Str
import Verif.Model.Resp

/-! The protocol objects of a string value, pkg/container/string.go:91-126. No command uses them; they are offered to users of the package. -/

namespace Verif.Str

/-- pkg/container/string.go:92-94 `AsSimpleStringObject`. -/
def asSimple (s : Str) : Resp := .simple s.data

/-- pkg/container/string.go:98-103 `AsBulkStringObject`. -/
def asBulk (s : Str) : Resp := if s.len = 0 then .nullBulk else .bulk s.data

/-- pkg/container/string.go:120-126 `AsIntObject` with int_variant.go:47-49; `none` is `ErrNotAInt`. -/
def asInt (s : Str) : Option Resp := if s.isInt then s.intVar.map .int else none

end Verif.Str
