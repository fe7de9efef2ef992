import Verif.Model.Log
import Verif.Model.Strconv

/-!
The printed form of a log record: pkg/log/log.go:49-51 `FormatLog`, pkg/util/util.go:91-99 `QuoteJoin`. `strconv.IsPrint` is the parameter `pr`.
-/

namespace Verif.Quote

/-- pkg/util/util.go:91-99 `QuoteJoin`. -/
def quoteJoin (pr : Nat → Bool) (ss : List Bytes) (sep : Bytes) : Bytes := join sep (ss.map (quote pr))

/-- pkg/log/log.go:49-51 `FormatLog` ("Vectex" is in the source). -/
def formatLog (pr : Nat → Bool) (v : VLog) : Bytes :=
  b!"VectexLog{id=" ++ v.id ++ b!", time=" ++ fmtInt v.time ++ b!", host=" ++ v.host ++ b!", name=" ++ v.name ++ b!", index=" ++ fmtInt v.index ++
    b!", arguments=[" ++ quoteJoin pr v.args b!"," ++ b!"], raw_request=" ++ quote pr v.raw ++ b!"}"

end Verif.Quote
