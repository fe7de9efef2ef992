import Verif.Model.Resp

/-! The command line client: cmd/client/internal/codec.go. -/

namespace Verif

namespace Client

/-- cmd/client/internal/codec.go:63-77 `parseQuote` on a reader holding the bytes, having collected `buf`: the text, the unread rest, and whether
the error `io.EOF` is returned. The reader is on a string, so there is no other error. -/
def parseQuote (buf : Bytes) : Bytes → Bytes × Bytes × Bool
  | [] => ([], [], true)
  | b :: s => if b = 34 then (buf, s, false) else parseQuote (buf ++ [b]) s

/-- cmd/client/internal/codec.go:40-61 `parseString`, likewise. -/
def parseString (buf : Bytes) : Bytes → Bytes × Bytes × Bool
  | [] => (buf, [], true)
  | b :: s =>
    if b = 34 then parseQuote [] s
    else if b = 32 then (buf, s, false)
    else parseString (buf ++ [b]) s

/-- cmd/client/internal/codec.go:18-35, the loop of `FormatInput`: the texts made into bulk strings. Every round but the last reads at least one
byte, so the fuel of `formatInput` suffices; running out of it is `diverge`. -/
def inputLoop : Nat → Bytes → Outcome (List Bytes)
  | 0, _ => .diverge
  | f + 1, s =>
    let (w, rest, eof) := parseString [] s
    let here := if w ≠ [] then [w] else []
    if eof then .ok here
    else
      match inputLoop f rest with
      | .ok ws => .ok (here ++ ws)
      | .panic => .panic
      | .diverge => .diverge

/-- cmd/client/internal/codec.go:14-38 `FormatInput`. -/
def formatInput (line : Bytes) : Outcome Bytes :=
  match inputLoop (line.length + 1) line with
  | .ok ws => .ok (Resp.array (ws.map .bulk)).encode
  | .panic => .panic
  | .diverge => .diverge

/-- The separator of `strings.Join(ret, "\n")` (cmd/client/internal/codec.go:125). -/
def joinLines : List Bytes → Bytes
  | [] => []
  | [l] => l
  | l :: ls => l ++ 10 :: joinLines ls

mutual
/-- cmd/client/internal/codec.go:79-96 `FormatOutput` with `formatString` 98-104, `formatError` 106-108, `formatInteger` 110-112 and
`formatArray` 114-126. Lines 99 and 115 compare the object's encoding with that of the null object. -/
def formatOutput : Resp → Bytes
  | .simple d => if (Resp.simple d).encode = b!"$-1\r\n" then b!"(nil)" else 34 :: (d ++ [34])
  | .bulk d => if (Resp.bulk d).encode = b!"$-1\r\n" then b!"(nil)" else 34 :: (d ++ [34])
  | .nullBulk => if Resp.nullBulk.encode = b!"$-1\r\n" then b!"(nil)" else [34, 34]
  | .error m => b!"Server error: " ++ m
  | .int n => b!"(integer) " ++ fmtInt n
  | .array items => if (Resp.array items).encode = b!"*-1\r\n" then b!"(empty list or set)" else joinLines (formatItems 0 items)
  | .nullArray => if Resp.nullArray.encode = b!"*-1\r\n" then b!"(empty list or set)" else []
/-- The loop of codec.go:121-123. -/
def formatItems (idx : Nat) : List Resp → List Bytes
  | [] => []
  | o :: os => (fmtNat (idx + 1) ++ b!") " ++ formatOutput o) :: formatItems (idx + 1) os
end

end Client

end Verif
