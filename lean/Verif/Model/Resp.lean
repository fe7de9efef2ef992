import Verif.Model.Num

/-!
RESP objects and their reader: pkg/protocol/resp.go and pkg/protocol/reader.go.
-/

namespace Verif

/-- The values of pkg/protocol/resp.go:24-68 (`RedisString` simple/bulk/null bulk, `RedisError`, `RedisInteger`, `RedisArray`, null
array). Integers are mathematical integers; Go's `int64` range is the predicate `InInt64`. -/
inductive Resp where
  | simple (data : Bytes)
  | bulk (data : Bytes)
  | nullBulk
  | error (msg : Bytes)
  | int (n : Int)
  | array (items : List Resp)
  | nullArray

namespace Resp

/-- CRLF, `Delimiter` of pkg/protocol/resp.go:17. -/
def crlf : Bytes := [13, 10]

mutual
/-- `Byte()`/`String()` of each object as fixed by its constructor function: pkg/protocol/resp.go:78-86 (simple), 89-97 (bulk), 99-107
(null bulk, literal of line 19), 131-140 (error), 179-188 (integer), 212-229 (array), 231-238 (null array, literal of line 20). -/
def encode : Resp → Bytes
  | .simple d => 43 :: (d ++ crlf)
  | .bulk d => 36 :: (fmtNat d.length ++ crlf ++ d ++ crlf)
  | .nullBulk => b!"$-1\r\n"
  | .error m => 45 :: (m ++ crlf)
  | .int n => 58 :: (fmtInt n ++ crlf)
  | .array items => 42 :: (fmtNat items.length ++ crlf ++ encodeList items)
  | .nullArray => b!"*-1\r\n"
/-- The concatenation loop of pkg/protocol/resp.go:220-223. -/
def encodeList : List Resp → Bytes
  | [] => []
  | o :: os => encode o ++ encodeList os
end

end Resp

/-- Result of a read: an object and the unread rest, an error wrapping `io.EOF`, any other error, or a panic.
`stuck` marks fuel exhaustion of the model; it is proved unreachable (`readObject_not_stuck`). -/
inductive ReadRes (α : Type) where
  | ok (a : α) (rest : Bytes)
  | eof
  | bad
  | panic
  | stuck
deriving Repr, DecidableEq

/-- `bufio.Reader.ReadString('\n')` on a stream holding `s` (called at pkg/protocol/reader.go:30): the bytes up to and
including the first LF, and the rest; `none` is the EOF error. -/
def readLine : Bytes → Option (Bytes × Bytes)
  | [] => none
  | c :: cs =>
    if c = 10 then some ([10], cs)
    else match readLine cs with
      | none => none
      | some (l, r) => some (c :: l, r)

/-- pkg/protocol/reader.go:26-49 `readToken`: concatenates LF-terminated pieces until one ends in CRLF; a piece that is a lone LF is an
error. `buf` is the accumulated token; fuel bounds the number of pieces. -/
def readTokenLoop : Nat → Bytes → Bytes → ReadRes Bytes
  | 0, _, _ => .stuck
  | f + 1, buf, s =>
    match readLine s with
    | none => .eof
    | some (cur, rest) =>
      if cur.length ≤ 1 then .bad
      else if cur[cur.length - 2]? = some 13 then .ok (buf ++ cur) rest
      else readTokenLoop f (buf ++ cur) rest

/-- pkg/protocol/reader.go:26-49. -/
def readToken (s : Bytes) : ReadRes Bytes := readTokenLoop (s.length + 1) [] s

/-- pkg/protocol/reader.go:51-70 `readBytes`. -/
def readBytes (count : Int) (s : Bytes) : ReadRes Bytes :=
  if count < 0 then .bad
  else if count ≤ s.length then .ok (s.take count.toNat) (s.drop count.toNat)
  else .eof

/-- The expression `r.token[1 : l-2]` of pkg/protocol/reader.go:84,89,109,114,127. -/
def tokenBody (token : Bytes) : Option Bytes := goSlice token 1 ((token.length : Int) - 2)

/-- pkg/protocol/reader.go:80-105 `readString`, bulk branch (lines 85-101). `int(sLen) + 2` wraps like Go's int. -/
def readBulk (token : Bytes) (s : Bytes) : ReadRes Resp :=
  match tokenBody token with
  | none => .panic
  | some body =>
    match parseInt64 body with
    | none => .bad
    | some sLen =>
      if sLen = -1 then .ok .nullBulk s
      else match readBytes (wrap64 (sLen + 2)) s with
        | .ok tok rest =>
          match goSlice tok 0 sLen with
          | some d => .ok (.bulk d) rest
          | none => .panic
        | .eof => .eof
        | .bad => .bad
        | .panic => .panic
        | .stuck => .stuck

mutual
/-- pkg/protocol/reader.go:148-165 `readObject` together with `readString` 80-105, `readError` 107-110, `readInteger` 112-120 and
`readArray` 122-146 (an announced length of -1 is the null array, other negative lengths run the loop zero times). -/
def readObject : Nat → Bytes → ReadRes Resp
  | 0, _ => .stuck
  | f + 1, s =>
    match readToken s with
    | .eof => .eof
    | .bad => .bad
    | .panic => .panic
    | .stuck => .stuck
    | .ok token rest =>
      match token with
      | [] => .bad
      | c :: _ =>
        if c = 43 then
          match tokenBody token with
          | some d => .ok (.simple d) rest
          | none => .panic
        else if c = 36 then readBulk token rest
        else if c = 45 then
          match tokenBody token with
          | some d => .ok (.error d) rest
          | none => .panic
        else if c = 58 then
          match tokenBody token with
          | none => .panic
          | some d =>
            match parseInt64 d with
            | none => .bad
            | some n => .ok (.int n) rest
        else if c = 42 then
          match tokenBody token with
          | none => .panic
          | some d =>
            match parseInt64 d with
            | none => .bad
            | some n =>
              if n = -1 then .ok .nullArray rest
              else match readItems f n.toNat rest with
                | .ok items rest' => .ok (.array items) rest'
                | .eof => .eof
                | .bad => .bad
                | .panic => .panic
                | .stuck => .stuck
        else .bad
/-- The element loop of pkg/protocol/reader.go:136-143, `n` elements left to read. -/
def readItems : Nat → Nat → Bytes → ReadRes (List Resp)
  | _, 0, s => .ok [] s
  | 0, _ + 1, _ => .stuck
  | f + 1, n + 1, s =>
    match readObject f s with
    | .eof => .eof
    | .bad => .bad
    | .panic => .panic
    | .stuck => .stuck
    | .ok o rest =>
      match readItems f n rest with
      | .ok os rest' => .ok (o :: os) rest'
      | .eof => .eof
      | .bad => .bad
      | .panic => .panic
      | .stuck => .stuck
end

/-- pkg/protocol/reader.go:167-182 `ReadObject`/`Parse` on a stream holding `s` that then ends. The fuel is proved sufficient. -/
def parse (s : Bytes) : ReadRes Resp := readObject (2 * s.length + 2) s

/-- Repeated `ReadObject` on one reader until it fails (the loop of pkg/network/conn.go:76-93 over pkg/protocol/reader.go:167):
the objects read and the failing result. `fuel` bounds the number of reads. -/
def readAll : Nat → Bytes → List Resp × ReadRes Resp
  | 0, _ => ([], .stuck)
  | f + 1, s =>
    match parse s with
    | .ok o rest => let (os, e) := readAll f rest; (o :: os, e)
    | e => ([], e)

end Verif
