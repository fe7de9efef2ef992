import Verif.Model.Resp

/-!
What reading an object costs in stack and in memory: pkg/protocol/reader.go and pkg/protocol/resp.go once more.
-/

namespace Verif

namespace Cost

/-- The element loop of pkg/protocol/reader.go:136-143, `n` elements left to read, `rd` being the recursive call of line 138. -/
def itemsIn (rd : Bytes → ReadRes Resp) : Nat → Bytes → ReadRes (List Resp)
  | 0, s => .ok [] s
  | n + 1, s =>
    match rd s with
    | .eof => .eof
    | .bad => .bad
    | .panic => .panic
    | .stuck => .stuck
    | .ok o rest =>
      match itemsIn rd n rest with
      | .ok os rest' => .ok (o :: os) rest'
      | .eof => .eof
      | .bad => .bad
      | .panic => .panic
      | .stuck => .stuck

/-- pkg/protocol/reader.go:148-165 `readObject` with the functions it calls (80-146), on a stack with room for so many calls of `readObject` at a
time; `stuck` is the lack of room, which kills a Go program (it cannot be recovered from). The other calls are counted as part of their caller;
Go's limit is one gigabyte on 64-bit machines. -/
def readIn : Nat → Bytes → ReadRes Resp
  | 0, _ => .stuck
  | k + 1, s =>
    match readToken s with
    | .eof => .eof
    | .bad => .bad
    | .panic => .panic
    | .stuck => .stuck
    | .ok token rest =>
      match token with
      | [] => .bad
      | c :: _ =>
        if c = 43 then
          match tokenBody token with
          | some d => .ok (.simple d) rest
          | none => .panic
        else if c = 36 then readBulk token rest
        else if c = 45 then
          match tokenBody token with
          | some d => .ok (.error d) rest
          | none => .panic
        else if c = 58 then
          match tokenBody token with
          | none => .panic
          | some d =>
            match parseInt64 d with
            | none => .bad
            | some n => .ok (.int n) rest
        else if c = 42 then
          match tokenBody token with
          | none => .panic
          | some d =>
            match parseInt64 d with
            | none => .bad
            | some n =>
              if n = -1 then .ok .nullArray rest
              else match itemsIn (readIn k) n.toNat rest with
                | .ok items rest' => .ok (.array items) rest'
                | .eof => .eof
                | .bad => .bad
                | .panic => .panic
                | .stuck => .stuck
        else .bad

mutual
/-- The bytes of text an object keeps: its fields `data`, `stringRep` and `byteRep` (pkg/protocol/resp.go:70-75, 125-129, 173-177, 206-210), the last
two of the length of the encoding. The data of an array are its elements, which keep their own text (resp.go:220-223). The integer itself,
pointers and headers are not counted. -/
def held : Resp → Nat
  | .simple d => d.length + 2 * (Resp.simple d).encode.length
  | .bulk d => d.length + 2 * (Resp.bulk d).encode.length
  | .nullBulk => 2 * Resp.nullBulk.encode.length
  | .error m => m.length + 2 * (Resp.error m).encode.length
  | .int n => 2 * (Resp.int n).encode.length
  | .array items => 2 * (Resp.array items).encode.length + heldAll items
  | .nullArray => 2 * Resp.nullArray.encode.length
/-- The elements of an array. -/
def heldAll : List Resp → Nat
  | [] => 0
  | o :: os => held o + heldAll os
end

end Cost

end Verif
