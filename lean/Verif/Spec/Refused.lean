import Verif.Spec.Wire

/-! What this server refuses to read. -/

namespace Verif.Spec

/-- A line that breaks off before any CRLF: a line feed at its beginning, or directly after another one. -/
def BrokenLine (b : Bytes) : Prop := ∃ w, b = w ++ b!"\n" ∧ LineSafe w ∧ w.head? ≠ some 10 ∧ (w = [] ∨ w.getLast? = some 10)

/-- The shortest inputs that are refused, whatever follows them. -/
inductive Refused : Bytes → Prop where
  | line {b : Bytes} : BrokenLine b → Refused b
  /-- An empty line, or one that begins with none of the five markers. -/
  | marker {d : Bytes} : LineSafe d → d.head? ≠ some 10 → (∀ c ∈ b!"+-:$*", d.head? ≠ some c) → Refused (d ++ b!"\r\n")
  /-- What should be a number is none, or does not fit in 64 bits. -/
  | number {c : UInt8} {d : Bytes} : c ∈ b!":$*" → LineSafe d → (¬ ∃ n, IsInt d n) → Refused ([c] ++ d ++ b!"\r\n")
  /-- A bulk string of a negative length other than -1 and -2, or one whose end has no 64-bit number. -/
  | length {t : Bytes} {n : Int} : IsInt t n → n < -2 ∨ 2 ^ 63 ≤ n + 2 → Refused (b!"$" ++ t ++ b!"\r\n")
  /-- An element of an array is refused. -/
  | item {items : List Resp} {n : Int} {t b b' : Bytes} : IsInt t n → TakenAll items b → items.length < n → Refused b' →
      Refused (b!"*" ++ t ++ b!"\r\n" ++ b ++ b')

end Verif.Spec
