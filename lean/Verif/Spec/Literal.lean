import Verif.Spec.Utf8

/-! String literals of Go (The Go Programming Language Specification, "String literals"), and which characters can be seen. -/

namespace Verif.Spec

/-- A hexadecimal digit and its value. -/
inductive HexDigit : UInt8 → Nat → Prop where
  | decimal {c : UInt8} {d : Nat} : d < 10 → c.toNat = 48 + d → HexDigit c d
  | lower {c : UInt8} {d : Nat} : 10 ≤ d → d < 16 → c.toNat = 97 + (d - 10) → HexDigit c d
  | upper {c : UInt8} {d : Nat} : 10 ≤ d → d < 16 → c.toNat = 65 + (d - 10) → HexDigit c d

/-- A hexadecimal number and its value. -/
inductive HexNumber : Bytes → Nat → Prop where
  | nil : HexNumber [] 0
  | cons {c : UInt8} {d n : Nat} {ds : Bytes} : HexDigit c d → HexNumber ds n → HexNumber (c :: ds) (d * 16 ^ ds.length + n)

/-- The text between the double quotes of a string literal, and the string it stands for. -/
inductive StandsFor : Bytes → Bytes → Prop where
  | nil : StandsFor [] []
  | char {r : Nat} {w s : Bytes} : Scalar r → r ≠ 34 → r ≠ 92 → r ≠ 10 → StandsFor w s → StandsFor (utf8Encode r ++ w) (utf8Encode r ++ s)
  | special {c v : UInt8} {w s : Bytes} : (c, v) ∈ [(97, 7), (98, 8), (102, 12), (110, 10), (114, 13), (116, 9), (118, 11), (92, 92), (34, 34)] →
      StandsFor w s → StandsFor (92 :: c :: w) (v :: s)
  | byte {ds w s : Bytes} {v : UInt8} : ds.length = 2 → HexNumber ds v.toNat → StandsFor w s → StandsFor (b!"\\x" ++ ds ++ w) (v :: s)
  | short {r : Nat} {ds w s : Bytes} : ds.length = 4 → HexNumber ds r → Scalar r → StandsFor w s → StandsFor (b!"\\u" ++ ds ++ w) (utf8Encode r ++ s)
  | long {r : Nat} {ds w s : Bytes} : ds.length = 8 → HexNumber ds r → Scalar r → StandsFor w s → StandsFor (b!"\\U" ++ ds ++ w) (utf8Encode r ++ s)

/-- The characters of Latin-1 that can be seen, and the space: no control characters, no space that does not break, no soft hyphen. -/
def Visible (r : Nat) : Prop := 0x20 ≤ r ∧ r < 0x7F ∨ 0xA1 ≤ r ∧ r ≤ 0xFF ∧ r ≠ 0xAD

end Verif.Spec
