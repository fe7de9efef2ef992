import Verif.Lemmas.Num

/-! # C07 – integer parsing is exact -/

namespace Verif.Props

open Spec

/-- C07 (acceptance): an argument is accepted as an integer exactly when it is an optionally signed decimal numeral
whose value fits in 64 bits, and then the value used is that value. -/
theorem C07_parse_exact (s : Bytes) (v : Int) :
    parseInt64 s = some v ↔ Numeral s v ∧ (-2 ^ 63 ≤ v ∧ v ≤ 2 ^ 63 - 1) := by
  rw [parseInt64_eq_some]; unfold InInt64 minInt64 maxInt64; simp

/-- C07 (rejection): everything else is rejected. -/
theorem C07_parse_reject (s : Bytes) :
    parseInt64 s = none ↔ ¬ ∃ v : Int, Numeral s v ∧ (-2 ^ 63 ≤ v ∧ v ≤ 2 ^ 63 - 1) := by
  constructor
  · rintro h ⟨v, hv⟩
    rw [← C07_parse_exact, h] at hv; cases hv
  · intro h
    cases hp : parseInt64 s with
    | none => rfl
    | some v => exact absurd ⟨v, (C07_parse_exact s v).1 hp⟩ h

/-- C07 (round trip): formatting a 64-bit integer and parsing it back is the identity. -/
theorem C07_format_parse (n : Int) (h : -2 ^ 63 ≤ n ∧ n ≤ 2 ^ 63 - 1) : parseInt64 (fmtInt n) = some n :=
  (C07_parse_exact _ _).2 ⟨numeral_fmtInt n, h⟩

/-- C07 (formatting): the written text is a numeral for the value; different values have different texts. -/
theorem C07_format_spec (m n : Int) : Numeral (fmtInt n) n ∧ (fmtInt m = fmtInt n ↔ m = n) :=
  ⟨numeral_fmtInt n, fmtInt_inj, fun h => by rw [h]⟩

example : parseInt64 b!"-9223372036854775808" = some (-9223372036854775808) := by decide
example : parseInt64 b!"9223372036854775807" = some 9223372036854775807 := by decide
example : parseInt64 b!"9223372036854775808" = none := by decide
example : parseInt64 b!"-9223372036854775809" = none := by decide
example : parseInt64 b!"18446744073709551616" = none := by decide
example : parseInt64 b!"+007" = some 7 := by decide
example : parseInt64 b!"-" = none := by decide
example : parseInt64 b!"1_0" = none := by decide
example : fmtInt (-9223372036854775808) = b!"-9223372036854775808" := by decide
example : fmtInt 0 = b!"0" := by decide
example : Numeral b!"-12" (-12) := Numeral.minus (ds := b!"12") (by decide) (by simp [IsDigit])

end Verif.Props
