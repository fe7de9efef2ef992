import Verif.Model.Log
import Verif.Spec.Utf8
import Mathlib.Data.List.Forall2

/-! What a log file should contain. -/

namespace Verif.Spec

/-- The ranges of the integer fields of a record (`int64` and `int32` in Go). -/
def Fits (v : VLog) : Prop := InInt64 v.time ∧ -2 ^ 31 ≤ v.index ∧ v.index < 2 ^ 31

/-- All texts of a record are UTF-8. -/
def Textual (v : VLog) : Prop :=
  ValidUTF8 v.id ∧ ValidUTF8 v.host ∧ ValidUTF8 v.name ∧ (∀ x ∈ v.args, ValidUTF8 x) ∧ ValidUTF8 v.raw

/-- `bs` are the packed records `vs`, each within the limits: integers that fit their Go types, less than 4 GiB. -/
def Packed (vs : List VLog) (bs : List Bytes) : Prop :=
  List.Forall₂ (fun v b => packLog v = some b ∧ Fits v ∧ b.length < 2 ^ 32 + 4) vs bs

/-- A file that ends after `m` bytes holds exactly the first `j` of the records `bs` completely. -/
def Complete (bs : List Bytes) (m j : Nat) : Prop :=
  j ≤ bs.length ∧ (bs.take j).flatten.length ≤ m ∧ ∀ i, i ≤ bs.length → (bs.take i).flatten.length ≤ m → i ≤ j

end Verif.Spec
