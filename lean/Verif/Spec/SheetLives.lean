import Verif.Spec.Sheet
import Verif.Spec.RecipeLives

/-!
A hash that many users write and read, over any number of processes that run one after the other on the same file.
-/

namespace Verif.Spec

/-- `Contents`, over processes: line `i` of user `c` of the process number `n` found, or made, content number `ver n c i`. -/
structure ContentsIn {S : Type} (U : Nat → Bool) (trs : List (List Site.Ev)) (R : Command → (S → Resp → Prop) → Prop) (W : Command → (S → S → Resp → Prop) → Prop) (ms : List S)
    (ver : Nat → Nat → Nat → Nat) : Prop where
  reads : ∀ n c i x P r, U c = true → R x P → GotIn trs n c i x r → ∃ m, ms[ver n c i]? = some m ∧ P m r
  writes : ∀ n c i x P r, U c = true → W x P → GotIn trs n c i x r → ∃ v m m', ver n c i = v + 1 ∧ ms[v]? = some m ∧ ms[v + 1]? = some m' ∧ P m m' r
  once : ∀ n n' c c' i j x x' P P' r r', U c = true → U c' = true → W x P → W x' P' → GotIn trs n c i x r → GotIn trs n' c' j x' r' →
    ver n c i = ver n' c' j → n = n' ∧ c = c' ∧ i = j
  ordered : ∀ n n' c c' i j x x' r r', U c = true → U c' = true → GotIn trs n c i x r → GotIn trs n' c' j x' r' → EarlierIn trs n c i n' c' j → ver n c i ≤ ver n' c' j
  anew : ∀ n n' c c' i j y x P r r', U c = true → U c' = true → W x P → GotIn trs n c i y r → GotIn trs n' c' j x r' → EarlierIn trs n c i n' c' j →
    ver n c i < ver n' c' j

/-- `Sheet`, over processes. -/
abbrev SheetIn (U : Nat → Bool) (trs : List (List Site.Ev)) (k : Bytes) (ms : List Hash) (ver : Nat → Nat → Nat → Nat) : Prop :=
  ContentsIn U trs (ReadsHash k) (WritesHash k) ms ver

end Verif.Spec
