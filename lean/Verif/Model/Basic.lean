
/-!
Common vocabulary of the model: Go strings, Go panics, 64-bit integers.
-/

namespace Verif

/-- A Go `string` or `[]byte`: a finite sequence of bytes. -/
abbrev Bytes := List UInt8

/-- `b!"text"` is the explicit list of the UTF-8 bytes of a literal, so that the kernel can compute with it. -/
syntax:max (name := bytesLit) "b!" str : term

open Lean in
macro_rules
  | `(b!$s:str) => do
    let bs := s.getString.toUTF8.toList
    let elems : Array (TSyntax `term) := (bs.map fun b => ⟨Syntax.mkNumLit (toString b.toNat)⟩).toArray
    `(([$elems,*] : List UInt8))

/-- The result of a Go call that may panic or loop forever. `diverge` is produced when a loop of the model runs out of fuel; it is
proved unreachable wherever a theorem speaks about `ok` results. -/
inductive Outcome (α : Type) where
  | ok (a : α)
  | panic
  | diverge
deriving Repr, DecidableEq

namespace Outcome

def bind {α β : Type} : Outcome α → (α → Outcome β) → Outcome β
  | ok a, f => f a
  | panic, _ => panic
  | diverge, _ => diverge

def map {α β : Type} (f : α → β) : Outcome α → Outcome β
  | ok a => ok (f a)
  | panic => panic
  | diverge => diverge

instance : Monad Outcome where
  pure := ok
  bind := bind

@[simp] theorem pure_eq {α : Type} (a : α) : (pure a : Outcome α) = ok a := rfl
@[simp] theorem bind_ok {α β : Type} (a : α) (f : α → Outcome β) : (ok a >>= f) = f a := rfl
@[simp] theorem bind_panic {α β : Type} (f : α → Outcome β) : ((panic : Outcome α) >>= f) = panic := rfl
@[simp] theorem map_ok {α β : Type} (a : α) (f : α → β) : (f <$> (ok a : Outcome α)) = ok (f a) := rfl
@[simp] theorem bind_diverge {α β : Type} (f : α → Outcome β) : ((diverge : Outcome α) >>= f) = diverge := rfl
@[simp] theorem map_diverge {α β : Type} (f : α → β) : (f <$> (diverge : Outcome α)) = diverge := rfl
@[simp] theorem map_panic {α β : Type} (f : α → β) : (f <$> (panic : Outcome α)) = panic := rfl

end Outcome

/-- Smallest and largest `int64` (Go's `int` is 64 bits on the supported platforms). -/
def minInt64 : Int := -9223372036854775808
def maxInt64 : Int := 9223372036854775807

/-- `x` is a value an `int64` can hold. -/
def InInt64 (x : Int) : Prop := minInt64 ≤ x ∧ x ≤ maxInt64

instance (x : Int) : Decidable (InInt64 x) := by unfold InInt64; infer_instance

/-- Go's wraparound of `int64` arithmetic: the representative of `x` modulo 2^64 in the `int64` range. -/
def wrap64 (x : Int) : Int := (x + 9223372036854775808) % 18446744073709551616 - 9223372036854775808

/-- Go's slice expression `s[lo:hi]`; `none` is the bounds panic. -/
def goSlice (s : Bytes) (lo hi : Int) : Option Bytes :=
  if 0 ≤ lo ∧ lo ≤ hi ∧ hi ≤ s.length then some ((s.drop lo.toNat).take (hi.toNat - lo.toNat)) else none

end Verif
