import Verif.Spec.Client
import Verif.Model.Basic

/-! What a user enters and what is on the screen afterwards. -/

namespace Verif.Spec

/-- A line as it is taken: a carriage return at its end does not count. -/
inductive TakenAs : Bytes → Bytes → Prop where
  | cr (l : Bytes) : TakenAs (l ++ [13]) l
  | same {l : Bytes} : (∀ p, l ≠ p ++ [13]) → TakenAs l l

/-- The words that end a session. -/
def Quits (l : Bytes) : Prop := l = b!"quit" ∨ l = b!"QUIT"

/-- A line that can be taken at all: no line feed in it and shorter than 64 KiB. -/
def Line (l : Bytes) : Prop := (10 : UInt8) ∉ l ∧ l.length < 65536

/-- The lines a user has entered until the input ends, a line is too long or says to quit. The last line may lack its line feed. -/
inductive Entered : Bytes → List Bytes → Prop where
  | nothing : Entered [] []
  | long {l rest : Bytes} : (10 : UInt8) ∉ l → 65536 ≤ l.length → Entered (l ++ rest) []
  | quit {l s rest : Bytes} : Line l → TakenAs l s → Quits s → rest = [] ∨ rest.head? = some 10 → Entered (l ++ rest) []
  | line {l s rest : Bytes} {ls : List Bytes} : Line l → TakenAs l s → ¬ Quits s → Entered rest ls → Entered (l ++ 10 :: rest) (s :: ls)
  | last {l s : Bytes} : Line l → l ≠ [] → TakenAs l s → ¬ Quits s → Entered l [s]

end Verif.Spec
