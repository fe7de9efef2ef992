import Verif.Model.Basic
import Verif.Spec.Resp

/-! The words of a typed line, and what the client shows. -/

namespace Verif.Spec

/-- Neither a space nor a double quote. -/
def Plain (w : Bytes) : Prop := (32 : UInt8) ∉ w ∧ (34 : UInt8) ∉ w

/-- No double quote. -/
def Unquoted (w : Bytes) : Prop := (34 : UInt8) ∉ w

/-- A word counts unless it is empty. -/
def keep (w : Bytes) : List Bytes := if w = [] then [] else [w]

/-- The words of a line, as the client understands it. Words end with a space or the line; a quote starts a word that runs to the next quote,
and what stood directly before it is forgotten; what follows a quote that is never closed is forgotten, too. -/
inductive Words : Bytes → List Bytes → Prop where
  | last {w : Bytes} : Plain w → Words w (keep w)
  | space {w rest : Bytes} {ws : List Bytes} : Plain w → Words rest ws → Words (w ++ 32 :: rest) (keep w ++ ws)
  | quoted {glued q rest : Bytes} {ws : List Bytes} : Plain glued → Unquoted q → Words rest ws →
      Words (glued ++ 34 :: (q ++ 34 :: rest)) (keep q ++ ws)
  | unclosed {glued q : Bytes} : Plain glued → Unquoted q → Words (glued ++ 34 :: q) []

/-- A way to type a word: as it is, or between quotes. -/
inductive Typed : Bytes → Bytes → Prop where
  | plain {w : Bytes} : w ≠ [] → Plain w → Typed w w
  | quoted {w : Bytes} : w ≠ [] → Unquoted w → Typed (34 :: (w ++ [34])) w

/-- Typed words, one space between two. -/
def spaced : List Bytes → Bytes
  | [] => []
  | [w] => w
  | w :: ws => w ++ 32 :: spaced ws

end Verif.Spec
