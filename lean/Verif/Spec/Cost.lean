import Verif.Model.Resp

/-! How deeply an object is nested. -/

namespace Verif.Spec

mutual
/-- One level for the object, and below it the deepest of its elements. -/
def levels : Resp → Nat
  | .array items => 1 + levelsAll items
  | _ => 1
/-- The deepest of these. -/
def levelsAll : List Resp → Nat
  | [] => 0
  | o :: os => max (levels o) (levelsAll os)
end

/-- An array in an array in an array …, so many of them, the innermost one empty. -/
def nested : Nat → Resp
  | 0 => .array []
  | n + 1 => .array [nested n]

end Verif.Spec
