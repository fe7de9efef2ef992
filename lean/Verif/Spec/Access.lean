import Verif.Model.Access

/-! Looking into a database from outside: what is stored under a name. -/

namespace Verif.Spec

open Verif

/-- What is stored under the name `k` in the containers of one type. -/
inductive Stored where
  | str (s : Option Str)
  | list (l : Option LList)
  | hash (h : Option HashC)
  | set (s : Option SetC)

/-- What is stored of type `t` under the name `k`. -/
def stored (st : State) : Target → Bytes → Stored
  | .global, k => .str (st.global.get k)
  | .list, k => .list (st.lists.get k)
  | .hash, k => .hash (st.hashes.get k)
  | .set, k => .set (st.sets.get k)

/-- Something is stored. -/
def Stored.present : Stored → Bool
  | .str s => s.isSome
  | .list l => l.isSome
  | .hash h => h.isSome
  | .set s => s.isSome

end Verif.Spec
