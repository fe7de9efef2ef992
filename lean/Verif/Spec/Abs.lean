import Verif.Spec.DB
import Verif.Model.DB
import Verif.Lemmas.LinkedList2

/-! The relation between a server state and the abstract database it stores. -/

namespace Verif.Spec

/-- Both absent, or both present and related. -/
def OptRel {α β : Type} (R : α → β → Prop) : Option α → Option β → Prop
  | none, none => True
  | some a, some b => R a b
  | _, _ => False

/-- A stored hash holds the finite map `m`: no key twice, and under each field its value, with all cached string fields right. -/
def HashRep (h : HashC) (m : Hash) : Prop :=
  GoMap.WF h ∧ ∀ f, GoMap.get h f = (m.lookup f).map fun v => ⟨Str.new f, Str.new v⟩

/-- A stored set holds the finite set `s`. -/
def SetRep (c : SetC) (s : Finset Bytes) : Prop :=
  GoMap.WF c ∧ ∀ x, GoMap.get c x = if x ∈ s then some (Str.new x) else none

/-- The server state `st` stores the abstract database `a`. -/
structure Abs (st : State) (a : DB) : Prop where
  wf : GoMap.WF st.global
  strs : ∀ k, st.global.get k = (a.strs k).map Str.new
  lists : ∀ k, OptRel LList.Rep (st.lists.get k) (a.lists k)
  hashes : ∀ k, OptRel HashRep (st.hashes.get k) (a.hashes k)
  sets : ∀ k, OptRel SetRep (st.sets.get k) (a.sets k)

end Verif.Spec
