import Verif.Model.Basic

/-!
Go's `map[string]T`, as an association list whose keys are unique (`GoMap.WF`, proved invariant of every reachable state).
Iteration order is not the list order: `range` loops take the order from an oracle (see `IterOrder`).
-/

namespace Verif

/-- `map[string]T` (used by pkg/container/string_map.go:44, hash.go:40, set.go:24, container.go:40-42). -/
abbrev GoMap (α : Type) := List (Bytes × α)

namespace GoMap

/-- `v, ok := m[k]`. -/
def get {α : Type} : GoMap α → Bytes → Option α
  | [], _ => none
  | (k', v) :: m, k => if k' = k then some v else get m k

/-- `m[k] = v`. -/
def set {α : Type} : GoMap α → Bytes → α → GoMap α
  | [], k, v => [(k, v)]
  | (k', v') :: m, k, v => if k' = k then (k, v) :: m else (k', v') :: set m k v

/-- `delete(m, k)`. -/
def erase {α : Type} : GoMap α → Bytes → GoMap α
  | [], _ => []
  | (k', v') :: m, k => if k' = k then erase m k else (k', v') :: erase m k

/-- The keys present. -/
def keys {α : Type} (m : GoMap α) : List Bytes := m.map Prod.fst

/-- A Go map never holds a key twice. -/
def WF {α : Type} (m : GoMap α) : Prop := (keys m).Nodup

/-- `for k := range m` in the order `ord`, keeping the values: the entries of `m` listed in the order of the keys in `ord`. -/
def inOrder {α : Type} (m : GoMap α) (ord : List Bytes) : List (Bytes × α) :=
  ord.filterMap fun k => (m.get k).map fun v => (k, v)

end GoMap

/-- The order in which the `i`-th `range` loop of a request visits a map with the given keys; chosen by the Go runtime. -/
abbrev IterOrder := Nat → List Bytes → List Bytes

/-- The only guarantee of the Go specification: every key present is visited exactly once. -/
def IterOrder.Fair (ch : IterOrder) : Prop := ∀ i l, (ch i l).Perm l

end Verif
