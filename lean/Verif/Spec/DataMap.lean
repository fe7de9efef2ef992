import Verif.Model.DataMap
import Verif.Spec.RWLock

/-! What a key-value map must answer, in terms of the calls made before. -/

namespace Verif.Spec

variable {V : Type}

/-- The call sets or removes `k`. -/
def MapOp.Touches (k : Bytes) : MapOp V → Prop
  | .set k' _ => k' = k
  | .remove k' => k' = k
  | _ => False

/-- After the calls `ops` the key `k` has the value `v`: some call set it so, and no later one touched the key. -/
def Holds (ops : List (MapOp V)) (k : Bytes) (v : V) : Prop :=
  ∃ before after, ops = before ++ .set k v :: after ∧ ∀ o ∈ after, ¬ MapOp.Touches k o

/-- `n` keys have a value after the calls `ops`. -/
def Holding (ops : List (MapOp V)) (n : Nat) : Prop :=
  ∃ ks : List Bytes, ks.Nodup ∧ (∀ k, k ∈ ks ↔ ∃ v, Holds ops k v) ∧ ks.length = n

/-- The right answer to a call made after `ops`. -/
def Answer (ops : List (MapOp V)) : MapOp V → MapRet V → Prop
  | .set _ _, r => r = .unit
  | .remove _, r => r = .unit
  | .get k, r => ∃ x, r = .val x ∧ ∀ v, x = some v ↔ Holds ops k v
  | .has k, r => ∃ b, r = .bool b ∧ (b = true ↔ ∃ v, Holds ops k v)
  | .len, r => ∃ n : Nat, r = .int n ∧ Holding ops n

/-- Every call of the history got the right answer. -/
def Exact (h : List (MapOp V × MapRet V)) : Prop :=
  ∀ before o r after, h = before ++ (o, r) :: after → Answer (before.map Prod.fst) o r

/-- The changes other goroutines have seen of a `syncDataMap`. -/
def writesOf : List (DataMap.Sync.Ev V) → List (MapOp V)
  | [] => []
  | .stored _ k v :: tr => .set k v :: writesOf tr
  | .deleted _ k :: tr => .remove k :: writesOf tr
  | _ :: tr => writesOf tr

/-- The key a goroutine is setting or removing. -/
def busy : DataMap.Sync.Pc V → Option Bytes
  | .idle => none
  | .adding k _ | .storing k _ _ | .deleting k | .subtracting k => some k

/-- No two goroutines are setting or removing the same key. -/
def Apart (s : DataMap.Sync.Sys V) : Prop := ∀ t u k, busy (s.pcs t) = some k → busy (s.pcs u) = some k → t = u

/-- No call is under way. -/
def Quiet (s : DataMap.Sync.Sys V) : Prop := ∀ t, busy (s.pcs t) = none

end Verif.Spec
