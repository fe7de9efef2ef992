import Verif.Spec.Recipe

/-!
A hash, which many users write with HSET and HDEL and read with the other commands: what is in it one after the other, and what the users see of it.
-/

namespace Verif.Spec

/-- The command reads the hash `k`, and from the content `m` answers `r` such that `P m r`. -/
inductive ReadsHash (k : Bytes) : Command → (Hash → Resp → Prop) → Prop where
  | hget {f : Bytes} : f ≠ [] → ReadsHash k (.hget k f) fun m r => r = bulk? (m.lookup f)
  | hexists {f : Bytes} : f ≠ [] → ReadsHash k (.hexists k f) fun m r => r = .int (if m.lookup f = none then 0 else 1)
  | hstrlen {f : Bytes} : f ≠ [] → ReadsHash k (.hstrlen k f) fun m r => r = .int ((m.lookup f).getD []).length
  | hmget {fs : List Bytes} : ReadsHash k (.hmget k fs) fun m r => r = .array (fs.map fun f => bulk? (m.lookup f))
  | hlen : ReadsHash k (.hlen k) fun m r => r = .int m.keys.card
  | hgetall : ReadsHash k (.hgetall k) fun m r => m = ∅ ∧ r = .nullArray ∨ ∃ ps, HashEntries ps m ∧ r = .array (ps.flatMap fun p => [.bulk p.1, .bulk p.2])
  | hkeys : ReadsHash k (.hkeys k) fun m r => m = ∅ ∧ r = .nullArray ∨ ∃ ps, HashEntries ps m ∧ r = .array (ps.map fun p => .bulk p.1)
  | hvals : ReadsHash k (.hvals k) fun m r => m = ∅ ∧ r = .nullArray ∨ ∃ ps, HashEntries ps m ∧ r = .array (ps.map fun p => .bulk p.2)

/-- The value that the last of the pairs for the field gives it. -/
def lastGiven (ps : List (Bytes × Bytes)) (f : Bytes) : Option Bytes := (ps.reverse.find? fun p => p.1 = f).map Prod.snd

/-- The command writes the hash `k`: it makes `m'` of `m` and answers `r` such that `P m m' r`. -/
inductive WritesHash (k : Bytes) : Command → (Hash → Hash → Resp → Prop) → Prop where
  | hset {fs vs : List Bytes} : fs ≠ [] → WritesHash k (.hset k fs vs) fun m m' r =>
      (∀ f, m'.lookup f = (lastGiven (fs.zip vs) f).or (m.lookup f)) ∧ r = .int (fs.toFinset.filter fun f => m.lookup f = none).card
  | hdel {fs : List Bytes} : WritesHash k (.hdel k fs) fun m m' r =>
      (∀ f, m'.lookup f = if f ∈ fs then none else m.lookup f) ∧ r = .int (fs.toFinset.filter fun f => m.lookup f ≠ none).card

/-- Some place that the commands `R` read and `W` write has the contents `ms` one after the other; line `i` of user `c` found, or made, number `ver c i`. -/
structure Contents {S : Type} (U : Nat → Bool) (tr : List Desk.Ev) (R : Command → (S → Resp → Prop) → Prop) (W : Command → (S → S → Resp → Prop) → Prop) (ms : List S)
    (ver : Nat → Nat → Nat) : Prop where
  reads : ∀ c i x P r, U c = true → R x P → Got tr c i x r → ∃ m, ms[ver c i]? = some m ∧ P m r
  writes : ∀ c i x P r, U c = true → W x P → Got tr c i x r → ∃ n m m', ver c i = n + 1 ∧ ms[n]? = some m ∧ ms[n + 1]? = some m' ∧ P m m' r
  once : ∀ c c' i j x x' P P' r r', U c = true → U c' = true → W x P → W x' P' → Got tr c i x r → Got tr c' j x' r' → ver c i = ver c' j → c = c' ∧ i = j
  ordered : ∀ c c' i j, U c = true → U c' = true → j < (shownTo c' tr).length → Earlier tr c i c' j → ver c i ≤ ver c' j
  anew : ∀ c c' i j x P r, U c = true → U c' = true → W x P → Got tr c' j x r → Earlier tr c i c' j → ver c i < ver c' j

/-- The hash `k` has the contents `ms` one after the other. -/
abbrev Sheet (U : Nat → Bool) (tr : List Desk.Ev) (k : Bytes) (ms : List Hash) (ver : Nat → Nat → Nat) : Prop := Contents U tr (ReadsHash k) (WritesHash k) ms ver

end Verif.Spec
