import Verif.Spec.Sheet

/-!
A list, a string and the sets, which many users write and read with whatever commands: what is there one after the other, and what the users see of it.
-/

namespace Verif.Spec

/-- The command reads the list `k`, and from what is there answers `r` such that `P m r`; `none` is a list that was never written. -/
inductive ReadsList (k : Bytes) : Command → (Option (List Bytes) → Resp → Prop) → Prop where
  | llen : ReadsList k (.llen k) fun m r => r = .int (m.getD []).length
  | lindex {i : Int} : ReadsList k (.lindex k i) fun m r =>
      (∃ (p : Nat) (x : Bytes), Denotes i (m.getD []).length p ∧ (m.getD [])[p]? = some x ∧ r = .bulk x) ∨ (¬ ∃ p : Nat, Denotes i (m.getD []).length p) ∧ r = .nullBulk
  | lrange {b e : Int} : ReadsList k (.lrange k b e) fun m r =>
      (∃ i j : Nat, ListWindow b e (m.getD []).length i j ∧ r = .array ((slice (m.getD []) i j).map .bulk)) ∨
        (¬ ∃ i j : Nat, ListWindow b e (m.getD []).length i j) ∧ r = .nullArray

/-- The command writes the list `k`: it makes `m'` of `m` and answers `r` such that `P m m' r`. LINSERT and LREM of the text "dummy string" can crash the server, and then are not answered. -/
inductive WritesList (k : Bytes) : Command → (Option (List Bytes) → Option (List Bytes) → Resp → Prop) → Prop where
  | lpush {vs : List Bytes} : k ≠ [] → WritesList k (.lpush k vs) fun m m' r => m' = some (vs.reverse ++ m.getD []) ∧ r = .int (vs.length + (m.getD []).length)
  | rpush {vs : List Bytes} : k ≠ [] → WritesList k (.rpush k vs) fun m m' r => m' = some (m.getD [] ++ vs) ∧ r = .int (vs.length + (m.getD []).length)
  | lpop : WritesList k (.lpop k) fun m m' r => m.getD [] = [] ∧ m' = m ∧ r = .nullBulk ∨ ∃ x xs, m = some (x :: xs) ∧ m' = some xs ∧ r = .bulk x
  | rpop : WritesList k (.rpop k) fun m m' r => m.getD [] = [] ∧ m' = m ∧ r = .nullBulk ∨ ∃ x xs, m = some (xs ++ [x]) ∧ m' = some xs ∧ r = .bulk x
  | lset {i : Int} {v : Bytes} : WritesList k (.lset k i v) fun m m' r =>
      m = none ∧ m' = none ∧ r = .error b!"ERR no such key" ∨
        ∃ xs, m = some xs ∧ ((∃ p : Nat, Denotes i xs.length p ∧ m' = some (xs.set p v) ∧ r = okReply) ∨
          (¬ ∃ p : Nat, Denotes i xs.length p) ∧ m' = m ∧ r = .error b!"ERR index out of range")
  | lrem {n : Int} {v : Bytes} : WritesList k (.lrem k n v) fun m m' r =>
      m = none ∧ m' = none ∧ r = .int 0 ∨ ∃ xs, m = some xs ∧ m' = some (lrem n v xs) ∧ r = .int ((xs.length : Int) - (lrem n v xs).length)
  | ltrim {b e : Int} : WritesList k (.ltrim k b e) fun m m' r => r = okReply ∧
      ((∃ i j : Nat, ListWindow b e (m.getD []).length i j ∧ m' = some (slice (m.getD []) i j)) ∨ (¬ ∃ i j : Nat, ListWindow b e (m.getD []).length i j) ∧ m' = m)
  | linsert {after : Bool} {pivot v : Bytes} : WritesList k (.linsert k after pivot v) fun m m' r =>
      m = none ∧ m' = none ∧ r = .int 0 ∨ (∃ xs, m = some xs ∧ pivot = b!"dummy string" ∧ after = true ∧ m' = some (v :: xs) ∧ r = .int (xs.length + 1)) ∨
        pivot ≠ b!"dummy string" ∧ ∃ xs, m = some xs ∧ (pivot ∉ xs ∧ m' = m ∧ r = .int (-1) ∨ ∃ pre post, FirstAt pivot pre post xs ∧
          m' = some (if after then pre ++ pivot :: v :: post else pre ++ v :: pivot :: post) ∧ r = .int (xs.length + 1))

/-- The command reads the string `k`, and from what is there answers `r` such that `P m r`; `none` is a key that was never set. -/
inductive ReadsText (k : Bytes) : Command → (Option Bytes → Resp → Prop) → Prop where
  | get : ReadsText k (.get k) fun m r => r = bulk? m
  | strlen : ReadsText k (.strlen k) fun m r => r = .int (m.getD []).length
  | exist : ReadsText k (.exist [k]) fun m r => r = .int (if m = none then 0 else 1)
  | getrange {b e : Int} : ReadsText k (.getrange k b e) fun m r =>
      (∃ i j : Nat, Window b e (m.getD []).length i j ∧ r = .bulk (slice (m.getD []) i j)) ∨ (¬ ∃ i j : Nat, Window b e (m.getD []).length i j) ∧ r = .bulk []
  | mget {ks : List Bytes} : ReadsText k (.mget ks) fun m r => ∃ rs, r = .array rs ∧ rs.length = ks.length ∧ ∀ p : Nat, ks[p]? = some k → rs[p]? = some (bulk? m)

/-- What adding to the string makes of it. -/
def AddedTo (m m' : Option Bytes) (arg : Bytes) (f : Int → Int → Int) (r : Resp) : Prop :=
  (∃ old v d n t, m = some old ∧ IsInt old v ∧ IsInt arg d ∧ Wraps (f v d) n ∧ Decimal t n ∧ m' = some t ∧ r = .int n) ∨
    m' = m ∧ ((¬ ∃ d, IsInt arg d) ∧ InternalError r ∨ (∃ d, IsInt arg d) ∧ m = none ∧ r = .error b!"ERR no such key" ∨
      (∃ d, IsInt arg d) ∧ (∃ old, m = some old ∧ ¬ ∃ v, IsInt old v) ∧ r = .error b!"ERR value is not an integer or out of range")

/-- The command writes the string `k`: it makes `m'` of `m` and answers `r` such that `P m m' r`. -/
inductive WritesText (k : Bytes) : Command → (Option Bytes → Option Bytes → Resp → Prop) → Prop where
  | set {v : Bytes} : WritesText k (.set k v) fun _ m' r => m' = some v ∧ r = okReply
  | mset {ks vs : List Bytes} : k ∈ ks → WritesText k (.mset ks vs) fun m m' r => m' = (lastGiven (ks.zip vs) k).or m ∧ r = okReply
  | append {v : Bytes} : WritesText k (.append k v) fun m m' r => m' = some (m.getD [] ++ v) ∧ r = .int (m.getD [] ++ v).length
  | incr {arg : Bytes} : WritesText k (.incr k arg) fun m m' r => AddedTo m m' arg (· + ·) r
  | decr {arg : Bytes} : WritesText k (.decr k arg) fun m m' r => AddedTo m m' arg (· - ·) r

/-- The elements of one of the sets. -/
def elements (m : Bytes → Option (Finset Bytes)) (k : Bytes) : Finset Bytes := (m k).getD ∅

/-- The command reads sets, and from what is in all of them answers `r` such that `P m r`; `none` is a set that was never written. -/
inductive ReadsSets : Command → ((Bytes → Option (Finset Bytes)) → Resp → Prop) → Prop where
  | scard {k : Bytes} : ReadsSets (.scard k) fun m r => r = .int (elements m k).card
  | sismember {k x : Bytes} : x ≠ [] → ReadsSets (.sismember k x) fun m r => r = .int (if x ∈ elements m k then 1 else 0)
  | smembers {k : Bytes} : ReadsSets (.smembers k) fun m r => m k = none ∧ r = .nullArray ∨ m k ≠ none ∧ ∃ xs, Enumerates xs (· ∈ elements m k) ∧ r = .array (xs.map .bulk)
  | srandmember {k : Bytes} {n : Int} : ReadsSets (.srandmember k (some n)) fun m r =>
      ∃ xs : List Bytes, xs.Nodup ∧ xs.toFinset ⊆ elements m k ∧ xs.length = min n.natAbs (elements m k).card ∧ r = bulksOrNull xs
  | srandone {k : Bytes} : ReadsSets (.srandmember k none) fun m r => m k = none ∧ r = .nullBulk ∨ ∃ x ∈ elements m k, r = .bulk x
  | sdiff {ks : List Bytes} : ReadsSets (.sdiff ks) fun m r => ∃ xs, Enumerates xs (fun x => x ∈ elements m (ks.headD []) ∧ ∀ k ∈ ks.tail, x ∉ elements m k) ∧ r = bulksOrNull xs
  | sinter {ks : List Bytes} : ReadsSets (.sinter ks) fun m r => ∃ xs, Enumerates xs (fun x => ∀ k ∈ ks, x ∈ elements m k) ∧ r = bulksOrNull xs
  | sunion {ks : List Bytes} : ReadsSets (.sunion ks) fun m r => ∃ xs, Enumerates xs (fun x => ∃ k ∈ ks, x ∈ elements m k) ∧ r = bulksOrNull xs

/-- The command writes one of the sets: it makes `m'` of `m` and answers `r` such that `P m m' r`. -/
inductive WritesSets : Command → ((Bytes → Option (Finset Bytes)) → (Bytes → Option (Finset Bytes)) → Resp → Prop) → Prop where
  | sadd {k : Bytes} {xs : List Bytes} : WritesSets (.sadd k xs) fun m m' r =>
      m' k = some (elements m k ∪ xs.toFinset) ∧ (∀ j, j ≠ k → m' j = m j) ∧ r = .int (xs.toFinset \ elements m k).card
  | srem {k : Bytes} {xs : List Bytes} : WritesSets (.srem k xs) fun m m' r =>
      m' k = some (elements m k \ xs.toFinset) ∧ (∀ j, j ≠ k → m' j = m j) ∧ r = .int (xs.toFinset ∩ elements m k).card
  | spop {k : Bytes} {n : Int} : WritesSets (.spop k (some n)) fun m m' r => ∃ xs : List Bytes, xs.Nodup ∧ xs.toFinset ⊆ elements m k ∧
      xs.length = min n.natAbs (elements m k).card ∧ elements m' k = elements m k \ xs.toFinset ∧ (∀ j, j ≠ k → m' j = m j) ∧ r = bulksOrNull xs
  | spopone {k : Bytes} : WritesSets (.spop k none) fun m m' r => m k = none ∧ m' = m ∧ r = .nullBulk ∨
      ∃ x ∈ elements m k, m' k = some ((elements m k).erase x) ∧ (∀ j, j ≠ k → m' j = m j) ∧ r = .bulk x

end Verif.Spec
