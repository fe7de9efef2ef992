import Verif.Model.Command
import Verif.Spec.Num
import Verif.Spec.Seq
import Mathlib.Data.Finmap
import Mathlib.Data.Finset.Card
import Mathlib.Data.Finset.SDiff

/-!
The abstract database a client thinks it talks to: four independent namespaces, from keys to strings, sequences, finite maps and finite
sets, and what each command does to it. Nothing here mentions how the server stores or computes anything.
-/

namespace Verif.Spec

/-- `s` is the usual decimal form of `v`: a numeral without plus sign and without superfluous zeros. -/
def Decimal (s : Bytes) (v : Int) : Prop :=
  Numeral s v ∧ (s = [48] ∨ ∃ c ds, c ≠ 48 ∧ c ≠ 43 ∧ (s = 45 :: c :: ds ∨ (c ≠ 45 ∧ s = c :: ds)))

/-- `r` is the 64-bit integer congruent to `x` modulo 2^64. -/
def Wraps (x r : Int) : Prop := InInt64 r ∧ ∃ q : Int, r = x + q * 2 ^ 64

/-- `s` denotes the 64-bit integer `v`. -/
def IsInt (s : Bytes) (v : Int) : Prop := Numeral s v ∧ InInt64 v

/-- The contents of a hash key. -/
abbrev Hash := Finmap (fun _ : Bytes => Bytes)

/-- The abstract database. -/
structure DB where
  strs : Bytes → Option Bytes
  lists : Bytes → Option (List Bytes)
  hashes : Bytes → Option Hash
  sets : Bytes → Option (Finset Bytes)

namespace DB

/-- No key exists. -/
def empty : DB := { strs := fun _ => none, lists := fun _ => none, hashes := fun _ => none, sets := fun _ => none }

def setStr (a : DB) (k v : Bytes) : DB := { a with strs := Function.update a.strs k (some v) }
def setList (a : DB) (k : Bytes) (xs : List Bytes) : DB := { a with lists := Function.update a.lists k (some xs) }
def setHash (a : DB) (k : Bytes) (m : Hash) : DB := { a with hashes := Function.update a.hashes k (some m) }
def setSet (a : DB) (k : Bytes) (s : Finset Bytes) : DB := { a with sets := Function.update a.sets k (some s) }

end DB

/-- `xs` lists exactly the things with property `P`, each once. -/
def Enumerates {α : Type} (xs : List α) (P : α → Prop) : Prop := xs.Nodup ∧ ∀ x, x ∈ xs ↔ P x

/-- `ps` lists the fields of a hash, each once, with their values. -/
def HashEntries (ps : List (Bytes × Bytes)) (m : Hash) : Prop :=
  (ps.map Prod.fst).Nodup ∧ ∀ f v, (f, v) ∈ ps ↔ m.lookup f = some v

/-- What a command leads to: `none` is a crash, otherwise the new database and the reply or error. -/
abbrev Out := Option (DB × Except CmdErr Resp)

/-- No crash, no error. -/
def done (a : DB) (r : Resp) : Out := some (a, .ok r)
/-- An error, the database becomes `a`. -/
def fails (a : DB) (e : CmdErr) : Out := some (a, .error e)

/-- The "OK" reply. -/
def okReply : Resp := .simple b!"OK"

/-- A bulk string, or the null bulk string. -/
def bulk? : Option Bytes → Resp
  | some d => .bulk d
  | none => .nullBulk

/-- An array of bulk strings; a null array when there are none. -/
def bulksOrNull (xs : List Bytes) : Resp := if xs = [] then .nullArray else .array (xs.map .bulk)

/-- INCRBY/DECRBY of `k` by `f v`. -/
def AddStep (a : DB) (k arg : Bytes) (f : Int → Int → Int) (out : Out) : Prop :=
  (∃ old v d r s, a.strs k = some old ∧ IsInt old v ∧ IsInt arg d ∧ Wraps (f v d) r ∧ Decimal s r ∧
    out = done (a.setStr k s) (.int r)) ∨
  ((¬ ∃ d, IsInt arg d) ∧ ∃ msg, out = fails a (.internal msg)) ∨
  ((∃ d, IsInt arg d) ∧ a.strs k = none ∧ out = fails a .noSuchKey) ∨
  ((∃ d, IsInt arg d) ∧ (∃ old, a.strs k = some old ∧ ¬ ∃ v, IsInt old v) ∧ out = fails a .notAInt)

/-- The hash stored at `k`, empty if missing. -/
def DB.hashAt (a : DB) (k : Bytes) : Hash := (a.hashes k).getD ∅
/-- The set stored at `k`, empty if missing. -/
def DB.setAt (a : DB) (k : Bytes) : Finset Bytes := (a.sets k).getD ∅
/-- The list stored at `k`, empty if missing. -/
def DB.listAt (a : DB) (k : Bytes) : List Bytes := (a.lists k).getD []

/-- The effect of every command on the abstract database. -/
def Step (a : DB) (c : Command) (out : Out) : Prop :=
  match c with
  | .set k v => out = done (a.setStr k v) okReply
  | .get k => out = done a (bulk? (a.strs k))
  | .mset ks vs =>
    if ks = [] then ∃ msg, out = fails a (.internal msg)
    else out = done ((ks.zip vs).foldl (fun a p => a.setStr p.1 p.2) a) okReply
  | .mget ks => out = done a (.array (ks.map fun k => bulk? (a.strs k)))
  | .exist ks => out = done a (.int (ks.countP fun k => (a.strs k).isSome))
  | .strlen k => out = done a (.int ((a.strs k).getD []).length)
  | .append k v =>
    let s := (a.strs k).getD [] ++ v
    out = done (a.setStr k s) (.int s.length)
  | .incr k arg => AddStep a k arg (· + ·) out
  | .decr k arg => AddStep a k arg (· - ·) out
  | .getrange k l r =>
    let s := (a.strs k).getD []
    (∃ i j : Nat, Window l r s.length i j ∧ out = done a (.bulk (slice s i j))) ∨
    ((¬ ∃ i j : Nat, Window l r s.length i j) ∧ out = done a (.bulk []))
  | .lpop k =>
    match a.lists k with
    | some (x :: xs) => out = done (a.setList k xs) (.bulk x)
    | _ => out = done a .nullBulk
  | .rpop k =>
    match a.lists k with
    | none => out = done a .nullBulk
    | some xs => (xs = [] ∧ out = done a .nullBulk) ∨ ∃ ys y, xs = ys ++ [y] ∧ out = done (a.setList k ys) (.bulk y)
  | .lindex k i =>
    let xs := a.listAt k
    (∃ (p : Nat) (x : Bytes), Denotes i xs.length p ∧ xs[p]? = some x ∧ out = done a (.bulk x)) ∨
    ((¬ ∃ p : Nat, Denotes i xs.length p) ∧ out = done a .nullBulk)
  | .linsert k after pivot v =>
    match a.lists k with
    | none => out = done a (.int 0)
    | some xs =>
      if pivot = b!"dummy string" then
        if after then out = done (a.setList k (v :: xs)) (.int (xs.length + 1)) else out = none
      else
        (pivot ∉ xs ∧ out = done a (.int (-1))) ∨
        ∃ pre post, FirstAt pivot pre post xs ∧
          out = done (a.setList k (if after then pre ++ pivot :: v :: post else pre ++ v :: pivot :: post)) (.int (xs.length + 1))
  | .llen k => out = done a (.int (a.listAt k).length)
  | .lpush k vs =>
    if k = [] then ∃ msg, out = fails a (.internal msg)
    else out = done (a.setList k (vs.reverse ++ a.listAt k)) (.int (vs.length + (a.listAt k).length))
  | .rpush k vs =>
    if k = [] then ∃ msg, out = fails a (.internal msg)
    else out = done (a.setList k (a.listAt k ++ vs)) (.int (vs.length + (a.listAt k).length))
  | .lrange k l r =>
    let xs := a.listAt k
    (∃ i j : Nat, ListWindow l r xs.length i j ∧ out = done a (.array ((slice xs i j).map .bulk))) ∨
    ((¬ ∃ i j : Nat, ListWindow l r xs.length i j) ∧ out = done a .nullArray)
  | .ltrim k l r =>
    let xs := a.listAt k
    (∃ i j : Nat, ListWindow l r xs.length i j ∧ out = done (a.setList k (slice xs i j)) okReply) ∨
    ((¬ ∃ i j : Nat, ListWindow l r xs.length i j) ∧ out = done a okReply)
  | .lrem k n v =>
    match a.lists k with
    | none => out = done a (.int 0)
    | some xs =>
      if v = b!"dummy string" ∧ ¬ (n = 0 ∧ xs = []) ∧ n ≠ minInt64 then out = none
      else out = done (a.setList k (Spec.lrem n v xs)) (.int ((xs.length : Int) - (Spec.lrem n v xs).length))
  | .lset k i v =>
    match a.lists k with
    | none => out = fails a .noSuchKey
    | some xs =>
      (∃ p : Nat, Denotes i xs.length p ∧ out = done (a.setList k (xs.set p v)) okReply) ∨
      ((¬ ∃ p : Nat, Denotes i xs.length p) ∧ out = fails a .outOfRange)
  | .hset k fs vs =>
    if k = [] then out = none
    else if fs = [] then out = fails (a.setHash k (a.hashAt k)) .argumentInvalid
    else out = done (a.setHash k ((fs.zip vs).foldl (fun m p => m.insert p.1 p.2) (a.hashAt k)))
      (.int (fs.toFinset \ (a.hashAt k).keys).card)
  | .hget k f =>
    match a.hashes k with
    | none => out = done a .nullBulk
    | some m => if f = [] then out = fails a .argumentInvalid else out = done a (bulk? (m.lookup f))
  | .hexists k f =>
    match a.hashes k with
    | none => out = done a (.int 0)
    | some m => if f = [] then out = fails a .argumentInvalid else out = done a (.int (if f ∈ m then 1 else 0))
  | .hdel k fs =>
    match a.hashes k with
    | none => out = done a (.int 0)
    | some m => out = done (a.setHash k (fs.foldl (fun m f => m.erase f) m)) (.int (fs.toFinset ∩ m.keys).card)
  | .hmget k fs => out = done a (.array (fs.map fun f => bulk? ((a.hashAt k).lookup f)))
  | .hkeys k =>
    match a.hashes k with
    | none => out = done a .nullArray
    | some m => ∃ ps, HashEntries ps m ∧ out = done a (.array (ps.map fun p => .bulk p.1))
  | .hvals k =>
    match a.hashes k with
    | none => out = done a .nullArray
    | some m => ∃ ps, HashEntries ps m ∧ out = done a (.array (ps.map fun p => .bulk p.2))
  | .hgetall k =>
    match a.hashes k with
    | none => out = done a .nullArray
    | some m => ∃ ps, HashEntries ps m ∧ out = done a (.array (ps.flatMap fun p => [.bulk p.1, .bulk p.2]))
  | .hstrlen k f =>
    match a.hashes k with
    | none => out = done a (.int 0)
    | some m => if f = [] then out = fails a .argumentInvalid else out = done a (.int ((m.lookup f).getD []).length)
  | .hlen k => out = done a (.int (a.hashAt k).keys.card)
  | .sadd k ms =>
    if k = [] then out = none
    else out = done (a.setSet k (a.setAt k ∪ ms.toFinset)) (.int (ms.toFinset \ a.setAt k).card)
  | .srem k ms =>
    if k = [] then out = none
    else out = done (a.setSet k (a.setAt k \ ms.toFinset)) (.int (ms.toFinset ∩ a.setAt k).card)
  | .sismember k m =>
    match a.sets k with
    | none => out = done a (.int 0)
    | some s => if m = [] then out = fails a .argumentInvalid else out = done a (.int (if m ∈ s then 1 else 0))
  | .smembers k =>
    match a.sets k with
    | none => out = done a .nullArray
    | some s => ∃ ms, Enumerates ms (· ∈ s) ∧ out = done a (.array (ms.map .bulk))
  | .srandmember k count =>
    match a.sets k with
    | none => out = done a (if count.isSome then .nullArray else .nullBulk)
    | some s =>
      ∃ ms : List Bytes, ms.Nodup ∧ ms.toFinset ⊆ s ∧ ms.length = min (count.getD 1).natAbs s.card ∧
        match count, ms with
        | some _, _ => out = done a (bulksOrNull ms)
        | none, [] => out = none
        | none, m :: _ => out = done a (.bulk m)
  | .spop k count =>
    match a.sets k with
    | none => out = done a (if count.isSome then .nullArray else .nullBulk)
    | some s =>
      ∃ ms : List Bytes, ms.Nodup ∧ ms.toFinset ⊆ s ∧ ms.length = min (count.getD 1).natAbs s.card ∧
        match count, ms with
        | some _, _ => out = done (a.setSet k (s \ ms.toFinset)) (bulksOrNull ms)
        | none, [] => out = none
        | none, m :: _ => out = done (a.setSet k (s \ ms.toFinset)) (.bulk m)
  | .sdiff ks => ∃ ms, Enumerates ms (fun x => x ∈ a.setAt (ks.headD []) ∧ ∀ k ∈ ks.tail, x ∉ a.setAt k) ∧ out = done a (bulksOrNull ms)
  | .sinter ks => ∃ ms, Enumerates ms (fun x => ∀ k ∈ ks, x ∈ a.setAt k) ∧ out = done a (bulksOrNull ms)
  | .sunion ks => ∃ ms, Enumerates ms (fun x => ∃ k ∈ ks, x ∈ a.setAt k) ∧ out = done a (bulksOrNull ms)
  | .scard k => out = done a (.int (a.setAt k).card)

/-- What argument parsing guarantees about a command: integers fit into 64 bits, value lists have the right lengths, lists that must not be
empty are not. -/
def Valid : Command → Prop
  | .mset ks vs => ks.length = vs.length
  | .mget ks | .exist ks | .sdiff ks | .sinter ks | .sunion ks => ks ≠ []
  | .getrange _ a b | .lrange _ a b | .ltrim _ a b => InInt64 a ∧ InInt64 b
  | .lindex _ i | .lset _ i _ | .lrem _ i _ => InInt64 i
  | .hset _ fs vs => fs.length = vs.length
  | .lpush _ vs | .rpush _ vs | .hdel _ vs | .hmget _ vs | .sadd _ vs | .srem _ vs => vs ≠ []
  | .spop _ c | .srandmember _ c => ∀ n, c = some n → InInt64 n
  | _ => True

end Verif.Spec
