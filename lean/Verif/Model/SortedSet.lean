import Verif.Model.Str

/-!
pkg/container/sorted_set.go: the skip list behind the sorted set container, at pointer level. No command uses it; it is an exported
constructor (`NewSortedSetContainer`) with the methods of the interface `SortedSetContainer` (lines 27-50). `Count`, `RangeByRank`,
`RangeByScore`, `DelRangeByRank` and `DelRangeByScore` panic with "implement me" (lines 289-291, 346-360) and are left out.
-/

namespace Verif

/-- `float64` as a score: finite values by their exact rational value. The two zeros are not told apart (they compare equal). -/
inductive F64 where
  | nan
  | ninf
  | fin (q : Rat)
  | pinf
deriving DecidableEq, Repr

namespace F64

/-- `a < b` on float64 (pkg/container/sorted_set.go:115). -/
def lt : F64 → F64 → Bool
  | ninf, fin _ | ninf, pinf | fin _, pinf => true
  | fin a, fin b => decide (a < b)
  | _, _ => false

/-- `a == b` on float64 (pkg/container/sorted_set.go:116). -/
def eq : F64 → F64 → Bool
  | ninf, ninf | pinf, pinf => true
  | fin a, fin b => decide (a = b)
  | _, _ => false

/-- `a + b` on float64 (pkg/container/sorted_set.go:308). How the exact sum of finite values is rounded is the parameter `rnd`. -/
def add (rnd : Rat → F64) : F64 → F64 → F64
  | nan, _ | _, nan | pinf, ninf | ninf, pinf => nan
  | pinf, _ | _, pinf => pinf
  | ninf, _ | _, ninf => ninf
  | fin a, fin b => rnd (a + b)

/-- `math.MaxFloat64` (pkg/container/sorted_set.go:234, 239). -/
def maxFloat64 : F64 := fin ((2 ^ 53 - 1) * 2 ^ 971)

/-- `-math.MaxFloat64`. -/
def minFloat64 : F64 := fin (-((2 ^ 53 - 1) * 2 ^ 971))

end F64

/-- pkg/container/sorted_set.go:52-55 `skipListLevel`. The pointer is an address; the nil of `skipListLevel{}` (line 159) is overwritten
at once. -/
structure SLevel where
  node : Nat
  span : Int

/-- pkg/container/sorted_set.go:57-62 `skipListNode`; `data` and `prev` may be nil. -/
structure SNode where
  score : F64
  data : Option Str
  next : List SLevel
  prev : Option Nat

/-- The nodes, by address. -/
abbrev SHeap := Nat → SNode

namespace SHeap

/-- Replaces the node at an address. -/
def upd (m : SHeap) (a : Nat) (n : SNode) : SHeap := fun b => if b = a then n else m b

/-- `a.next[l]`; a slice index out of range panics. -/
def level (m : SHeap) (a l : Nat) : Outcome SLevel :=
  match (m a).next[l]? with
  | some x => .ok x
  | none => .panic

/-- `a.next[l] = x`, for an index in range. -/
def setLevel (m : SHeap) (a l : Nat) (x : SLevel) : SHeap := m.upd a { m a with next := (m a).next.set l x }

end SHeap

/-- pkg/container/sorted_set.go:73-79 `skipList` (its `key` is only returned by `Key()` and left out), with its heap: addresses from
`fresh` on are unused. -/
structure SkipList where
  heap : SHeap
  fresh : Nat
  head : Nat
  tail : Nat
  level : Nat
  set : GoMap Nat

namespace SkipList

/-- pkg/container/sorted_set.go:10-13. -/
def maxLevel : Nat := 32

/-- pkg/container/sorted_set.go:81-92 `getRandomLevel`, when the random source gives `draws` multiples of four before another number. -/
def getRandomLevel (draws : Nat) : Nat := if 1 + draws > maxLevel then maxLevel else 1 + draws

/-- pkg/container/sorted_set.go:228-256 `NewSortedSetContainer`: head is node 0, tail node 1. -/
def new : SkipList :=
  { heap := fun a =>
      if a = 0 then { score := F64.minFloat64, data := none, next := List.replicate maxLevel ⟨1, 0⟩, prev := none }
      else { score := F64.maxFloat64, data := none, next := [], prev := some 0 }
    fresh := 2, head := 0, tail := 1, level := 1, set := [] }

/-- pkg/container/sorted_set.go:362-364 `Len`. -/
def len (s : SkipList) : Int := s.set.length

/-- The condition of pkg/container/sorted_set.go:115-116 on the next node. A nil string is dereferenced by `CompareTo`. -/
def goesBefore (m : SHeap) (score : F64) (entry : Str) (a : Nat) : Outcome Bool :=
  if F64.lt (m a).score score then .ok true
  else if F64.eq (m a).score score then
    match (m a).data with
    | some d => .ok (decide (d.compareTo entry < 0))
    | none => .panic
  else .ok false

/-- The inner loops of pkg/container/sorted_set.go:114-119 and 205-207: walk along one level while the next node is not the tail and
`cond` holds of it, adding up the spans (lines 205-207 do not). -/
def walk (m : SHeap) (tail : Nat) (cond : Nat → Outcome Bool) (l : Nat) : Nat → Nat → Int → Outcome (Nat × Int)
  | 0, _, _ => .diverge
  | fuel + 1, cur, rank => do
    let x ← m.level cur l
    if x.node = tail then .ok (cur, rank)
    else
      let b ← cond x.node
      if b then walk m tail cond l fuel x.node (rank + x.span) else .ok (cur, rank)

/-- The outer loops of pkg/container/sorted_set.go:106-122 and 203-210, from level `n - 1` down to 0: `update[l]` and `rank[l]` for the
levels below `n`. -/
def search (m : SHeap) (tail : Nat) (cond : Nat → Outcome Bool) (fuel : Nat) : Nat → Nat → Int → Outcome (List (Nat × Int))
  | 0, _, _ => .ok []
  | l + 1, cur, rank => do
    let (cur', rank') ← walk m tail cond l fuel cur rank
    let below ← search m tail cond fuel l cur' rank'
    .ok (below ++ [(cur', rank')])

/-- The loop of pkg/container/sorted_set.go:127-131 over the levels `l`, …: `head` precedes the new node on the new levels. -/
def raise (m : SHeap) (head : Nat) (size : Int) : Nat → Nat → Outcome SHeap
  | _, 0 => .ok m
  | l, n + 1 => do
    let x ← m.level head l
    raise (m.setLevel head l { x with span := size }) head size (l + 1) n

/-- The loop of pkg/container/sorted_set.go:158-165 from level `l` on; `rank0` is `rank[0]`. -/
def link (cur : Nat) (rank0 : Int) : SHeap → Nat → List (Nat × Int) → Outcome SHeap
  | m, _, [] => .ok m
  | m, l, (u, r) :: us => do
    let x ← m.level u l
    let m1 := m.upd cur { m cur with next := (m cur).next ++ [⟨x.node, x.span - (rank0 - r)⟩] }
    link cur rank0 (m1.setLevel u l ⟨cur, rank0 - r + 1⟩) (l + 1) us

/-- The loop of pkg/container/sorted_set.go:169-171 from level `l` on. -/
def widen : SHeap → Nat → List (Nat × Int) → Outcome SHeap
  | m, _, [] => .ok m
  | m, l, (u, _) :: us => do
    let x ← m.level u l
    widen (m.setLevel u l { x with span := x.span + 1 }) (l + 1) us

/-- `n.prev = p`. -/
def setPrev (m : SHeap) (a : Nat) (p : Option Nat) : SHeap := m.upd a { m a with prev := p }

/-- pkg/container/sorted_set.go:94-177 `insert`, with the random draws of line 125. -/
def insert (s : SkipList) (score : F64) (entry : Str) (draws : Nat) : Outcome SkipList :=
  match s.set.get entry.data with
  | some _ => .ok s
  | none => do
    let us ← search s.heap s.tail (goesBefore s.heap score entry) s.fresh s.level s.head 0
    let newLevel := getRandomLevel draws
    let m ← if newLevel > s.level then raise s.heap s.head s.len s.level (newLevel - s.level) else .ok s.heap
    let us := us ++ List.replicate (newLevel - s.level) (s.head, 0)
    let level := if newLevel > s.level then newLevel else s.level
    let cur := s.fresh
    let m := m.upd cur { score := score, data := some entry, next := [], prev := none }
    match us with
    | [] => .panic
    | (u0, rank0) :: _ => do
      let m ← link cur rank0 m 0 us
      let m ← widen m newLevel (us.drop newLevel)
      let m := setPrev m cur (some u0)
      let x ← m.level cur 0
      let m := setPrev m x.node (some cur)
      .ok { s with heap := m, fresh := s.fresh + 1, level := level, set := s.set.set entry.data cur }

/-- The loop of pkg/container/sorted_set.go:182-189 from level `l` on. -/
def unlink (node : Nat) : SHeap → Nat → List (Nat × Int) → Outcome SHeap
  | m, _, [] => .ok m
  | m, l, (u, _) :: us => do
    let x ← m.level u l
    if x.node = node then
      let y ← m.level node l
      unlink node (m.setLevel u l ⟨y.node, x.span + (y.span - 1)⟩) (l + 1) us
    else
      unlink node (m.setLevel u l { x with span := x.span - 1 }) (l + 1) us

/-- The loop of pkg/container/sorted_set.go:191-193. -/
def lower (m : SHeap) (head tail : Nat) : Nat → Outcome Nat
  | 0 => .ok 0
  | 1 => .ok 1
  | l + 2 => do
    let x ← m.level head (l + 1)
    if x.node = tail then lower m head tail (l + 1) else .ok (l + 2)

/-- pkg/container/sorted_set.go:64-71 `release`: the loop of lines 68-70 assigns to a copy and changes nothing. -/
def release (m : SHeap) (a : Nat) : SHeap := m.upd a { m a with data := none, prev := none }

/-- pkg/container/sorted_set.go:181-198 `delete`. -/
def delete (s : SkipList) (node : Nat) (update : List (Nat × Int)) : Outcome SkipList := do
  let m ← unlink node s.heap 0 update
  let level ← lower m s.head s.tail s.level
  match (m node).data with
  | none => .panic
  | some d => .ok { s with heap := release m node, level := level, set := s.set.erase d.data }

/-- pkg/container/sorted_set.go:200-213 `deleteNode`. -/
def deleteNode (s : SkipList) (node : Nat) : Outcome SkipList := do
  let us ← search s.heap s.tail (fun a => .ok (decide (a ≠ node))) s.fresh s.level s.head 0
  delete s node us

/-- The inner loop of pkg/container/sorted_set.go:219-222: `next != tail || next != node`. -/
def rankWalk (m : SHeap) (tail node l : Nat) : Nat → Nat → Int → Outcome (Nat × Int)
  | 0, _, _ => .diverge
  | fuel + 1, cur, rank => do
    let x ← m.level cur l
    if x.node ≠ tail ∨ x.node ≠ node then rankWalk m tail node l fuel x.node (rank + x.span) else .ok (cur, rank)

/-- The outer loop of pkg/container/sorted_set.go:218-223. -/
def rankLoop (m : SHeap) (tail node fuel : Nat) : Nat → Nat → Int → Outcome Int
  | 0, _, rank => .ok rank
  | l + 1, cur, rank => do
    let (cur', rank') ← rankWalk m tail node l fuel cur rank
    rankLoop m tail node fuel l cur' rank'

/-- pkg/container/sorted_set.go:215-226 `getRank`. -/
def getRank (s : SkipList) (node : Nat) : Outcome Int := rankLoop s.heap s.tail node s.fresh s.level s.head 0

/-- The loop of pkg/container/sorted_set.go:274-276; `draws i` are the random draws of the `i`-th insertion. -/
def addLoop (draws : Nat → Nat) : Nat → SkipList → List F64 → List Str → Outcome SkipList
  | i, s, x :: xs, e :: es => do
    let s' ← insert s x e (draws i)
    addLoop draws (i + 1) s' xs es
  | _, s, _, _ => .ok s

/-- pkg/container/sorted_set.go:268-279 `Add`; `false` is `ErrSortedSetLengthNotMatch`. -/
def add (s : SkipList) (scores : List F64) (entries : List Str) (draws : Nat → Nat) : Outcome (SkipList × Bool) :=
  if scores.length ≠ entries.length then .ok (s, false)
  else do
    let s' ← addLoop draws 0 s scores entries
    .ok (s', true)

/-- pkg/container/sorted_set.go:281-287 `Del`. -/
def del (s : SkipList) : List Str → Outcome SkipList
  | [] => .ok s
  | e :: es =>
    match s.set.get e.data with
    | some node => do
      let s' ← deleteNode s node
      del s' es
    | none => del s es

/-- pkg/container/sorted_set.go:293-299 `Score`; `none` is `ErrEntryNotFound`. -/
def score (s : SkipList) (entry : Str) : Option F64 :=
  match s.set.get entry.data with
  | some node => some (s.heap node).score
  | none => none

/-- pkg/container/sorted_set.go:301-314 `IncreaseBy`; `none` is `ErrEntryNotFound`. Inserting a node without a string would panic
(line 95). -/
def increaseBy (rnd : Rat → F64) (s : SkipList) (entry : Str) (increment : F64) (draws : Nat) : Outcome (SkipList × Option F64) :=
  match s.set.get entry.data with
  | none => .ok (s, none)
  | some node => do
    let newScore := F64.add rnd (s.heap node).score increment
    let data := (s.heap node).data
    let s1 ← deleteNode s node
    match data with
    | none => .panic
    | some d => do
      let s2 ← insert s1 newScore d draws
      .ok (s2, some newScore)

/-- pkg/container/sorted_set.go:316-325 `PopMin`: `none` is `ErrSortedSetEmpty`, `some none` a nil string. -/
def popMin (s : SkipList) : Outcome (SkipList × Option (Option Str)) :=
  if s.set.length = 0 then .ok (s, none)
  else do
    let x ← s.heap.level s.head 0
    let data := (s.heap x.node).data
    let s' ← deleteNode s x.node
    .ok (s', some data)

/-- pkg/container/sorted_set.go:327-336 `PopMax`. -/
def popMax (s : SkipList) : Outcome (SkipList × Option (Option Str)) :=
  if s.set.length = 0 then .ok (s, none)
  else
    match (s.heap s.tail).prev with
    | none => .panic
    | some p => do
      let data := (s.heap p).data
      let s' ← deleteNode s p
      .ok (s', some data)

/-- pkg/container/sorted_set.go:338-344 `Rank`; `none` is `ErrEntryNotFound`. -/
def rank (s : SkipList) (entry : Str) : Outcome (Option Int) :=
  match s.set.get entry.data with
  | none => .ok none
  | some node => do
    let r ← getRank s node
    .ok (some r)

end SkipList

/-- The calls of the interface at pkg/container/sorted_set.go:27-50 that are implemented. -/
inductive ZOp where
  | add (scores : List F64) (entries : List Bytes)
  | del (entries : List Bytes)
  | score (entry : Bytes)
  | increaseBy (entry : Bytes) (increment : F64)
  | popMin
  | popMax
  | rank (entry : Bytes)
  | len
deriving DecidableEq, Repr

/-- What they return: `added false` is `ErrSortedSetLengthNotMatch`, `score none` and `rank none` are `ErrEntryNotFound`, `popped none` is
`ErrSortedSetEmpty`, `nilPopped` a nil string without an error. -/
inductive ZResult where
  | added (ok : Bool)
  | done
  | score (x : Option F64)
  | popped (e : Option Bytes)
  | nilPopped
  | rank (r : Option Int)
  | len (n : Int)
deriving DecidableEq, Repr

/-- What a pop returns. -/
def ZResult.ofPop : Option (Option Str) → ZResult
  | none => .popped none
  | some (some d) => .popped (some d.data)
  | some none => .nilPopped

namespace SkipList

/-- One call of a method of pkg/container/sorted_set.go:268-364, with entries from `NewString` that are not changed afterwards; the random
draws of the `i`-th insertion of the call are `draws i`. -/
def call (rnd : Rat → F64) (s : SkipList) (op : ZOp) (draws : Nat → Nat) : Outcome (SkipList × ZResult) :=
  match op with
  | .add xs es => do
    let (s', ok) ← add s xs (es.map Str.new) draws
    .ok (s', .added ok)
  | .del es => do
    let s' ← del s (es.map Str.new)
    .ok (s', .done)
  | .score e => .ok (s, .score (score s (Str.new e)))
  | .increaseBy e i => do
    let (s', x) ← increaseBy rnd s (Str.new e) i (draws 0)
    .ok (s', .score x)
  | .popMin => do
    let (s', d) ← popMin s
    .ok (s', .ofPop d)
  | .popMax => do
    let (s', d) ← popMax s
    .ok (s', .ofPop d)
  | .rank e => do
    let r ← rank s (Str.new e)
    .ok (s, .rank r)
  | .len => .ok (s, .len (len s))

/-- A sequence of calls: the state and the history of calls and answers. -/
def run (rnd : Rat → F64) : SkipList → List (ZOp × (Nat → Nat)) → Outcome (SkipList × List (ZOp × ZResult))
  | s, [] => .ok (s, [])
  | s, (op, draws) :: ops => do
    let (s', r) ← call rnd s op draws
    let (s'', h) ← run rnd s' ops
    .ok (s'', (op, r) :: h)

end SkipList

end Verif
