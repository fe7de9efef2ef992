import Verif.Model.Str

/-!
pkg/container/list.go at pointer level. A list owns a heap of nodes; a `*listNode` is `Option Nat` (`none` = nil). Nodes are only
reachable through their own list, so one heap per list is faithful. Dereferencing nil is the only way to panic here.
-/

namespace Verif

/-- pkg/container/list.go:43-47 `listNode`. -/
structure Node where
  data : Str
  next : Option Nat
  prev : Option Nat
deriving DecidableEq, Repr

/-- A heap: contents of every allocated node. Addresses `≥ fresh` of the owning list are not allocated yet. -/
abbrev Heap := Nat → Node

namespace Heap

/-- Assignment to one node. -/
def upd (m : Heap) (a : Nat) (n : Node) : Heap := fun x => if x = a then n else m x

/-- `a.next = p`. -/
def setNext (m : Heap) (a : Nat) (p : Option Nat) : Heap := m.upd a { m a with next := p }

/-- `a.prev = p`. -/
def setPrev (m : Heap) (a : Nat) (p : Option Nat) : Heap := m.upd a { m a with prev := p }

/-- `a.data = d`. -/
def setData (m : Heap) (a : Nat) (d : Str) : Heap := m.upd a { m a with data := d }

end Heap

/-- Use of a pointer that must not be nil. -/
def deref : Option Nat → Outcome Nat
  | some a => .ok a
  | none => .panic

/-- pkg/container/list.go:49-54 `linkedList` (its `key` field is never read by a command and left out), with its heap. -/
structure LList where
  heap : Heap
  fresh : Nat
  head : Nat
  tail : Nat
  size : Int

namespace LList

/-- Errors of pkg/container/list.go:10-19. -/
inductive Err where
  | emptyList
  | outOfRange
  | noSuchPivot
deriving DecidableEq, Repr

/-- pkg/container/list.go:208-226 `NewLinkedListContainer`: node 0 is the head sentinel, node 1 the tail sentinel. -/
def new : LList :=
  { heap := fun a => if a = 0 then ⟨Str.dummy, some 1, none⟩ else ⟨Str.dummy, none, some 0⟩
    fresh := 2, head := 0, tail := 1, size := 0 }

/-- pkg/container/list.go:56-70 `insertBefore` (its nil check is dead: every caller passes a non-nil node). The new node is allocated
first, then `n.prev.next = tmp` (panics if `n.prev` is nil), then `n.prev = tmp`. -/
def insertBefore (l : LList) (n : Nat) (data : Str) : Outcome LList := do
  let tmp := l.fresh
  let m1 := l.heap.upd tmp { data := data, prev := (l.heap n).prev, next := some n }
  let p ← deref (m1 n).prev
  let m2 := m1.setNext p (some tmp)
  let m3 := m2.setPrev n (some tmp)
  .ok { l with heap := m3, fresh := l.fresh + 1 }

/-- pkg/container/list.go:72-86 `insertAfter`. -/
def insertAfter (l : LList) (n : Nat) (data : Str) : Outcome LList := do
  let tmp := l.fresh
  let m1 := l.heap.upd tmp { data := data, prev := some n, next := (l.heap n).next }
  let q ← deref (m1 n).next
  let m2 := m1.setPrev q (some tmp)
  let m3 := m2.setNext n (some tmp)
  .ok { l with heap := m3, fresh := l.fresh + 1 }

/-- pkg/container/list.go:88-101 `deleteNode` (never called with nil). -/
def deleteNode (m : Heap) (n : Nat) : Outcome (Heap × Str) := do
  let data := (m n).data
  let p ← deref (m n).prev
  let m1 := m.setNext p (m n).next
  let q ← deref (m1 n).next
  let m2 := m1.setPrev q (m1 n).prev
  let m3 := m2.setNext n none
  let m4 := m3.setPrev n none
  .ok (m4, data)

/-- The loop of pkg/container/list.go:112-121 at node `cur`. -/
def deleteFromHeadLoop (tail : Nat) (count : Int) (key : Str) : Nat → Heap → Option Nat → Int → Outcome (Heap × Int)
  | 0, _, _, _ => .diverge
  | f + 1, m, cur, removed =>
    if cur ≠ some tail ∧ removed < count then do
      let c ← deref cur
      if (m c).data.equals false key then do
        let nxt := (m c).next
        let (m', _) ← deleteNode m c
        deleteFromHeadLoop tail count key f m' nxt (removed + 1)
      else deleteFromHeadLoop tail count key f m (m c).next removed
    else .ok (m, removed)

/-- pkg/container/list.go:103-124 `deleteFromHead`. The fuel exceeds the number of nodes ever allocated. -/
def deleteFromHead (l : LList) (count : Int) (key : Str) : Outcome (Heap × Int) :=
  let count := if count = 0 then l.size else count
  deleteFromHeadLoop l.tail count key (l.fresh + 1) l.heap (some l.head) 0

/-- The loop of pkg/container/list.go:131-140 at node `cur`. -/
def deleteFromTailLoop (head : Nat) (count : Int) (key : Str) : Nat → Heap → Option Nat → Int → Outcome (Heap × Int)
  | 0, _, _, _ => .diverge
  | f + 1, m, cur, removed =>
    if cur ≠ some head ∧ removed < count then do
      let c ← deref cur
      if (m c).data.equals false key then do
        let prv := (m c).prev
        let (m', _) ← deleteNode m c
        deleteFromTailLoop head count key f m' prv (removed + 1)
      else deleteFromTailLoop head count key f m (m c).prev removed
    else .ok (m, removed)

/-- pkg/container/list.go:126-143 `deleteFromTail`. -/
def deleteFromTail (l : LList) (count : Int) (key : Str) : Outcome (Heap × Int) :=
  deleteFromTailLoop l.head count key (l.fresh + 1) l.heap (some l.tail) 0

/-- `n` steps of `cur = cur.next`, the loop of pkg/container/list.go:150-152. -/
def advance (m : Heap) : Nat → Option Nat → Outcome (Option Nat)
  | 0, cur => .ok cur
  | n + 1, cur => do
    let c ← deref cur
    advance m n (m c).next

/-- pkg/container/list.go:145-158 `extract`; `none` is the nil node. -/
def extract (l : LList) (index : Int) : Outcome (Option Nat) :=
  let normIndex := indexResolve index l.size
  if normIndex ≠ -1 then advance l.heap (normIndex + 1).toNat (some l.head) else .ok none

/-- The loop of pkg/container/list.go:175-185: `steps` iterations left, loop variable `idx`. -/
def segmentLoop (m : Heap) (normLeft normRight : Int) :
    Nat → Int → Option Nat → Option Nat → Option Nat → Outcome (Option Nat × Option Nat)
  | 0, _, _, leftNode, rightNode => .ok (leftNode, rightNode)
  | steps + 1, idx, cur, leftNode, rightNode => do
    let leftNode := if idx = normLeft then cur else leftNode
    let rightNode := if idx = normRight then cur else rightNode
    let c ← deref cur
    segmentLoop m normLeft normRight steps (idx + 1) (m c).next leftNode rightNode

/-- pkg/container/list.go:161-191 `extractSegment`. The loop runs for `idx = -1 .. normRight`. -/
def extractSegment (l : LList) (left right : Int) : Outcome (Option Nat × Option Nat) :=
  let right := indexResolveRaw right l.size
  let right := if right ≥ l.size then l.size - 1 else right
  let (normLeft, normRight) := sliceResolve left right l.size
  if normLeft ≠ -1 ∧ normRight ≠ -1 then
    segmentLoop l.heap normLeft normRight (normRight + 2).toNat (-1) (some l.head) none none
  else .ok (none, none)

/-- pkg/container/list.go:195-205 `releaseList` (recursion first, then the pointers are cleared). -/
def releaseList : Nat → Heap → Option Nat → Outcome (Heap × Int)
  | _, m, none => .ok (m, 0)
  | 0, _, some _ => .diverge
  | f + 1, m, some n => do
    let (m1, length) ← releaseList f m (m n).next
    let m2 := m1.setPrev n none
    let m3 := m2.setNext n none
    .ok (m3, length + 1)

/-- pkg/container/list.go:238-247 `PushHead`; the result is the list with `size` updated after each insertion. -/
def pushHead (l : LList) : List Str → Outcome (LList × Int)
  | [] => .ok (l, l.size)
  | item :: rest => do
    let l1 ← insertAfter l l.head item
    pushHead { l1 with size := l1.size + 1 } rest

/-- pkg/container/list.go:249-258 `PushTail`. -/
def pushTail (l : LList) : List Str → Outcome (LList × Int)
  | [] => .ok (l, l.size)
  | item :: rest => do
    let l1 ← insertBefore l l.tail item
    pushTail { l1 with size := l1.size + 1 } rest

/-- pkg/container/list.go:260-267 `PopHead`. -/
def popHead (l : LList) : Outcome (LList × Except Err Str) :=
  if (l.heap l.head).next = some l.tail then .ok (l, .error .emptyList)
  else do
    let n ← deref (l.heap l.head).next
    let (m, d) ← deleteNode l.heap n
    .ok ({ l with heap := m, size := l.size - 1 }, .ok d)

/-- pkg/container/list.go:269-276 `PopTail`. -/
def popTail (l : LList) : Outcome (LList × Except Err Str) :=
  if (l.heap l.tail).prev = some l.head then .ok (l, .error .emptyList)
  else do
    let n ← deref (l.heap l.tail).prev
    let (m, d) ← deleteNode l.heap n
    .ok ({ l with heap := m, size := l.size - 1 }, .ok d)

/-- The search loop of pkg/container/list.go:281-299 at node `cur`. -/
def insertLoop (l : LList) (pivot data : Str) (after : Bool) : Nat → Option Nat → Outcome (LList × Except Err Int)
  | 0, _ => .diverge
  | f + 1, cur =>
    if cur ≠ some l.tail then do
      let c ← deref cur
      if (l.heap c).data.equals false pivot then do
        let l1 ← if after then insertAfter l c data else insertBefore l c data
        let l2 := { l1 with size := l1.size + 1 }
        .ok (l2, .ok l2.size)
      else insertLoop l pivot data after f (l.heap c).next
    else .ok (l, .error .noSuchPivot)

/-- pkg/container/list.go:278-302 `Insert`. -/
def insert (l : LList) (pivot data : Str) (after : Bool) : Outcome (LList × Except Err Int) :=
  insertLoop l pivot data after (l.fresh + 1) (some l.head)

/-- pkg/container/list.go:304-313 `Set`. -/
def set (l : LList) (index : Int) (data : Str) : Outcome (LList × Option Err) := do
  let n ← extract l index
  match n with
  | none => .ok (l, some .outOfRange)
  | some a => .ok ({ l with heap := l.heap.setData a data }, none)

/-- pkg/container/list.go:315-326 `Remove`; `-count` wraps like Go's int. -/
def remove (l : LList) (count : Int) (key : Str) : Outcome (LList × Int) := do
  let (m, removed) ← if count ≥ 0 then deleteFromHead l count key else deleteFromTail l (wrap64 (-count)) key
  .ok ({ l with heap := m, size := l.size - removed }, removed)

/-- pkg/container/list.go:328-336 `Index`. -/
def index (l : LList) (i : Int) : Outcome (Except Err Str) := do
  let n ← extract l i
  match n with
  | none => .ok (.error .outOfRange)
  | some a => .ok (.ok (l.heap a).data)

/-- The loop of pkg/container/list.go:343-349 (with the final append). -/
def rangeLoop (m : Heap) (rightNode : Nat) : Nat → Option Nat → List Str → Outcome (List Str)
  | 0, _, _ => .diverge
  | f + 1, leftNode, result =>
    if leftNode ≠ some rightNode then do
      let c ← deref leftNode
      rangeLoop m rightNode f (m c).next (result ++ [(m c).data])
    else .ok (result ++ [(m rightNode).data])

/-- pkg/container/list.go:338-355 `Range`. -/
def range (l : LList) (left right : Int) : Outcome (Except Err (List Str)) := do
  let (leftNode, rightNode) ← extractSegment l left right
  match leftNode, rightNode with
  | some a, some b => do
    let r ← rangeLoop l.heap b (l.fresh + 1) (some a) []
    .ok (.ok r)
  | _, _ => .ok (.error .outOfRange)

/-- pkg/container/list.go:357-380 `Trim`. -/
def trim (l : LList) (left right : Int) : Outcome (LList × Option Err) := do
  let (leftNode, rightNode) ← extractSegment l left right
  match leftNode, rightNode with
  | some a, some b => do
    -- release head.next->leftNode.prev
    let p ← deref (l.heap a).prev
    let m1 := l.heap.setNext p none
    let (m2, k1) ← releaseList (l.fresh + 1) m1 (m1 l.head).next
    -- release rightNode.next->tail.prev
    let q ← deref (m2 l.tail).prev
    let m3 := m2.setNext q none
    let (m4, k2) ← releaseList (l.fresh + 1) m3 (m3 b).next
    -- link head->leftNode
    let m5 := m4.setNext l.head (some a)
    let m6 := m5.setPrev a (some l.head)
    -- link rightNode->tail
    let m7 := m6.setPrev l.tail (some b)
    let m8 := m7.setNext b (some l.tail)
    .ok ({ l with heap := m8, size := l.size - k1 - k2 }, none)
  | _, _ => .ok (l, some .outOfRange)

/-- pkg/container/list.go:382-384 `Len`. -/
def len (l : LList) : Int := l.size

end LList

end Verif
