import Verif.Spec.SortedSet

/-! A sorted set as a row of cells, with its crashes: what the skip list amounts to when its pointers, spans and addresses are left out. -/

namespace Verif.Spec

instance decLexLt : ∀ a b : Bytes, Decidable (LexLt a b)
  | _, [] => .isFalse (by intro h; cases h)
  | [], _ :: _ => .isTrue .nil
  | a :: as, b :: bs =>
    if h : a < b then .isTrue (.head h)
    else if e : a = b then
      match decLexLt as bs with
      | .isTrue h' => .isTrue (by subst e; exact .tail h')
      | .isFalse h' => .isFalse (by intro hl; cases hl with | head hl => exact h hl | tail hl => exact h' hl)
    else .isFalse (by intro hl; cases hl with | head hl => exact h hl | tail _ => exact e rfl)

instance decScoreLt : ∀ a b : F64, Decidable (ScoreLt a b)
  | .ninf, .fin _ => .isTrue .ninf_fin
  | .ninf, .pinf => .isTrue .ninf_pinf
  | .fin _, .pinf => .isTrue .fin_pinf
  | .fin a, .fin b => if h : a < b then .isTrue (.fin h) else .isFalse (by intro hl; cases hl with | fin hl => exact h hl)
  | .nan, _ => .isFalse (by intro h; cases h)
  | .pinf, _ => .isFalse (by intro h; cases h)
  | .ninf, .ninf => .isFalse (by intro h; cases h)
  | .ninf, .nan => .isFalse (by intro h; cases h)
  | .fin _, .ninf => .isFalse (by intro h; cases h)
  | .fin _, .nan => .isFalse (by intro h; cases h)

/-- A place in the row: its score, its entry (`none`: the entry was taken out, the place stayed) and its height. -/
structure Cell where
  score : F64
  entry : Option Bytes
  height : Nat
deriving DecidableEq, Repr

/-- The row, and whether the reference that `PopMax` follows leads to its last cell. -/
structure Shelf where
  cells : List Cell
  back : Bool
deriving DecidableEq, Repr

/-- The greatest height in a row, at least 1. -/
def top (cs : List Cell) : Nat := cs.foldr (fun c n => max c.height n) 1

/-- A search for the place of the entry `e` with score `x` meets a cell: does it go past? `none` is a crash. A cell with the same score is
passed if its entry precedes `e`, but an empty entry precedes nothing. -/
def Cell.passed (x : F64) (e : Bytes) (c : Cell) : Option Bool :=
  if ScoreLt c.score x then some true
  else if c.score = x ∧ x ≠ .nan then c.entry.map fun d => decide (d ≠ [] ∧ LexLt d e)
  else some false

/-- How many cells a search leaves behind that goes along the cells higher than `l` as long as it may pass them. -/
def past (x : F64) (e : Bytes) (l : Nat) : List Cell → Option Nat
  | [] => some 0
  | c :: cs =>
    if l < c.height then
      match c.passed x e with
      | none => none
      | some false => some 0
      | some true => (past x e l cs).map (· + 1)
    else (past x e l cs).map fun n => if n = 0 then 0 else n + 1

/-- The same, first along the highest cells, then from there along lower and lower ones. -/
def seek (x : F64) (e : Bytes) : Nat → List Cell → Option Nat
  | 0, _ => some 0
  | l + 1, cs =>
    match past x e l cs with
    | none => none
    | some n => (seek x e l (cs.drop n)).map (n + ·)

/-- Takes out an entry: its cell goes, unless some cell behind it is higher. -/
def takeOut (e : Bytes) : List Cell → List Cell
  | [] => []
  | c :: cs =>
    if c.entry = some e then
      if ∃ d ∈ cs, c.height < d.height then { c with entry := none } :: cs else cs
    else c :: takeOut e cs

namespace Shelf

/-- The score of an entry. -/
def score (s : Shelf) (e : Bytes) : Option F64 := (s.cells.find? (·.entry = some e)).map (·.score)

/-- How many entries there are. -/
def size (s : Shelf) : Nat := s.cells.countP (·.entry.isSome)

/-- Takes out an entry. Afterwards the reference of `PopMax` is stale if this was the last cell. -/
def remove (s : Shelf) (e : Bytes) : Shelf := ⟨takeOut e s.cells, s.back && s.cells.getLast?.bind (·.entry) ≠ some e⟩

/-- Puts in an entry that is not there yet, in a cell at least as high as all others; `k` is the number of lucky draws. -/
def insert (s : Shelf) (x : F64) (e : Bytes) (k : Nat) : Option Shelf :=
  if (s.score e).isSome then some s
  else (seek x e (top s.cells) s.cells).map fun n =>
    ⟨s.cells.take n ++ ⟨x, some e, max (top s.cells) (min 32 (k + 1))⟩ :: s.cells.drop n, s.back || n = s.cells.length⟩

/-- Puts in several entries, the `i`-th with `draws i` lucky draws. -/
def insertAll (draws : Nat → Nat) : Nat → Shelf → List F64 → List Bytes → Option Shelf
  | i, s, x :: xs, e :: es => (s.insert x e (draws i)).bind fun s' => insertAll draws (i + 1) s' xs es
  | _, s, _, _ => some s

/-- A call; `none` is a crash. -/
def call (sum : F64 → F64 → F64) (s : Shelf) (op : ZOp) (draws : Nat → Nat) : Option (Shelf × ZResult) :=
  match op with
  | .add xs es =>
    if xs.length = es.length then (insertAll draws 0 s xs es).map fun s' => (s', .added true) else some (s, .added false)
  | .del es => some (es.foldl remove s, .done)
  | .score e => some (s, .score (s.score e))
  | .increaseBy e i =>
    match s.score e with
    | none => some (s, .score none)
    | some x => ((s.remove e).insert (sum x i) e (draws 0)).map fun s' => (s', .score (some (sum x i)))
  | .popMin =>
    if s.size = 0 then some (s, .popped none)
    else (s.cells.head?.bind (·.entry)).map fun e => (s.remove e, .popped (some e))
  | .popMax =>
    if s.size = 0 then some (s, .popped none)
    else if s.back then (s.cells.getLast?.bind (·.entry)).map fun e => (s.remove e, .popped (some e)) else none
  | .rank e => if (s.score e).isSome then none else some (s, .rank none)
  | .len => some (s, .len s.size)

/-- A sequence of calls. -/
def run (sum : F64 → F64 → F64) : Shelf → List (ZOp × (Nat → Nat)) → Option (Shelf × List (ZOp × ZResult))
  | s, [] => some (s, [])
  | s, (op, draws) :: ops =>
    (s.call sum op draws).bind fun (s', r) => (run sum s' ops).map fun (s'', h) => (s'', (op, r) :: h)

end Shelf

end Verif.Spec
