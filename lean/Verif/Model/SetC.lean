import Verif.Model.Str

/-! pkg/container/set.go. -/

namespace Verif

/-- pkg/container/set.go:22-25 `setContainer` (its `key` field is never read by a command and left out). -/
abbrev SetC := GoMap Str

namespace SetC

/-- pkg/container/set.go:28-33 `NewSetContainer`. -/
def new : SetC := []

/-- pkg/container/set.go:45-56 `Add`: the loop, counter `added`. -/
def addLoop : SetC → Int → List Str → SetC × Int
  | s, added, [] => (s, added)
  | s, added, x :: xs =>
    match GoMap.get s x.data with
    | none => addLoop (GoMap.set s x.data x) (added + 1) xs
    | some _ => addLoop s added xs

/-- pkg/container/set.go:45-56 `Add`. -/
def add (s : SetC) (xs : List Str) : SetC × Int := addLoop s 0 xs

/-- pkg/container/set.go:58-69 `Delete`: the loop, counter `removed`. -/
def deleteLoop : SetC → Int → List Str → SetC × Int
  | s, removed, [] => (s, removed)
  | s, removed, x :: xs =>
    match GoMap.get s x.data with
    | some _ => deleteLoop (GoMap.erase s x.data) (removed + 1) xs
    | none => deleteLoop s removed xs

/-- pkg/container/set.go:58-69 `Delete`. -/
def delete (s : SetC) (xs : List Str) : SetC × Int := deleteLoop s 0 xs

/-- pkg/container/set.go:71-74 `IsMember`. -/
def isMember (s : SetC) (x : Str) : Bool := (GoMap.get s x.data).isSome

/-- pkg/container/set.go:76-84 `Members`, visiting the map in the order `ord i`. -/
def members (ord : IterOrder) (i : Nat) (s : SetC) : List Str :=
  (GoMap.inOrder s (ord i (GoMap.keys s))).map Prod.snd

/-- The loop of pkg/container/set.go:93-98; decrementing the smallest int gives the largest. -/
def randomLoop : Int → List Str → List Str
  | _, [] => []
  | count, x :: xs =>
    let count := if count = minInt64 then maxInt64 else count - 1
    if count < 0 then [] else x :: randomLoop count xs

/-- pkg/container/set.go:86-101 `RandomMember`. -/
def randomMember (ord : IterOrder) (i : Nat) (s : SetC) (count : Int) : List Str :=
  let count := if count < 0 then wrap64 (-count) else count
  randomLoop count (members ord i s)

/-- pkg/container/set.go:103-108 `Pop`. -/
def pop (ord : IterOrder) (i : Nat) (s : SetC) (count : Int) : SetC × List Str :=
  let ret := randomMember ord i s count
  ((delete s ret).1, ret)

/-- pkg/container/set.go:162-164 `Len`. -/
def len (s : SetC) : Int := s.length

/-- The loop of pkg/container/set.go:116-125 over the other sets; `i` numbers the map iterations. -/
def diffLoop (ord : IterOrder) : Nat → SetC → List SetC → SetC
  | _, ret, [] => ret
  | i, ret, c :: cs =>
    let candidate := (members ord i c).filter fun item => isMember ret item
    diffLoop ord (i + 1) (delete ret candidate).1 cs

/-- pkg/container/set.go:110-128 `Diff`. -/
def diff (ord : IterOrder) (s : SetC) (cs : List SetC) : SetC :=
  diffLoop ord 2 (add new (members ord 1 s)).1 cs

/-- The loop of pkg/container/set.go:136-146: `ret` is emptied by `Pop(ret.Len())` and refilled with the candidates. -/
def intersectLoop (ord : IterOrder) : Nat → SetC → List SetC → SetC
  | _, ret, [] => ret
  | i, ret, c :: cs =>
    let candidate := (members ord i c).filter fun item => isMember ret item
    let emptied := (pop ord (i + 1) ret (len ret)).1
    intersectLoop ord (i + 2) (add emptied candidate).1 cs

/-- pkg/container/set.go:130-149 `Intersect`. -/
def intersect (ord : IterOrder) (s : SetC) (cs : List SetC) : SetC :=
  intersectLoop ord 2 (add new (members ord 1 s)).1 cs

/-- The loop of pkg/container/set.go:154-156. -/
def unionLoop (ord : IterOrder) : Nat → SetC → List SetC → SetC
  | _, ret, [] => ret
  | i, ret, c :: cs => unionLoop ord (i + 1) (add ret (members ord i c)).1 cs

/-- pkg/container/set.go:151-160 `Union`. -/
def union (ord : IterOrder) (s : SetC) (cs : List SetC) : SetC :=
  (add (unionLoop ord 2 new cs) (members ord 1 s)).1

end SetC

end Verif
