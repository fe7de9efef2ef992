import Verif.Model.Util
import Verif.Model.GoMap

/-!
pkg/container/string.go, int_variant.go, string_map.go.
-/

namespace Verif

/-- FNV-1a, 64 bit: `fnv.New64a()`, `Write(s)`, `Sum64()` as called at pkg/container/string.go:38-40. -/
def fnv64a (s : Bytes) : UInt64 := s.foldl (fun h c => (h ^^^ c.toUInt64) * 1099511628211) 14695981039346656037

/-- pkg/container/string.go:25-31 `StringContainer`. `bytes` is the private copy `[]byte(data)`; `intVar` is the cached integer view
(int_variant.go:19-21), `none` for the nil interface. A Go `*StringContainer` is modelled by its current field values: the only
in-place mutation is `Increase`/`Decrease` through the string map, and no command shares one container between two places (each
argument gets a fresh `NewString`). -/
structure Str where
  data : Bytes
  bytes : Bytes
  size : Int
  hash : UInt64
  intVar : Option Int
deriving DecidableEq, Repr

namespace Str

/-- pkg/container/string.go:33-41 `update`. -/
def update (s : Str) (data : Bytes) : Str := { s with data := data, bytes := data, size := data.length, hash := fnv64a data }

/-- pkg/container/int_variant.go:23-29 `newIntVariant`. -/
def newIntVariant (data : Bytes) : Option Int := parseInt64 data

/-- pkg/container/string.go:44-51 `NewString` (starting from Go's zero value `&StringContainer{}`). -/
def new (s : Bytes) : Str :=
  { (update { data := [], bytes := [], size := 0, hash := 0, intVar := none } s) with intVar := newIntVariant s }

/-- pkg/container/string.go:13 `dummy`, the text stored in list sentinels. -/
def dummy : Str := new b!"dummy string"

/-- pkg/container/string.go:54-56 `Len`. -/
def len (s : Str) : Int := s.size

/-- pkg/container/string.go:59-69 `Equals`; `same` says whether the two pointers are equal. -/
def equals (same : Bool) (s another : Str) : Bool :=
  if same then true
  else if s.hash ≠ another.hash then false
  else s.data = another.data

/-- pkg/container/string.go:87-89 `Append`. -/
def append (s another : Str) : Str := new (s.data ++ another.data)

/-- pkg/container/string.go:106-108 `IsInt`. -/
def isInt (s : Str) : Bool := s.intVar.isSome

/-- pkg/container/string.go:111-117 `Int`; `none` is `ErrNotAInt`. -/
def int (s : Str) : Option Int := s.intVar

/-- pkg/container/string.go:130-138 `Increase` with int_variant.go:35-37 (wrapping `+=`) and :43-45 (`%d`).
`none` is `ErrNotAInt`; otherwise the mutated container and the returned value. -/
def increase (s : Str) (increment : Int) : Option (Str × Int) :=
  match s.intVar with
  | none => none
  | some v =>
    let v' := wrap64 (v + increment)
    some (update { s with intVar := some v' } (fmtInt v'), v')

/-- pkg/container/string.go:142-150 `Decrease` with int_variant.go:39-41. -/
def decrease (s : Str) (decrement : Int) : Option (Str × Int) :=
  match s.intVar with
  | none => none
  | some v =>
    let v' := wrap64 (v - decrement)
    some (update { s with intVar := some v' } (fmtInt v'), v')

/-- pkg/container/string.go:153-155 `CompareTo`. -/
def compareTo (s another : Str) : Int := lexicalCompare s.data another.data

/-- pkg/container/string.go:159-166 `GetRange`: `ok none` is `ErrRangeInvalid`. -/
def getRange (s : Str) (start stop : Int) : Outcome (Option Str) :=
  let (a, b) := sliceResolve start stop s.len
  if a = -1 ∨ b = -1 then .ok none
  else match goSlice s.data a (b + 1) with
    | some d => .ok (some (new d))
    | none => .panic

end Str

/-- pkg/container/string_map.go:43-45 `simpleStringMap`. -/
abbrev StrMap := GoMap Str

namespace StrMap

/-- Errors of pkg/container/string_map.go (7-14) and the wrapped `ErrNotAInt`, `ErrRangeInvalid` of string.go. -/
inductive Err where
  | lengthNotMatch
  | keyNotFound
  | notAInt
  | rangeInvalid
deriving DecidableEq, Repr

/-- The loop of pkg/container/string_map.go:53-55. -/
def setLoop : StrMap → List Str → List Str → StrMap
  | m, k :: ks, v :: vs => setLoop (GoMap.set m k.data v) ks vs
  | m, _, _ => m

/-- pkg/container/string_map.go:47-58 `Set`. -/
def setAll (m : StrMap) (keys values : List Str) : StrMap × Option Err :=
  if keys.length ≠ values.length then (m, some .lengthNotMatch) else (setLoop m keys values, none)

/-- pkg/container/string_map.go:60-73 `Get`; a nil element is `none`. -/
def getAll (m : StrMap) (keys : List Str) : List (Option Str) := keys.map fun k => GoMap.get m k.data

/-- pkg/container/string_map.go:75-81 `StringLen`. -/
def stringLen (m : StrMap) (key : Str) : Int × Option Err :=
  match GoMap.get m key.data with
  | some e => (e.len, none)
  | none => (0, some .keyNotFound)

/-- pkg/container/string_map.go:83-92 `Append`. -/
def append (m : StrMap) (key str : Str) : StrMap × Int :=
  match GoMap.get m key.data with
  | none => (GoMap.set m key.data str, str.len)
  | some e => let n := e.append str; (GoMap.set m key.data n, n.len)

/-- pkg/container/string_map.go:94-104 `Increase` (the entry is mutated in place). -/
def increase (m : StrMap) (key : Str) (increment : Int) : StrMap × Except Err Int :=
  match GoMap.get m key.data with
  | some e =>
    match e.increase increment with
    | some (e', r) => (GoMap.set m key.data e', .ok r)
    | none => (m, .error .notAInt)
  | none => (m, .error .keyNotFound)

/-- pkg/container/string_map.go:106-116 `Decrease`. -/
def decrease (m : StrMap) (key : Str) (decrement : Int) : StrMap × Except Err Int :=
  match GoMap.get m key.data with
  | some e =>
    match e.decrease decrement with
    | some (e', r) => (GoMap.set m key.data e', .ok r)
    | none => (m, .error .notAInt)
  | none => (m, .error .keyNotFound)

/-- pkg/container/string_map.go:118-128 `GetRange`. -/
def getRange (m : StrMap) (key : Str) (start stop : Int) : Outcome (Except Err Str) :=
  match GoMap.get m key.data with
  | some e =>
    match e.getRange start stop with
    | .ok (some s) => .ok (.ok s)
    | .ok none => .ok (.error .rangeInvalid)
    | .panic => .panic
    | .diverge => .diverge
  | none => .ok (.error .keyNotFound)

/-- pkg/container/string_map.go:130-132 `Len`. -/
def len (m : StrMap) : Int := m.length

/-- pkg/container/string_map.go:134-144 `Exists`: the loop, counter `count`. -/
def existsLoop (m : StrMap) : Int → List Str → Int
  | count, [] => count
  | count, k :: ks =>
    match GoMap.get m k.data with
    | some _ => existsLoop m (count + 1) ks
    | none => existsLoop m count ks

/-- pkg/container/string_map.go:134-144 `Exists`. -/
def existsCount (m : StrMap) (keys : List Str) : Int := existsLoop m 0 keys

end StrMap

end Verif
