import Verif.Model.Str

/-! pkg/container/hash.go. -/

namespace Verif

/-- pkg/container/hash.go:32-35 `hashEntry`. -/
structure HEntry where
  key : Str
  value : Str
deriving DecidableEq, Repr

/-- pkg/container/hash.go:38-41 `hashContainer` (its `key` field is never read by a command and left out). -/
abbrev HashC := GoMap HEntry

namespace HashC

/-- pkg/container/hash.go:44-49 `NewHashContainer`. -/
def new : HashC := []

/-- The loop of pkg/container/hash.go:70-79. An existing entry keeps its key object and gets the new value. -/
def setLoop : HashC → List Str → List Str → HashC
  | h, k :: ks, v :: vs =>
    match GoMap.get h k.data with
    | none => setLoop (GoMap.set h k.data ⟨k, v⟩) ks vs
    | some e => setLoop (GoMap.set h k.data { e with value := v }) ks vs
  | h, _, _ => h

/-- pkg/container/hash.go:158-160 `Len`. -/
def len (h : HashC) : Int := h.length

/-- pkg/container/hash.go:62-82 `Set`; `none` as result is `ErrHashLengthNotMatch`. -/
def setAll (h : HashC) (keys values : List Str) : HashC × Option Int :=
  if keys.length ≠ values.length then (h, none)
  else
    let before := len h
    let h' := setLoop h keys values
    (h', some (len h' - before))

/-- pkg/container/hash.go:84-96 `Get`; a nil element is `none`. -/
def getAll (h : HashC) (keys : List Str) : List (Option Str) := keys.map fun k => (GoMap.get h k.data).map HEntry.value

/-- pkg/container/hash.go:98-102 `Exists`. -/
def existsKey (h : HashC) (key : Str) : Bool := (GoMap.get h key.data).isSome

/-- pkg/container/hash.go:104-115 `Del`: the loop, counter `removed`. -/
def delLoop : HashC → Int → List Str → HashC × Int
  | h, removed, [] => (h, removed)
  | h, removed, k :: ks =>
    match GoMap.get h k.data with
    | some _ => delLoop (GoMap.erase h k.data) (removed + 1) ks
    | none => delLoop h removed ks

/-- pkg/container/hash.go:104-115 `Del`. -/
def del (h : HashC) (keys : List Str) : HashC × Int := delLoop h 0 keys

/-- pkg/container/hash.go:117-125 `Keys`, visiting the map in the given order. -/
def keysIn (h : HashC) (ord : List Bytes) : List Str := (GoMap.inOrder h ord).map fun e => e.2.key

/-- pkg/container/hash.go:127-135 `Values`. -/
def valuesIn (h : HashC) (ord : List Bytes) : List Str := (GoMap.inOrder h ord).map fun e => e.2.value

/-- pkg/container/hash.go:137-146 `Entries`: two parallel slices filled by one loop. -/
def entriesIn (h : HashC) (ord : List Bytes) : List Str × List Str :=
  ((GoMap.inOrder h ord).map fun e => e.2.key, (GoMap.inOrder h ord).map fun e => e.2.value)

/-- pkg/container/hash.go:148-156 `KeyLen`; `none` is `ErrKeyNotExist`. No command calls it. -/
def keyLen (h : HashC) (key : Str) : Option Int := (GoMap.get h key.data).map fun e => e.value.len

end HashC

end Verif
