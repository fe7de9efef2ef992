import Verif.Model.Num

/-!
pkg/util/util.go `LexicalCompare`, pkg/util/index.go, pkg/util/pipeline.go.
-/

namespace Verif

/-- The comparison loop of pkg/util/util.go:62-68, at position `idx`, over the remaining bytes of both strings. The tail of the function
(lines 70-76) compares the total lengths `ln`, `rn`. -/
def lexLoop (ln rn : Nat) : Nat → Bytes → Bytes → Int
  | idx, a :: as, b :: bs =>
    if a < b then -(idx : Int) - 1
    else if b < a then (idx : Int) + 1
    else lexLoop ln rn (idx + 1) as bs
  | _, _, _ => if ln = rn then 0 else if ln < rn then -(ln : Int) else (rn : Int)

/-- pkg/util/util.go:53-77 `LexicalCompare`. -/
def lexicalCompare (lhs rhs : Bytes) : Int := lexLoop lhs.length rhs.length 0 lhs rhs

/-- pkg/util/index.go:16-22 `Index.ResolveRaw` (no overflow: only a negative index is added to a non-negative size). -/
def indexResolveRaw (index size : Int) : Int := if index < 0 then index + size else index

/-- pkg/util/index.go:26-34 `Index.Resolve`. -/
def indexResolve (index size : Int) : Int :=
  let i := indexResolveRaw index size
  if i < 0 ∨ i ≥ size then -1 else i

/-- pkg/util/index.go:50-52 `Slice.ResolveRaw`. -/
def sliceResolveRaw (left right size : Int) : Int × Int := (indexResolveRaw left size, indexResolveRaw right size)

/-- pkg/util/index.go:61-73 `Slice.Resolve`. -/
def sliceResolve (left right size : Int) : Int × Int :=
  let lr := sliceResolveRaw left right size
  if lr.1 < 0 ∨ lr.2 < 0 ∨ lr.1 ≥ size ∨ lr.1 > lr.2 then (-1, -1)
  else (lr.1, if lr.2 ≥ size then size - 1 else lr.2)

/-- pkg/util/pipeline.go:6 `Handler`: takes a context, returns a context and possibly an error, or panics. The context `σ` and error `ε`
types are arbitrary. -/
abbrev Handler (σ ε : Type) := σ → Outcome (σ × Option ε)

/-- pkg/util/pipeline.go:26-31 `AddHandler`. -/
def addHandler {σ ε : Type} (hs : List (Handler σ ε)) (h : Handler σ ε) : List (Handler σ ε) := hs ++ [h]

/-- The loop of pkg/util/pipeline.go:33-43 `Run`, carrying the variables `ctx` and `err`. -/
def runPipelineFrom {σ ε : Type} : List (Handler σ ε) → σ → Option ε → Outcome (σ × Option ε)
  | [], ctx, err => .ok (ctx, err)
  | h :: hs, ctx, _ =>
    match h ctx with
    | .ok (ctx', some e) => .ok (ctx', some e)
    | .ok (ctx', none) => runPipelineFrom hs ctx' none
    | .panic => .panic
    | .diverge => .diverge

/-- pkg/util/pipeline.go:33-43 `Run`. -/
def runPipeline {σ ε : Type} (hs : List (Handler σ ε)) (ctx : σ) : Outcome (σ × Option ε) := runPipelineFrom hs ctx none

end Verif
