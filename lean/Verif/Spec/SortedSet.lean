import Verif.Model.SortedSet
import Verif.Spec.Util
import Mathlib.Data.Finmap

/-! What a sorted set is to its user: a finite map from entries to scores, with an order on the entries. -/

namespace Verif.Spec

/-- The entries and their scores. -/
abbrev ZMap := Finmap (fun _ : Bytes => F64)

/-- The order of the float64 numbers; NaN is not comparable. -/
inductive ScoreLt : F64 → F64 → Prop where
  | ninf_fin {q} : ScoreLt .ninf (.fin q)
  | ninf_pinf : ScoreLt .ninf .pinf
  | fin_pinf {q} : ScoreLt (.fin q) .pinf
  | fin {a b : Rat} : a < b → ScoreLt (.fin a) (.fin b)

/-- The sum of two float64 numbers: the exact sum of finite ones, rounded by `rnd`; an infinity outweighs anything finite; opposite
infinities have no sum. -/
inductive ScoreSum (rnd : Rat → F64) : F64 → F64 → F64 → Prop where
  | fin {a b : Rat} : ScoreSum rnd (.fin a) (.fin b) (rnd (a + b))
  | pinf {x : F64} : x ≠ .nan → x ≠ .ninf → ScoreSum rnd .pinf x .pinf
  | pinf' {x : F64} : x ≠ .nan → x ≠ .ninf → ScoreSum rnd x .pinf .pinf
  | ninf {x : F64} : x ≠ .nan → x ≠ .pinf → ScoreSum rnd .ninf x .ninf
  | ninf' {x : F64} : x ≠ .nan → x ≠ .pinf → ScoreSum rnd x .ninf .ninf
  | opposite : ScoreSum rnd .pinf .ninf .nan
  | opposite' : ScoreSum rnd .ninf .pinf .nan
  | nan {x : F64} : ScoreSum rnd .nan x .nan
  | nan' {x : F64} : ScoreSum rnd x .nan .nan

/-- No entry has a score below that of `e`. -/
def LeastScore (z : ZMap) (e : Bytes) : Prop := ∃ x, z.lookup e = some x ∧ ∀ e' x', z.lookup e' = some x' → ¬ ScoreLt x' x

/-- No entry has a score above that of `e`. -/
def GreatestScore (z : ZMap) (e : Bytes) : Prop := ∃ x, z.lookup e = some x ∧ ∀ e' x', z.lookup e' = some x' → ¬ ScoreLt x x'

/-- `e` comes first: lowest score, and the lexicographically first entry among those with this score. -/
def First (z : ZMap) (e : Bytes) : Prop :=
  ∃ x, z.lookup e = some x ∧ ∀ e' x', z.lookup e' = some x' → e' ≠ e → ScoreLt x x' ∨ x = x' ∧ LexLt e e'

/-- `e` comes last. -/
def Last (z : ZMap) (e : Bytes) : Prop :=
  ∃ x, z.lookup e = some x ∧ ∀ e' x', z.lookup e' = some x' → e' ≠ e → ScoreLt x' x ∨ x = x' ∧ LexLt e' e

/-- Adds the entries that are not there yet; the others keep their score. -/
def ZMap.addNew : ZMap → List F64 → List Bytes → ZMap
  | z, x :: xs, e :: es => ZMap.addNew (if e ∈ z then z else z.insert e x) xs es
  | z, _, _ => z

/-- Takes out entries. -/
def ZMap.eraseAll (z : ZMap) (es : List Bytes) : ZMap := es.foldl (fun z e => z.erase e) z

/-- The sorted set as its user sees it: what a call does to the map and what it answers. `min` and `max` say which entries a `PopMin` or
a `PopMax` may take, and `rk` what a rank may be. -/
inductive ZStep (rnd : Rat → F64) (min max : ZMap → Bytes → Prop) (rk : ZMap → Bytes → Int → Prop) :
    ZMap → ZOp → ZMap → ZResult → Prop where
  | addMismatch {z xs es} : xs.length ≠ es.length → ZStep rnd min max rk z (.add xs es) z (.added false)
  | add {z xs es} : xs.length = es.length → ZStep rnd min max rk z (.add xs es) (z.addNew xs es) (.added true)
  | del {z es} : ZStep rnd min max rk z (.del es) (z.eraseAll es) .done
  | score {z e} : ZStep rnd min max rk z (.score e) z (.score (z.lookup e))
  | increaseByMissing {z e i} : e ∉ z → ZStep rnd min max rk z (.increaseBy e i) z (.score none)
  | increaseBy {z e i x y} : z.lookup e = some x → ScoreSum rnd x i y → ZStep rnd min max rk z (.increaseBy e i) (z.insert e y) (.score (some y))
  | popMinEmpty : ZStep rnd min max rk ∅ .popMin ∅ (.popped none)
  | popMin {z e} : e ∈ z → min z e → ZStep rnd min max rk z .popMin (z.erase e) (.popped (some e))
  | popMaxEmpty : ZStep rnd min max rk ∅ .popMax ∅ (.popped none)
  | popMax {z e} : e ∈ z → max z e → ZStep rnd min max rk z .popMax (z.erase e) (.popped (some e))
  | rankMissing {z e} : e ∉ z → ZStep rnd min max rk z (.rank e) z (.rank none)
  | rank {z e r} : e ∈ z → rk z e r → ZStep rnd min max rk z (.rank e) z (.rank (some r))
  | len {z} : ZStep rnd min max rk z .len z (.len z.keys.card)

/-- A history of calls and answers from one map to another. -/
inductive ZTrace (rnd : Rat → F64) (min max : ZMap → Bytes → Prop) (rk : ZMap → Bytes → Int → Prop) :
    ZMap → List (ZOp × ZResult) → ZMap → Prop where
  | nil {z} : ZTrace rnd min max rk z [] z
  | cons {z op r z' h z''} : ZStep rnd min max rk z op z' r → ZTrace rnd min max rk z' h z'' → ZTrace rnd min max rk z ((op, r) :: h) z''

/-- No NaN came in as a score or out of an addition. -/
def NaNFree (h : List (ZOp × ZResult)) : Prop :=
  (∀ xs es r, (ZOp.add xs es, r) ∈ h → F64.nan ∉ xs) ∧ ∀ e i, (ZOp.increaseBy e i, ZResult.score (some .nan)) ∉ h

/-- The empty string was never added. -/
def NoEmptyEntry (h : List (ZOp × ZResult)) : Prop := ∀ xs es r, (ZOp.add xs es, r) ∈ h → [] ∉ es

/-- The calls that take nothing out. -/
def Keeps : ZOp → Prop
  | .add _ _ | .score _ | .len => True
  | _ => False

/-- All calls but `PopMax` and `Rank`. -/
def Basic : ZOp → Prop
  | .popMax | .rank _ => False
  | _ => True

end Verif.Spec
