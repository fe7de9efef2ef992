import Verif.Lemmas.Str
import Verif.Model.StrObj
import Verif.Props.Resp

/-! # C51 – string values: cached fields and equality -/

namespace Verif.Props

open Verif

/-- One operation on a string value that a caller can perform. -/
inductive StrOp where
  | increase (d : Int)
  | decrease (d : Int)
  | append (t : Bytes)

/-- The value after one operation; a rejected increment leaves the value as it is. -/
def StrOp.apply (s : Str) : StrOp → Str
  | .increase d => match s.increase d with
    | some (s', _) => s'
    | none => s
  | .decrease d => match s.decrease d with
    | some (s', _) => s'
    | none => s
  | .append t => s.append (Str.new t)

/-- The value `NewString(d)` after a history of operations. -/
def StrOp.run (d : Bytes) (ops : List StrOp) : Str := ops.foldl StrOp.apply (Str.new d)

theorem run_canon (d : Bytes) (ops : List StrOp) : Str.Canon (StrOp.run d ops) := by
  suffices h : ∀ s, Str.Canon s → Str.Canon (ops.foldl StrOp.apply s) from h _ (Str.canon_new d)
  induction ops with
  | nil => intro s h; exact h
  | cons o ops ih =>
    intro s h
    refine ih _ ?_
    cases o with
    | increase x =>
      rw [h]; simp only [StrOp.apply]; rw [Str.increase_new]
      cases parseInt64 s.data <;> exact Str.canon_new _
    | decrease x =>
      rw [h]; simp only [StrOp.apply]; rw [Str.decrease_new]
      cases parseInt64 s.data <;> exact Str.canon_new _
    | append t => exact Str.canon_new _

/-- C51 (cached fields): after any history of increments, decrements and appends, the cached copy, length, hash and integer view are
those of the current bytes. -/
theorem C51_cached_fields (d : Bytes) (ops : List StrOp) :
    let s := StrOp.run d ops
    s.bytes = s.data ∧ s.len = s.data.length ∧ s.hash = fnv64a s.data ∧
      ∀ v, s.int = some v ↔ (Spec.Numeral s.data v ∧ InInt64 v) := by
  intro s
  have h : s = Str.new s.data := run_canon d ops
  generalize s = s at h
  rw [h]
  refine ⟨rfl, rfl, rfl, fun v => ?_⟩
  exact parseInt64_eq_some

/-- C51 (equality): two values, whatever their histories, compare equal exactly when their bytes are equal, whether or not the two
references are the same pointer (`same` can only be true for one and the same value) and whatever the hashes are. -/
theorem C51_equals_iff (d₁ d₂ : Bytes) (o₁ o₂ : List StrOp) (same : Bool)
    (hs : same = true → StrOp.run d₁ o₁ = StrOp.run d₂ o₂) :
    Str.equals same (StrOp.run d₁ o₁) (StrOp.run d₂ o₂) = true ↔ (StrOp.run d₁ o₁).data = (StrOp.run d₂ o₂).data := by
  cases same with
  | true => simp [Str.equals, hs rfl]
  | false =>
    have h1 := run_canon d₁ o₁
    have h2 := run_canon d₂ o₂
    generalize StrOp.run d₁ o₁ = s at *
    generalize StrOp.run d₂ o₂ = t at *
    rw [h1, h2, Str.equals_new]; simp

/-- C51 (increments): incrementing rewrites the bytes as the decimal form of the new integer, and the value returned, the integer view
and the bytes agree; the number is the exact sum whenever that fits into 64 bits. A non-integer is rejected. -/
theorem C51_increase (d : Bytes) (ops : List StrOp) (x : Int) :
    let s := StrOp.run d ops
    match s.increase x with
    | none => ¬ ∃ v, Spec.Numeral s.data v ∧ InInt64 v
    | some (s', r) => ∃ v, Spec.Numeral s.data v ∧ InInt64 v ∧ InInt64 r ∧ (∃ q : Int, r = v + x + q * 2 ^ 64) ∧
        (InInt64 (v + x) → r = v + x) ∧ s'.data = fmtInt r ∧ s'.int = some r := by
  intro s
  have h : s = Str.new s.data := run_canon d ops
  generalize s = s at h
  generalize s.data = d at h
  subst h
  rw [Str.increase_new]
  cases hp : parseInt64 d with
  | none =>
    simp only [Option.map_none]
    rintro ⟨v, hv⟩
    rw [parseInt64_eq_some.2 hv] at hp; cases hp
  | some v =>
    simp only [Option.map_some]
    refine ⟨v, (parseInt64_eq_some.1 hp).1, (parseInt64_eq_some.1 hp).2, wrap64_in _, ?_, wrap64_of_in, rfl,
      parseInt64_fmtInt (wrap64_in _)⟩
    refine ⟨-((v + x + 9223372036854775808) / 18446744073709551616), ?_⟩
    unfold wrap64; omega

/-- C51 (decrements), as for increments. -/
theorem C51_decrease (d : Bytes) (ops : List StrOp) (x : Int) :
    let s := StrOp.run d ops
    match s.decrease x with
    | none => ¬ ∃ v, Spec.Numeral s.data v ∧ InInt64 v
    | some (s', r) => ∃ v, Spec.Numeral s.data v ∧ InInt64 v ∧ InInt64 r ∧ (∃ q : Int, r = v - x + q * 2 ^ 64) ∧
        (InInt64 (v - x) → r = v - x) ∧ s'.data = fmtInt r ∧ s'.int = some r := by
  intro s
  have h : s = Str.new s.data := run_canon d ops
  generalize s = s at h
  generalize s.data = d at h
  subst h
  rw [Str.decrease_new]
  cases hp : parseInt64 d with
  | none =>
    simp only [Option.map_none]
    rintro ⟨v, hv⟩
    rw [parseInt64_eq_some.2 hv] at hp; cases hp
  | some v =>
    simp only [Option.map_some]
    refine ⟨v, (parseInt64_eq_some.1 hp).1, (parseInt64_eq_some.1 hp).2, wrap64_in _, ?_, wrap64_of_in, rfl,
      parseInt64_fmtInt (wrap64_in _)⟩
    refine ⟨-((v - x + 9223372036854775808) / 18446744073709551616), ?_⟩
    unfold wrap64; omega

/-- C51 (bulk object): what a reader makes of the bulk object of a value is a bulk string with its bytes, and null exactly for the empty value. -/
theorem C51_bulk (d : Bytes) (ops : List StrOp) (rest : Bytes) (hd : (StrOp.run d ops).data.length + 2 < 2 ^ 63) :
    parse ((StrOp.run d ops).asBulk.encode ++ rest) =
      .ok (if (StrOp.run d ops).data = [] then .nullBulk else .bulk (StrOp.run d ops).data) rest := by
  have h : StrOp.run d ops = Str.new (StrOp.run d ops).data := run_canon d ops
  generalize StrOp.run d ops = s at *
  generalize s.data = x at *
  subst h
  have e : (Str.new x).asBulk = if x = [] then .nullBulk else .bulk x := by
    cases x with
    | nil => rfl
    | cons c x =>
      rw [Str.asBulk, if_neg, if_neg (by simp)]
      · rfl
      · show ¬ (((c :: x).length : Nat) : Int) = 0
        simp only [List.length_cons]; omega
  rw [e]
  split
  · exact C01_roundtrip _ .nullBulk .nullBulk rest
  · exact C01_roundtrip _ .bulk (.bulk hd) rest

/-- C51 (simple object): a value survives as a simple string exactly if it has neither CRLF nor two consecutive LFs. -/
theorem C51_simple (d : Bytes) (ops : List StrOp) (rest : Bytes) :
    parse ((StrOp.run d ops).asSimple.encode ++ rest) = .ok (.simple (StrOp.run d ops).data) rest ↔ Spec.LineSafe (StrOp.run d ops).data :=
  C01_simple_iff _ _

/-- C51 (integer object): there is one exactly for the values that are 64-bit integers, and it is read as that integer. -/
theorem C51_int (d : Bytes) (ops : List StrOp) (rest : Bytes) :
    (∀ v, (Spec.Numeral (StrOp.run d ops).data v ∧ InInt64 v) ↔
      ∃ o, (StrOp.run d ops).asInt = some o ∧ parse (o.encode ++ rest) = .ok (.int v) rest) := by
  intro v
  have h : StrOp.run d ops = Str.new (StrOp.run d ops).data := run_canon d ops
  generalize StrOp.run d ops = s at *
  generalize s.data = x at *
  subst h
  have e : (Str.new x).asInt = (parseInt64 x).map .int := by
    show (if (parseInt64 x).isSome then (parseInt64 x).map Resp.int else none) = _
    cases parseInt64 x <;> rfl
  rw [e, ← parseInt64_eq_some]
  constructor
  · intro hv
    have hi := (parseInt64_eq_some.1 hv).2
    refine ⟨.int v, by rw [hv]; rfl, C01_roundtrip _ .int (.int ?_ ?_) rest⟩ <;> (unfold InInt64 minInt64 maxInt64 at hi; omega)
  · rintro ⟨o, ho, hp⟩
    cases hx : parseInt64 x with
    | none => rw [hx] at ho; cases ho
    | some w =>
      rw [hx] at ho
      cases ho
      have hi := (parseInt64_eq_some.1 hx).2
      rw [C01_roundtrip (.int w) .int (.int (by unfold InInt64 minInt64 maxInt64 at hi; omega) (by unfold InInt64 minInt64 maxInt64 at hi; omega)) rest] at hp
      cases hp
      rfl

/-- A history that meets the theorems' hypotheses non-trivially: "7" + 5, then append "0", then - 20, gives "100" with integer view 100. -/
example : (StrOp.run b!"7" [.increase 5, .append b!"0", .decrease 20]).data = b!"100" ∧
    (StrOp.run b!"7" [.increase 5, .append b!"0", .decrease 20]).int = some 100 := by decide

/-- The empty value, one that is a bulk string, one that is an integer and one that is not. -/
example : (StrOp.run [] []).data = [] ∧ (StrOp.run b!"7" [.append b!"x"]).data = b!"7x" ∧ (StrOp.run b!"7" [.append b!"x"]).asInt.isSome = false ∧
    (StrOp.run b!"7" [.increase 5]).asInt.isSome = true := by decide

/-- Two different histories reaching equal bytes compare equal; different bytes do not. -/
example : Str.equals false (StrOp.run b!"7" [.increase 5]) (StrOp.run b!"1" [.append b!"2"]) = true ∧
    Str.equals false (StrOp.run b!"7" [.increase 5]) (StrOp.run b!"+12" []) = false := by decide

end Verif.Props
