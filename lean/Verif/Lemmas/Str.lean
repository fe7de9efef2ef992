import Verif.Model.Str
import Verif.Lemmas.Num
import Verif.Lemmas.GoMap

namespace Verif

namespace Str

@[simp] theorem new_data (d : Bytes) : (new d).data = d := rfl
@[simp] theorem new_bytes (d : Bytes) : (new d).bytes = d := rfl
@[simp] theorem new_size (d : Bytes) : (new d).size = d.length := rfl
@[simp] theorem new_len (d : Bytes) : (new d).len = d.length := rfl
@[simp] theorem new_hash (d : Bytes) : (new d).hash = fnv64a d := rfl
@[simp] theorem new_intVar (d : Bytes) : (new d).intVar = parseInt64 d := rfl

/-- All cached fields agree with the data: the container is the one `NewString` would build. -/
def Canon (s : Str) : Prop := s = new s.data

theorem canon_new (d : Bytes) : Canon (new d) := rfl

theorem new_inj {a b : Bytes} (h : new a = new b) : a = b := congrArg Str.data h

theorem update_fmt (s : Str) (v : Int) (h : InInt64 v) : update { s with intVar := some v } (fmtInt v) = new (fmtInt v) := by
  simp [update, new, newIntVariant, parseInt64_fmtInt h]

theorem increase_new (d : Bytes) (x : Int) :
    (new d).increase x = (parseInt64 d).map fun v => (new (fmtInt (wrap64 (v + x))), wrap64 (v + x)) := by
  unfold increase
  rw [new_intVar]
  cases parseInt64 d with
  | none => rfl
  | some v => simp only [Option.map_some, update_fmt _ _ (wrap64_in _)]

theorem decrease_new (d : Bytes) (x : Int) :
    (new d).decrease x = (parseInt64 d).map fun v => (new (fmtInt (wrap64 (v - x))), wrap64 (v - x)) := by
  unfold decrease
  rw [new_intVar]
  cases parseInt64 d with
  | none => rfl
  | some v => simp only [Option.map_some, update_fmt _ _ (wrap64_in _)]

theorem append_new (a b : Bytes) : (new a).append (new b) = new (a ++ b) := rfl

theorem equals_new (a b : Bytes) : equals false (new a) (new b) = decide (a = b) := by
  unfold equals
  by_cases h : a = b
  · subst h; simp
  · simp [h]

end Str

end Verif
