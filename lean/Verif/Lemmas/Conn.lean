import Verif.Spec.Conn
import Verif.Lemmas.LTS

/-! Invariants of a connection. -/

namespace Verif

open Spec Conn
open Fut (upd)

/-- The goroutine is in `Close` and has won the compare-and-swap. -/
def Conn.closing : Conn.Pc → Bool
  | .farewell | .sockClose | .chanClose => true
  | _ => false

/-- What holds in every reachable state. -/
structure ConnInv (tr : List Conn.Ev) (s : Conn.Sys) : Prop where
  flag : s.flag = true ↔ ∃ i, .closeWon i ∈ tr
  closing : ∀ i, Conn.closing (s.pcs i) = true → s.flag = true
  one : ∀ i j, Conn.closing (s.pcs i) = true → Conn.closing (s.pcs j) = true → i = j
  said : ∀ i, s.pcs i = .farewell → s.sock = false ∧ s.chan = false ∧ ∀ j, .farewell j ∉ tr ∧ .farewellErr j ∉ tr
  shut : ∀ i, s.pcs i = .sockClose → s.sock = false ∧ s.chan = false ∧ (.farewell i ∈ tr ∨ .farewellErr i ∈ tr)
  left : ∀ i, s.pcs i = .chanClose → s.chan = false ∧ s.sock = true
  sock : s.sock = true ↔ ∃ i, .sockClosed i ∈ tr
  chan : s.chan = true ↔ ∃ i, .closed i ∈ tr
  done : s.chan = true → ∀ i, Conn.closing (s.pcs i) = false
  fresh : s.flag = false → s.chan = false ∧ s.sock = false ∧ ∀ j, .farewell j ∉ tr ∧ .farewellErr j ∉ tr
  crash : .crash ∉ tr
  chanSock : s.chan = true → s.sock = true
  farewells : Out.farewell ∈ s.out ↔ ∃ i, .farewell i ∈ tr
  count : s.out.count .farewell ≤ 1
  won : ∀ i, Conn.closing (s.pcs i) = true → .closeWon i ∈ tr
  shutBy : ∀ i, s.pcs i = .chanClose → .sockClosed i ∈ tr
  worker : s.worker = .gone → s.chan = true

set_option maxHeartbeats 4000000 in
theorem connInv {tr : List Conn.Ev} {s : Conn.Sys} (h : Exec Conn.Step Conn.new tr s) : ConnInv tr s := by
  refine h.inv (P := ConnInv) ?_ ?_
  · constructor <;> simp [Conn.new, Conn.closing]
  · intro tr s l s' _ ih hs
    obtain ⟨i1, i2, i3, i4, i5, i6, i7, i8, i9, i10, i11, i12, i13, i14, i15, i16, i17⟩ := ih
    cases hs
    case crash i hp hc => exfalso; grind [Conn.closing]
    all_goals constructor <;> grind [upd, Conn.closing]

end Verif
