import Verif.Model.Conn
import Verif.Spec.LTS

/-! Being stuck. -/

namespace Verif.Spec

/-- Whatever happens from `s` on, as long as only events satisfying `may` happen, `P` stays true. -/
def Forever {S L : Type} (step : S → L → S → Prop) (may : L → Prop) (s : S) (P : S → Prop) : Prop :=
  ∀ tr s', Exec step s tr s' → (∀ l ∈ tr, may l) → P s'

/-- The goroutine an event belongs to. -/
def Conn.actor : Conn.Ev → Option Nat
  | .readCall i | .readReset i | .read i | .readErr i | .writeCall i _ | .writeReset i | .wrote i _ | .writeClosed i _ | .writeErr i _
  | .closeCall i | .closeWon i | .closed i | .closeLost i | .farewell i | .farewellErr i | .sockClosed i => some i
  | .expired => some 0
  | .workerLeft | .client _ | .crash => none

/-- What one call of `Read`, `Write` or `Close` from beginning to end looks like. The expire worker, number 0, calls `Close` when the timer
fires. -/
inductive WholeCall (i : Nat) : List Conn.Ev → Prop where
  | read : WholeCall i [.readCall i, .readReset i, .read i]
  | readErr : WholeCall i [.readCall i, .readReset i, .readErr i]
  | wrote (m : Bytes) : WholeCall i [.writeCall i m, .writeReset i, .wrote i m]
  | writeErr (m : Bytes) : WholeCall i [.writeCall i m, .writeReset i, .writeErr i m]
  | refused (m : Bytes) : WholeCall i [.writeClosed i m]
  | lost (c : Conn.Ev) : (c = .closeCall i ∨ i = 0 ∧ c = .expired) → WholeCall i [c, .closeLost i]
  | closed (c f : Conn.Ev) : (c = .closeCall i ∨ i = 0 ∧ c = .expired) → f = .farewell i ∨ f = .farewellErr i →
      WholeCall i [c, .closeWon i, f, .sockClosed i, .closed i]

/-- Not just a part. -/
def Conn.whole : Conn.Out → Bool
  | .part _ => false
  | _ => true

/-- The texts written in full. -/
def Conn.written (tr : List Conn.Ev) : List Conn.Out := tr.filterMap fun
  | .wrote _ m => some (.reply m)
  | .farewell _ => some .farewell
  | _ => none

end Verif.Spec
