import Verif.Spec.Stop
import Verif.Lemmas.LTS
import Verif.Props.PFile

/-! The invariant of the shutdown. -/

namespace Verif

open Spec Stop Fut

/-- What the goroutine that won has done before it is here. -/
def Stop.Pc.before : Pc → Option (List Act)
  | .doing .removeRequest => some []
  | .doing .removeResponse => some [.removeRequest]
  | .doing .closeListener => some [.removeRequest, .removeResponse]
  | .doing .closeShut => some [.removeRequest, .removeResponse, .closeListener]
  | .doing .stopMaster => some [.removeRequest, .removeResponse, .closeListener, .closeShut]
  | .inMaster => some [.removeRequest, .removeResponse, .closeListener, .closeShut, .stopMaster]
  | .doing .flush => some [.removeRequest, .removeResponse, .closeListener, .closeShut, .stopMaster]
  | .doing .closeEngine => some [.removeRequest, .removeResponse, .closeListener, .closeShut, .stopMaster, .flush]
  | .doing .closeClients => some [.removeRequest, .removeResponse, .closeListener, .closeShut, .stopMaster, .flush, .closeEngine]
  | _ => none

theorem shutdownOf_snoc (tr : List Stop.Ev) (e : Stop.Ev) :
    shutdownOf (tr ++ [e]) = shutdownOf tr ++ (match e with | .did _ a => [a] | _ => []) := by
  induction tr with
  | nil => cases e <;> rfl
  | cons e' tr ih => cases e' <;> simp [shutdownOf, ih]

theorem upd_before (f : Nat → Pc) (i : Nat) (p : Pc) :
    (∀ j, (upd f i p j).before = none) ↔ p.before = none ∧ ∀ j, j ≠ i → (f j).before = none := by
  refine ⟨fun h => ⟨by simpa [upd] using h i, fun j hj => by simpa [upd, hj] using h j⟩, fun ⟨h1, h2⟩ j => ?_⟩
  by_cases e : j = i
  · simp [upd, e, h1]
  · simp [upd, e, h2 j e]

structure StopInv (acts : List Act) (s : Sys) : Prop where
  none : s.shutdown = false → acts = [] ∧ ∀ i, (s.pcs i).before = Option.none
  uniq : ∀ i j, (s.pcs i).before ≠ Option.none → (s.pcs j).before ≠ Option.none → i = j
  pos : ∀ i l, (s.pcs i).before = some l → acts = l
  fin : s.shutdown = true → (∀ i, (s.pcs i).before = Option.none) → acts = shutdownSequence
  shut : s.shut = true ↔ .closeShut ∈ acts
  eng : s.engineShut = true ↔ .closeEngine ∈ acts
  lis : s.listening = false ↔ .closeListener ∈ acts
  req : s.requestTopic = false ↔ .removeRequest ∈ acts
  resp : s.responseTopic = false ↔ .removeResponse ∈ acts

set_option maxHeartbeats 4000000 in
theorem stopInv {cfg : Config} {ω : Nat → Nat} {d : Bytes} {tr : List Stop.Ev} {s : Sys} (h : Exec (Stop.Step cfg ω) (Stop.new d) tr s) :
    StopInv (shutdownOf tr) s := by
  refine Exec.inv (P := fun tr s => StopInv (shutdownOf tr) s) ?_ ?_ h
  · constructor <;> simp [Stop.new, shutdownOf, Pc.before]
  · rintro tr s l s' - ⟨h1, h2, h3, h4, h5, h6, h7, h8, h9⟩ ⟨-, -, hr⟩
    rw [shutdownOf_snoc]
    cases hr <;> constructor <;> (try simp only [upd_before]) <;> grind [upd, Pc.before, shutdownSequence]

end Verif
