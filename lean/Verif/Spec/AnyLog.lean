import Verif.Spec.Wire
import Verif.Spec.Request
import Verif.Spec.Log

/-! What a server makes of any records at all, whoever wrote them. -/

namespace Verif.Spec

/-- The texts begin with the objects; texts that do not begin with one are left out. -/
inductive ReadTexts : List Bytes → List Resp → Prop where
  | nil : ReadTexts [] []
  | read {o : Resp} {b r : Bytes} {ts : List Bytes} {os : List Resp} : Taken o b → ReadTexts ts os → ReadTexts ((b ++ r) :: ts) (o :: os)
  | left {t : Bytes} {ts : List Bytes} {os : List Resp} : (¬ ∃ o b r, Taken o b ∧ t = b ++ r) → ReadTexts ts os → ReadTexts (t :: ts) os

/-- The record asks for the command. -/
def AsksFor (v : VLog) (c : Command) : Prop := ∃ os, ReadTexts v.args os ∧ Means (.bulk v.name :: os) c

/-- From the databases `s` the records lead to `s'`: each is executed in the database whose number it has, if it asks for a command, and else skipped. -/
inductive Replays : (Int → DB) → List VLog → (Int → DB) → Prop where
  | nil {s : Int → DB} : Replays s [] s
  | run {s s' : Int → DB} {v : VLog} {vs : List VLog} {c : Command} {a : DB} {x : Except CmdErr Resp} : AsksFor v c → Step (s v.index) c (some (a, x)) →
      Replays (Function.update s v.index a) vs s' → Replays s (v :: vs) s'
  | skip {s s' : Int → DB} {v : VLog} {vs : List VLog} : (¬ ∃ c, AsksFor v c) → Replays s vs s' → Replays s (v :: vs) s'

end Verif.Spec
