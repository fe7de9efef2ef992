import Verif.Spec.Understood
import Verif.Props.Pipe

/-! # C46 – which events are understood -/

namespace Verif.Props

open Spec

/-- C46: the engine takes from an event on the request topic exactly what it says, and only if that is a request array; any other event is ignored. -/
theorem C46_request_events (m : GoMap Pipe.Val) (id : Bytes) (objs : List Resp) :
    Pipe.parseRequest m = some (id, objs) ↔ ∃ o, EventSays m b!"request" id o ∧ ArrayOf o objs := by
  constructor
  · intro h
    unfold Pipe.parseRequest at h
    split at h
    · next i h1 =>
      split at h
      · next o h2 =>
        cases ho : Pipe.asArray o with
        | none => simp [ho] at h
        | some xs =>
          simp only [ho, Option.some.injEq, Prod.mk.injEq] at h
          obtain ⟨rfl, rfl⟩ := h
          exact ⟨o, ⟨h1, h2⟩, asArray_arrayOf ho⟩
      · cases h
    · cases h
  · rintro ⟨o, ⟨h1, h2⟩, rfl | ⟨rfl, rfl⟩⟩ <;> simp [Pipe.parseRequest, h1, h2, Pipe.asArray]

/-- C46: and so does the server with events on the response topic. -/
theorem C46_response_events (m : GoMap Pipe.Val) (id : Bytes) (o : Resp) : Pipe.parseResponse m = some (id, o) ↔ EventSays m b!"response" id o := by
  constructor
  · intro h
    unfold Pipe.parseResponse at h
    split at h
    · next i h1 =>
      split at h
      · next x h2 =>
        simp only [Option.some.injEq, Prod.mk.injEq] at h
        obtain ⟨rfl, rfl⟩ := h
        exact ⟨h1, h2⟩
      · cases h
    · cases h
  · rintro ⟨h1, h2⟩
    simp [Pipe.parseResponse, h1, h2]

/-- C46: what the server publishes the engine understands, and the other way round; and neither takes the other's events for its own. -/
theorem C46_events (id : Bytes) (o : Resp) :
    EventSays (Pipe.requestMap id o) b!"request" id o ∧ EventSays (Pipe.responseMap id o) b!"response" id o ∧
    (∀ x, Pipe.parseResponse (Pipe.requestMap id o) ≠ some x) ∧ ∀ x, Pipe.parseRequest (Pipe.responseMap id o) ≠ some x := by
  refine ⟨⟨?_, ?_⟩, (C46_response_events _ _ _).1 (parseResponse_responseMap id o), fun x => ?_, fun x => ?_⟩
  · rw [Pipe.requestMap, GoMap.get_set_ne _ _ (by decide), GoMap.get_set_same]
  · rw [Pipe.requestMap, GoMap.get_set_same]
  · have : (Pipe.requestMap id o).get b!"response" = none := by
      rw [Pipe.requestMap, GoMap.get_set_ne _ _ (by decide), GoMap.get_set_ne _ _ (by decide)]; rfl
    intro h
    have := ((C46_response_events _ x.1 x.2).1 h).payload
    simp_all
  · have : (Pipe.responseMap id o).get b!"request" = none := by
      rw [Pipe.responseMap, GoMap.get_set_ne _ _ (by decide), GoMap.get_set_ne _ _ (by decide)]; rfl
    intro h
    obtain ⟨o', h1, -⟩ := (C46_request_events _ x.1 x.2).1 h
    have := h1.payload
    simp_all

/-- An event can say more than is asked for; a missing, misspelt or mistyped field makes it useless. -/
example : Pipe.parseRequest (GoMap.set (Pipe.requestMap b!"a" (.array (req [b!"get", b!"k"]))) b!"more" (.str b!"x")) = some (b!"a", req [b!"get", b!"k"]) ∧
    Pipe.parseRequest (Pipe.requestMap b!"a" (.bulk b!"get")) = none ∧ Pipe.parseRequest (GoMap.set [] b!"id" (.str b!"a")) = none ∧
    Pipe.parseResponse (GoMap.set (GoMap.set [] b!"id" (.obj (.int 1))) b!"response" (.obj (.int 1))) = none := ⟨rfl, rfl, rfl, rfl⟩

end Verif.Props
