import Verif.Model.Desk
import Verif.Spec.Full
import Verif.Spec.Session

/-! What happens at the server, and what users type and see. -/

namespace Verif.Spec

/-- What happens at the server. -/
def serverOf (tr : List Desk.Ev) : List Full.Ev := tr.filterMap fun
  | .server e => some e
  | _ => none

/-- The lines the user at connection `c` has typed and the client has sent. -/
def typedBy (c : Nat) (tr : List Desk.Ev) : List Bytes := tr.filterMap fun
  | .typed c' l => if c' = c then some l else none
  | _ => none

/-- The replies the user at connection `c` has seen. -/
def shownTo (c : Nat) (tr : List Desk.Ev) : List Resp := tr.filterMap fun
  | .shown c' r => if c' = c then some r else none
  | _ => none

/-- One database explains what the users at the connections `U` see: of the requests `qs` it was asked one after the other, giving the replies `rs`, the one
at `place c i` is that of the words of the `i`-th line of user `c`, and its reply is the one the user saw for that line; different lines have different
places; and a line typed after a reply was seen, by whomever, has a later place than the line of that reply. -/
structure OneDatabase (U : Nat → Bool) (tr : List Desk.Ev) (qs : List (List Resp)) (rs : List Resp) (place : Nat → Nat → Nat) : Prop where
  each : ∀ (c i : Nat) r, U c = true → (shownTo c tr)[i]? = some r → ∃ l ws, (typedBy c tr)[i]? = some l ∧ Words l ws ∧
    qs[place c i]? = some (ws.map .bulk) ∧ rs[place c i]? = some r
  distinct : ∀ c c' i j : Nat, U c = true → U c' = true → i < (shownTo c tr).length → j < (shownTo c' tr).length → place c i = place c' j → c = c' ∧ i = j
  inTime : ∀ (before after : List Desk.Ev) (c c' i j : Nat), tr = before ++ after → U c = true → U c' = true → i < (shownTo c before).length →
    (typedBy c' before).length ≤ j → j < (shownTo c' tr).length → place c i < place c' j

/-- The bytes of a line a user can send. -/
def Typable (b : Bytes) : Prop := ∃ input l ws, Line input ∧ TakenAs input l ∧ ¬ Quits l ∧ Words l ws ∧ b = (Resp.array (ws.map .bulk)).encode

/-- At connection `c` sits somebody who behaves like a user at a terminal: what arrives are lines, each when all lines before it have been answered; and the
connection is left alone. -/
structure Attended (c : Nat) (tr : List Full.Ev) : Prop where
  smooth : ∀ x ∈ lineOf c tr, smooth x = true
  stays : .feed c .ended ∉ seenIn tr
  lines : ∀ before b after, seenIn tr = before ++ .feed c (.arrived b) :: after → Typable b ∧ (piecesOf c before).length = (answersTo c before).length

end Verif.Spec
