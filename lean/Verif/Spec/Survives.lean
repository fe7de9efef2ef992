import Verif.Spec.Lives

/-! What commands keep, and servers one after the other on the same file of which the last may end at any moment. -/

namespace Verif.Spec

/-- Whenever the request is executed and `P` holds of the database, `P` holds afterwards. -/
def KeptBy (P : DB → Prop) (q : Req) : Prop := ∀ x b b1 o, Means q.objs x → P b → Step b x (some (b1, o)) → P b1

/-- Servers have served `hs` one after the other on one file, each until it ended at some moment, with or without a last flush; they have left `d`. -/
inductive EndedOver : List (List Req) → Bytes → Prop where
  | none : EndedOver [] []
  | next {hs : List (List Req)} {d : Bytes} {ω : Nat → Nat} {st : State} {h : List Req} {e : Engine} {p : PFile} : EndedOver hs d → Begins d st →
      Relation.ReflTransGen (Engine.Step ω) (Engine.startOn d st h) e → (p = e.file ∨ p = e.file.flush ω) → EndedOver (hs ++ [h]) p.disk

/-- The full claim: what holds of an empty database and is kept by every request ever served, holds of the next server, however often servers have ended at whatever moments. -/
def KeptForever : Prop := ∀ (P : DB → Prop) (hs : List (List Req)) (d : Bytes), P DB.empty → EndedOver hs d → (∀ h ∈ hs, ∀ q ∈ h, q.Occurs ∧ KeptBy P q) →
  ∀ envs dbs, (∀ i : Nat, (envs i).ord.Fair) → fromFile noDBs envs d = .ok dbs → ∃ a, Abs (dbs 1) a ∧ P a

/-- There is nothing in the file but complete records. -/
def Uncut (d : Bytes) : Prop := ∃ vs bs, Packed vs bs ∧ d = bs.flatten

/-- Servers have served `hs` one after the other on one file, each until it ended at some moment at which there was nothing in the file but complete records; they have left `d`. -/
inductive EndedUncut : List (List Req) → Bytes → Prop where
  | none : EndedUncut [] []
  | next {hs : List (List Req)} {d : Bytes} {ω : Nat → Nat} {st : State} {h : List Req} {e : Engine} {p : PFile} : EndedUncut hs d → Begins d st →
      Relation.ReflTransGen (Engine.Step ω) (Engine.startOn d st h) e → (p = e.file ∨ p = e.file.flush ω) → Uncut p.disk → EndedUncut (hs ++ [h]) p.disk

/-- Servers have served `hs` one after the other on one file, each until it ended at some moment without leaving a part of a record, and then one more has started that serves `h`: it holds `st` at
first, has come to `e`, and if it ends now, leaves `p`, with or without a last flush. -/
def RunsLast (hs : List (List Req)) (st : State) (h : List Req) (e : Engine) (p : PFile) : Prop :=
  ∃ d ω, EndedUncut hs d ∧ Begins d st ∧ Relation.ReflTransGen (Engine.Step ω) (Engine.startOn d st h) e ∧ (p = e.file ∨ p = e.file.flush ω)

/-- The request sets both keys, to the same text. -/
def SetsBoth (k k' : Bytes) (q : Req) : Prop := ∃ v, Means q.objs (.mset [k, k'] [v, v])

end Verif.Spec
