import Verif.Spec.Durable

/-! One server after the other on the same file. -/

namespace Verif.Spec

/-- A server is started on a file with the contents `d` and then holds `st`. -/
def Begins (d : Bytes) (st : State) : Prop := ∃ envs dbs, (∀ i : Nat, (envs i).ord.Fair) ∧ fromFile noDBs envs d = .ok dbs ∧ dbs 1 = st

/-- One life of a server, by steps `R`: it starts on a file with the contents `d`, serves the requests `h` with the replies `rs`, and ends at rest
with everything on the disk, which leaves `d'` in the file. -/
def Life (R : (Nat → Nat) → Engine → Engine → Prop) (d : Bytes) (h : List Req) (rs : List Resp) (d' : Bytes) : Prop :=
  ∃ ω st e, Begins d st ∧ Relation.ReflTransGen (R ω) (Engine.startOn d st h) e ∧ Idle e ∧ AllOut e ∧ e.replies = rs ∧ e.file.disk = d'

/-- Any number of lives, the first on a new file. -/
inductive Lives (R : (Nat → Nat) → Engine → Engine → Prop) : List (List Req) → List (List Resp) → Bytes → Prop where
  | none : Lives R [] [] []
  | next {hs : List (List Req)} {rss : List (List Resp)} {d d' : Bytes} {h : List Req} {rs : List Resp} :
      Lives R hs rss d → Life R d h rs d' → Lives R (hs ++ [h]) (rss ++ [rs]) d'

/-- A file in which servers have left `d`, each of them ended at any moment, with or without a flush. -/
inductive LeftBy (R : (Nat → Nat) → Engine → Engine → Prop) : Bytes → Prop where
  | none : LeftBy R []
  | next {d : Bytes} {ω : Nat → Nat} {st : State} {h : List Req} {e : Engine} {p : PFile} : LeftBy R d → Begins d st →
      (∀ q ∈ h, q.Occurs) → Relation.ReflTransGen (R ω) (Engine.startOn d st h) e → (p = e.file ∨ p = e.file.flush ω) → LeftBy R p.disk

end Verif.Spec
