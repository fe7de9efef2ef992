import Verif.Spec.Fair

/-! What has become of the log after some time of an execution without end. -/

namespace Verif.Spec

/-- What writers have written to the file, in this order. -/
def recordedIn (tr : List Whole.Ev) : List Whole.Record := tr.filterMap fun
  | .recorded q => some q
  | _ => none

/-- What the goroutines do that were started to write the record `q` (pkg/db/engine.go:124-126, 205-225). -/
inductive Writer (q : Whole.Record) : Full.Ev → Prop where
  | record : Writer q (.whole (.recorded q))

/-- None of them is ever forgotten. -/
def Run.FairToWriters {ω : Nat → Nat} {s0 : Full.Sys} (r : Run (Full.Step ω) s0) : Prop := ∀ q, r.Fair (Writer q)

/-- The disk takes everything it is given. -/
def Run.DiskWorks {ω : Nat → Nat} {s0 : Full.Sys} (r : Run (Full.Step ω) s0) : Prop := ∀ j, (r.state j).whole.file.failed = false

/-- The log is flushed again and again. -/
def Run.Flushes {ω : Nat → Nat} {s0 : Full.Sys} (r : Run (Full.Step ω) s0) : Prop := ∀ i, ∃ j, i ≤ j ∧ r.ev j = some (.whole .flushed)

/-- What is logged never ends. -/
def Run.Busy {ω : Nat → Nat} {s0 : Full.Sys} (r : Run (Full.Step ω) s0) : Prop :=
  ∀ N, ∃ i, N ≤ ((begunIn (wholeOf (r.until i))).flatMap fun q => requestLog q.1 q.2).length

/-- At time `j` the records `qs` are on the disk, whole and each as often as it is in `qs`, among others and in whatever order, after what was there at
first. -/
def Run.OnDisk {ω : Nat → Nat} {d : Bytes} {st : State} (r : Run (Full.Step ω) (Full.new d st)) (j : Nat) (qs : List Whole.Record) : Prop :=
  ∃ rs, List.Subperm qs rs ∧ d ++ rs.flatMap (fun q => requestLog q.1 q.2) <+: (r.state j).whole.file.disk

end Verif.Spec
