import Verif.Lemmas.Log
import Mathlib.Tactic.IntervalCases

/-! # C30, C31, C35, C36 – log records, torn files, transfer to a replica -/

namespace Verif.Props

open Spec

/-! ## C30 -/

/-- C30: packing a list of records and parsing the bytes returns exactly that list, without error. -/
theorem C30_roundtrip {vs : List VLog} {bs : List Bytes} (h : Packed vs bs) : parseLog bs.flatten = (vs, false) := by
  have := packed_parse h []
  rw [List.append_nil, parse_short (s := []) (by simp)] at this
  simpa using this

/-- C30: a record at the front of a stream is read back, whatever follows, and what follows is read as if it stood alone. -/
theorem C30_streaming {vs : List VLog} {bs : List Bytes} (h : Packed vs bs) (rest : Bytes) :
    parseLog (bs.flatten ++ rest) = (vs ++ (parseLog rest).1, (parseLog rest).2) := packed_parse h rest

/-- C30: which records can be packed: those with valid texts in which at least one field is set. -/
theorem C30_packable (v : VLog) : (∃ b, packLog v = some b) ↔
    ValidUTF8 v.id ∧ ValidUTF8 v.host ∧ ValidUTF8 v.name ∧ (∀ x ∈ v.args, ValidUTF8 x) ∧ ValidUTF8 v.raw ∧
    ¬ (v.id = [] ∧ v.time = 0 ∧ v.host = [] ∧ v.name = [] ∧ v.index = 0 ∧ v.args = [] ∧ v.raw = []) := by
  rw [packLog_some, Textual]
  have : v ≠ Proto.empty ↔ ¬ (v.id = [] ∧ v.time = 0 ∧ v.host = [] ∧ v.name = [] ∧ v.index = 0 ∧ v.args = [] ∧ v.raw = []) := by
    cases v; simp [Proto.empty]
  rw [this]
  exact ⟨fun ⟨h0, h1, h2, h3, h4, h5⟩ => ⟨h1, h2, h3, h4, h5, h0⟩, fun ⟨h1, h2, h3, h4, h5, h0⟩ => ⟨h0, h1, h2, h3, h4, h5⟩⟩

/-- C30: different lists of records have different bytes. -/
theorem C30_injective {vs ws : List VLog} {bs cs : List Bytes} (h : Packed vs bs) (h' : Packed ws cs) (e : bs.flatten = cs.flatten) :
    vs = ws := by
  have h1 := C30_roundtrip h
  rw [e, C30_roundtrip h'] at h1
  simpa using h1.symm

/-- A record with an empty argument, text outside ASCII and a negative time. -/
def log1 : VLog :=
  { id := b!"7f", time := -5, host := b!"10.0.0.1", name := b!"set", index := 1, args := [b!"$1\r\nk\r\n", []], raw := [0xC3, 0xA9] }
/-- A record with most fields missing. -/
def log2 : VLog := { id := [], time := 0, host := [], name := b!"lpop", index := 1, args := [b!"$1\r\nq\r\n"], raw := [] }

def log1Bytes : Bytes := (packLog log1).getD []
def log2Bytes : Bytes := (packLog log2).getD []

theorem sample_packed : Packed [log1, log2] [log1Bytes, log2Bytes] :=
  .cons ⟨by decide, ⟨by unfold InInt64 minInt64 maxInt64; decide, by decide, by decide⟩, by decide⟩
    (.cons ⟨by decide, ⟨by unfold InInt64 minInt64 maxInt64; decide, by decide, by decide⟩, by decide⟩ .nil)

theorem sample_packed2 : Packed [log2] [log2Bytes] :=
  .cons ⟨by decide, ⟨by unfold InInt64 minInt64 maxInt64; decide, by decide, by decide⟩, by decide⟩ .nil

example : parseLog [log1Bytes, log2Bytes].flatten = ([log1, log2], false) := C30_roundtrip sample_packed
example : ValidUTF8 log1.raw := ((C30_packable log1).1 ⟨_, show packLog log1 = some log1Bytes by decide⟩).2.2.2.2.1

/-! ## C31 -/

/-- C31: of a file cut after `m` bytes exactly the records completely before the cut are returned. An error is reported as well iff the cut
leaves at least the four length bytes of a further record. -/
theorem C31_truncated {vs : List VLog} {bs : List Bytes} (h : Packed vs bs) {m j : Nat} (hj : Complete bs m j) :
    parseLog (bs.flatten.take m) = (vs.take j, decide (j < bs.length ∧ (bs.take j).flatten.length + 4 ≤ m)) := parse_cut h hj

/-- C31: for every cut there is such a number of complete records, so `C31_truncated` covers all cuts. -/
theorem C31_every_cut (bs : List Bytes) (m : Nat) : ∃ j, Complete bs m j := complete_exists bs m

/-- C31: every prefix of a log file gives a prefix of its records. -/
theorem C31_prefix {vs : List VLog} {bs : List Bytes} (h : Packed vs bs) (m : Nat) : (parseLog (bs.flatten.take m)).1 <+: vs := by
  obtain ⟨j, hj⟩ := complete_exists bs m
  rw [parse_cut h hj]
  exact List.take_prefix _ _

/-- C31: recovery from a torn file replays exactly the complete records. -/
theorem C31_recovery {vs : List VLog} {bs : List Bytes} (h : Packed vs bs) {m j : Nat} (hj : Complete bs m j) (dbs : DBs)
    (envs : Nat → Env) : fromFile dbs envs (bs.flatten.take m) = buildFromLog dbs envs (vs.take j) := by
  rw [fromFile, parse_cut h hj]

example : Complete [log1Bytes, log2Bytes] 60 1 := by
  have l1 : log1Bytes.length = 52 := by decide
  have l2 : log2Bytes.length = 21 := by decide
  refine ⟨by decide, by decide, fun i hi hl => ?_⟩
  have : i ≤ 2 := hi
  interval_cases i
  · decide
  · decide
  · simp [l1, l2] at hl
example : parseLog ((log1Bytes ++ log2Bytes).take 60) = ([log1], true) := by decide
example : parseLog ((log1Bytes ++ log2Bytes).take 54) = ([log1], false) := by decide

/-! ## C35 -/

/-- C35 in full: whatever the cut, the records before it and the ones appended later are returned. It is false, see `C35_false`. -/
def AppendSafe : Prop :=
  ∀ (vs ws : List VLog) (bs cs : List Bytes) (m j : Nat), Packed vs bs → Packed ws cs → Complete bs m j →
    (parseLog (bs.flatten.take m ++ cs.flatten)).1 = vs.take j ++ ws

/-- C35 (missing: cuts inside a record): after a cut at a record boundary, the records before it and all appended later are returned. -/
theorem C35_boundary_partial {vs ws : List VLog} {bs cs : List Bytes} (h : Packed vs bs) (h' : Packed ws cs) (j : Nat) :
    parseLog (bs.flatten.take (bs.take j).flatten.length ++ cs.flatten) = (vs.take j ++ ws, false) := by
  have e : bs.flatten.take (bs.take j).flatten.length = (bs.take j).flatten := by
    conv => lhs; rw [← List.take_append_drop j bs, List.flatten_append]
    rw [List.take_append_of_le_length, List.take_of_length_le] <;> simp
  rw [e, packed_parse (packed_take h j), C30_roundtrip h']

/-- C35 (general loss): if the file is torn inside a record after its length, then everything appended later is lost as long as it is
shorter than the missing bytes. -/
theorem C35_lost {vs ws : List VLog} {bs cs : List Bytes} (h : Packed vs bs) (h' : Packed ws cs) {m j : Nat} (hj : Complete bs m j)
    (h4 : (bs.take j).flatten.length + 4 ≤ m) (hl : m + cs.flatten.length < (bs.take (j + 1)).flatten.length) :
    parseLog (bs.flatten.take m ++ cs.flatten) = (vs.take j, true) := by
  have hlt : j < bs.length := by
    apply Classical.byContradiction; intro hn
    have e1 : bs.take (j + 1) = bs.take j := by rw [List.take_of_length_le (by omega), List.take_of_length_le (by omega)]
    rw [e1] at hl; omega
  obtain ⟨v, h1, h2, h3⟩ := packed_get h hlt
  rw [flatten_split hlt hj.2.1 (Nat.le_of_lt (complete_next hj hlt)), List.append_assoc, packed_parse (packed_take h j)]
  rw [flatten_take_succ hlt, List.length_append] at hl
  rw [parse_torn h1 h3 (by omega) (by omega)]
  simp

/-- C35 is false: a record appended after a torn one is not returned. -/
theorem C35_false : ¬ AppendSafe := by
  intro h
  have hc : Complete [log1Bytes] 30 0 := by
    refine ⟨by decide, by decide, fun i hi hl => ?_⟩
    have : i ≤ 1 := hi
    interval_cases i
    · decide
    · exact absurd hl (by decide)
  have := h [log1] [log2] [log1Bytes] [log2Bytes] 30 0 (.cons (List.forall₂_cons.1 sample_packed).1 .nil) sample_packed2 hc
  exact absurd this (by decide)

/-- C35 (worse): the torn record swallows the one appended later and is then returned with contents nobody logged. -/
theorem C35_phantom : ∃ v w : VLog, ∃ b c : Bytes, Packed [v] [b] ∧ Packed [w] [c] ∧ ∃ m u, m < b.length ∧
    parseLog (b.take m ++ c) = ([u], false) ∧ u ≠ v ∧ u ≠ w := by
  refine ⟨{ log2 with name := b!"set", args := [b!"aaaaaaaaaaaaaaaaaaa"] }, { log2 with args := [] },
    (packLog { log2 with name := b!"set", args := [b!"aaaaaaaaaaaaaaaaaaa"] }).getD [], (packLog { log2 with args := [] }).getD [],
    .cons ⟨by decide, ⟨by unfold InInt64 minInt64 maxInt64; decide, by decide, by decide⟩, by decide⟩ .nil,
    .cons ⟨by decide, ⟨by unfold InInt64 minInt64 maxInt64; decide, by decide, by decide⟩, by decide⟩ .nil,
    20, { log2 with name := b!"set", args := [b!"aaaaaaa" ++ (packLog { log2 with args := [] }).getD []] }, by decide, by decide, by decide, by decide⟩

/-! ## C36 -/

theorem receive_transfer {file : Bytes} (h0 : file ≠ []) (h : file.length < 2 ^ 32) (rest : Bytes) :
    receive (transfer file ++ rest) = match parseLog file with
      | (vs, false) => (vs, none)
      | (vs, true) => (vs, some .parse) := by
  have e1 := readExact_append (le32 file.length) (file ++ rest)
  have e2 := unle32_le32 h []
  rw [List.append_nil] at e2
  rw [receive, transfer, List.append_assoc, show readExact 4 _ = _ from e1]
  simp only [e2]
  rw [if_neg (by simpa using h0), readExact_append]
  dsimp only
  rcases parseLog file with ⟨vs, _ | _⟩ <;> rfl

/-- C36: from an undisturbed transfer of a log file that may be torn (the master's buffer is written out at arbitrary bytes), a replica
decodes exactly the complete records; it sees an error iff the file ends inside a record, after its length. -/
theorem C36_decodes {vs : List VLog} {bs : List Bytes} (h : Packed vs bs) {m j : Nat} (hj : Complete bs m j) (h0 : 0 < m)
    (hm : m ≤ bs.flatten.length) (hs : m < 2 ^ 32) :
    receive (transfer (bs.flatten.take m)) =
      (vs.take j, if j < bs.length ∧ (bs.take j).flatten.length + 4 ≤ m then some .parse else none) := by
  have hl : (bs.flatten.take m).length = m := by rw [List.length_take]; omega
  have := receive_transfer (file := bs.flatten.take m) (by intro e; rw [e] at hl; simp at hl; omega) (by omega) []
  rw [List.append_nil] at this
  rw [this, parse_cut h hj]
  by_cases hc : j < bs.length ∧ (bs.take j).flatten.length + 4 ≤ m
  · rw [decide_eq_true hc, if_pos hc]
  · rw [decide_eq_false hc, if_neg hc]

/-- C36: a replica of a master with a whole log replays exactly its records; from an empty log nothing. -/
theorem C36_replays {vs : List VLog} {bs : List Bytes} (h : Packed vs bs) (hs : bs.flatten.length < 2 ^ 32) (dbs : DBs)
    (envs : Nat → Env) : fromMaster dbs envs (transfer bs.flatten) = buildFromLog dbs envs vs := by
  by_cases h0 : bs.flatten = []
  · have hv : vs = [] := by
      have := C30_roundtrip h
      rw [h0, parse_short (by simp)] at this
      simpa using this.symm
    rw [h0, hv]; rfl
  · have := receive_transfer h0 hs []
    rw [List.append_nil, C30_roundtrip h] at this
    rw [fromMaster, this]

/-- C36: a transfer cut anywhere is rejected as a whole: no record is decoded and the database stays as it was. -/
theorem C36_cut (file : Bytes) (h0 : file ≠ []) (hs : file.length < 2 ^ 32) (k : Nat) (hk : k < (transfer file).length) (dbs : DBs)
    (envs : Nat → Env) :
    receive ((transfer file).take k) = ([], some .incomplete) ∧ fromMaster dbs envs ((transfer file).take k) = .ok dbs := by
  have key : receive ((transfer file).take k) = ([], some .incomplete) := by
    simp only [transfer, List.length_append, show (le32 file.length).length = 4 from rfl] at hk
    rw [receive]
    by_cases h4 : k < 4
    · rw [readExact_none.2 (by rw [List.length_take]; omega)]
    · have e : (transfer file).take k = le32 file.length ++ file.take (k - 4) := by
        rw [transfer, List.take_append, List.take_of_length_le (by simp [le32]; omega)]
        simp [le32]
      have e1 := readExact_append (le32 file.length) (file.take (k - 4))
      have e2 := unle32_le32 hs []
      rw [List.append_nil] at e2
      rw [e, show readExact 4 _ = _ from e1]
      simp only [e2]
      rw [if_neg (by simpa using h0), readExact_none.2 (by rw [List.length_take]; omega)]
  exact ⟨key, by rw [fromMaster, key]⟩

/-- C36: from a file that ends inside a record (after its length) the replica takes nothing at all, although it decoded the records before. -/
theorem C36_torn_rejected {vs : List VLog} {bs : List Bytes} (h : Packed vs bs) {m j : Nat} (hj : Complete bs m j)
    (hm : m ≤ bs.flatten.length) (hs : m < 2 ^ 32) (hc : j < bs.length ∧ (bs.take j).flatten.length + 4 ≤ m) (dbs : DBs)
    (envs : Nat → Env) : fromMaster dbs envs (transfer (bs.flatten.take m)) = .ok dbs := by
  rw [fromMaster, C36_decodes h hj (by omega) hm hs, if_pos hc]

/-- C36 (from 4 GiB on): the announced length wraps, and only that many bytes are decoded. -/
theorem C36_wraps (file : Bytes) (h : 2 ^ 32 ≤ file.length) : receive (transfer file) =
    if file.length % 2 ^ 32 = 0 then ([], none) else match parseLog (file.take (file.length % 2 ^ 32)) with
      | (vs, false) => (vs, none)
      | (vs, true) => (vs, some .parse) := by
  have e1 := readExact_append (le32 file.length) file
  rw [receive, transfer, show readExact 4 _ = _ from e1]
  simp only [unle32_le32_mod]
  split
  · rfl
  · have : file.length % 2 ^ 32 ≤ file.length := Nat.mod_le _ _
    simp only [readExact, if_pos this]
    rcases parseLog (file.take (file.length % 2 ^ 32)) with ⟨vs, _ | _⟩ <;> rfl

example : receive (transfer ([log1Bytes, log2Bytes].flatten.take 60)) = ([log1], some .parse) := by decide
example : receive (transfer [log1Bytes, log2Bytes].flatten) = ([log1, log2], none) := by decide
example : receive ((transfer [log1Bytes, log2Bytes].flatten).take 40) = ([], some .incomplete) :=
  (C36_cut _ (by decide) (by decide) 40 (by decide) (fun _ => State.empty) (fun _ => ⟨fun _ l => l, fun _ => 1, fun _ => true⟩)).1
example : 2 ^ 32 ≤ (List.replicate (2 ^ 32 + 5) (0 : UInt8)).length := by rw [List.length_replicate]; decide

end Verif.Props
