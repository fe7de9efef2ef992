import Verif.Spec.PFile
import Verif.Lemmas.PFile

/-! # C32 – the buffered log file

The oracle `ω` decides how many bytes each write call to the operating system takes. An error is sticky, so a crash at the `i`-th system call
after `k` bytes leaves the same file as an oracle with `ω i = k`: the theorems below, which hold for every oracle and every sequence of
calls, cover every crash point. -/

namespace Verif.Props

open Spec PFile

theorem run_took (ω : Nat → Nat) (p : PFile) (hp : p.buf.length ≤ bufSize) (op : FileOp) :
    Took p op.bytes (op.run ω p).1 (op.run ω p).2 ∧ ((op.run ω p).1.failed = false → (op.run ω p).2 = op.bytes.length) := by
  cases op with
  | write b => exact write_took ω p b
  | writeByte c => exact writeByte_took ω p c
  | writeString b => exact writeString_took ω p b hp
  | flush =>
    refine ⟨⟨Nat.zero_le _, ?_, flush_grows ω p, fun h => Nat.le_trans (flush_len ω p) h, fun h => ⟨flush_stuck ω p h, rfl⟩⟩, fun _ => rfl⟩
    show (flush ω p).disk ++ (flush ω p).buf = _
    rw [flush_bytes]; simp [FileOp.bytes]

theorem runOps_took (ω : Nat → Nat) (p : PFile) (hp : p.buf.length ≤ bufSize) (ops : List FileOp) :
    ∃ acc, (runOps ω p ops).1.disk ++ (runOps ω p ops).1.buf = p.disk ++ p.buf ++ acc ∧ acc <+: asked ops ∧
      ((runOps ω p ops).1.failed = false → acc = asked ops ∧ p.failed = false) ∧ p.disk <+: (runOps ω p ops).1.disk ∧
      (runOps ω p ops).1.buf.length ≤ bufSize ∧ (p.failed = true → (runOps ω p ops).1 = p ∧ acc = []) ∧
      (runOps ω p ops).2.length = ops.length ∧
      acc = (List.zipWith (fun n op => op.bytes.take n) (runOps ω p ops).2 ops).flatten := by
  induction ops generalizing p with
  | nil => exact ⟨[], by simp [runOps], List.prefix_rfl, fun h => ⟨rfl, h⟩, List.prefix_rfl, hp, fun _ => ⟨rfl, rfl⟩, rfl, rfl⟩
  | cons op ops ih =>
    obtain ⟨h1, h2⟩ := run_took ω p hp op
    obtain ⟨acc, g1, g2, g3, g4, g5, g6, g7, g8⟩ := ih (op.run ω p).1 (h1.room hp)
    simp only [runOps]
    refine ⟨op.bytes.take (op.run ω p).2 ++ acc, ?_, ?_, ?_, h1.grows.trans g4, g5, ?_, by simp [g7], by simp [← g8]⟩
    · rw [g1, h1.bytes]; simp
    · show _ <+: op.bytes ++ asked ops
      cases hf : (op.run ω p).1.failed
      · rw [h2 hf, List.take_length]
        exact List.prefix_append_right_inj _ |>.2 g2
      · rw [(g6 hf).2, List.append_nil]
        exact (List.take_prefix _ _).trans (List.prefix_append _ _)
    · intro hf
      obtain ⟨e, hf1⟩ := g3 hf
      rw [h2 hf1, List.take_length, e]
      refine ⟨rfl, ?_⟩
      cases hp' : p.failed
      · rfl
      · rw [(h1.stuck hp').1, hp'] at hf1; cases hf1
    · intro hf
      obtain ⟨e1, e2⟩ := h1.stuck hf
      have := g6 (by rw [e1]; exact hf)
      rw [e2, this.1, this.2, e1]; exact ⟨rfl, rfl⟩

/-- C32: at every moment, the file is a prefix of what it held at first and all bytes asked to be written so far; it never shrinks. -/
theorem C32_prefix (ω : Nat → Nat) (d : Bytes) (ops : List FileOp) :
    (runOps ω (PFile.new d) ops).1.disk <+: d ++ asked ops ∧ d <+: (runOps ω (PFile.new d) ops).1.disk := by
  obtain ⟨acc, h1, h2, -, h4, -⟩ := runOps_took ω (PFile.new d) (Nat.zero_le _) ops
  refine ⟨?_, h4⟩
  refine (List.prefix_append _ (runOps ω (PFile.new d) ops).1.buf).trans ?_
  rw [h1]
  simp only [PFile.new, List.append_nil]
  exact List.prefix_append_right_inj _ |>.2 h2

/-- C32: as long as no write has failed, at most one buffer is missing from the file. -/
theorem C32_missing (ω : Nat → Nat) (d : Bytes) (ops : List FileOp) (hf : (runOps ω (PFile.new d) ops).1.failed = false) :
    ∃ rest, (runOps ω (PFile.new d) ops).1.disk ++ rest = d ++ asked ops ∧ rest.length ≤ 4096 := by
  obtain ⟨acc, h1, -, h3, -, h5, -⟩ := runOps_took ω (PFile.new d) (Nat.zero_le _) ops
  rw [(h3 hf).1] at h1
  simp only [PFile.new, List.append_nil] at h1
  exact ⟨_, h1, h5⟩

/-- C32: after a `Flush` that reports no error nothing is missing. -/
theorem C32_flushed (ω : Nat → Nat) (d : Bytes) (ops : List FileOp) (hf : (runOps ω (PFile.new d) (ops ++ [.flush])).1.failed = false) :
    (runOps ω (PFile.new d) (ops ++ [.flush])).1.disk = d ++ asked ops := by
  have hl : ∀ (p : PFile) (ops : List FileOp), (runOps ω p (ops ++ [.flush])).1 = (runOps ω p ops).1.flush ω := by
    intro p ops
    induction ops generalizing p with
    | nil => rfl
    | cons op ops ih => simp only [List.cons_append, runOps]; exact ih _
  rw [hl] at hf ⊢
  obtain ⟨acc, h1, -, h3, -⟩ := runOps_took ω (PFile.new d) (Nat.zero_le _) ops
  have hnf : (runOps ω (PFile.new d) ops).1.failed = false := by
    cases h : (runOps ω (PFile.new d) ops).1.failed
    · rfl
    · rw [flush_stuck ω _ h, h] at hf; cases hf
  have h6 := flush_bytes ω (runOps ω (PFile.new d) ops).1
  rw [flush_done ω _ hf, List.append_nil, h1, (h3 hnf).1] at h6
  simpa [PFile.new] using h6

/-- C32: the gauges tell the truth. What is available and what is buffered add up to the size; as long as no write has failed, the file lacks exactly as many bytes as are buffered,
and what is written next does not touch the file if that much is available. -/
theorem C32_gauges (ω : Nat → Nat) (d : Bytes) (ops : List FileOp) {p : PFile} (hp : (runOps ω (PFile.new d) ops).1 = p) :
    p.size = 4096 ∧ p.available + p.buffered = p.size ∧
    (p.failed = false → p.disk.length + p.buffered = d.length + (asked ops).length ∧
      ∀ op : FileOp, op ≠ .flush → op.bytes.length ≤ p.available →
        (op.run ω p).1.disk = p.disk ∧ (op.run ω p).1.buffered = p.buffered + op.bytes.length ∧ (op.run ω p).2 = op.bytes.length) := by
  subst hp
  obtain ⟨acc, h1, -, h3, -, h5, -⟩ := runOps_took ω (PFile.new d) (Nat.zero_le _) ops
  generalize (runOps ω (PFile.new d) ops).1 = p at *
  refine ⟨rfl, ?_, fun hf => ⟨?_, fun op hop hle => ?_⟩⟩
  · simp only [available, buffered, size]; omega
  · rw [(h3 hf).1] at h1
    simp only [PFile.new, List.append_nil] at h1
    have := congrArg List.length h1
    simpa [buffered] using this
  · simp only [available] at hle
    cases op with
    | write b =>
      have : ¬ (bufSize - p.buf.length < b.length ∧ p.failed = false) := by simp only [FileOp.bytes] at hle; omega
      have e : writeLoop ω 3 p b 0 = (p, b, 0) := by rw [writeLoop, if_neg this]
      simp [FileOp.run, PFile.write, e, hf, buffered, FileOp.bytes]
    | writeByte c =>
      have : bufSize - p.buf.length ≠ 0 := by simp only [FileOp.bytes, List.length_singleton] at hle; omega
      simp [FileOp.run, PFile.writeByte, this, hf, buffered, FileOp.bytes]
    | writeString b =>
      have : ¬ (bufSize - p.buf.length < b.length ∧ p.failed = false) := by simp only [FileOp.bytes] at hle; omega
      have e : writeStringLoop ω (b.length + 2) p b 0 = (p, b, 0) := by rw [writeStringLoop, if_neg this]
      simp [FileOp.run, PFile.writeString, e, hf, buffered, FileOp.bytes]
    | flush => exact absurd rfl hop

/-- C32: the counts reported to the callers are exact: file and buffer together hold the old contents and, call by call, the first `n` bytes
of what the call asked for. -/
theorem C32_counts (ω : Nat → Nat) (d : Bytes) (ops : List FileOp) :
    (runOps ω (PFile.new d) ops).2.length = ops.length ∧
    (runOps ω (PFile.new d) ops).1.disk ++ (runOps ω (PFile.new d) ops).1.buf =
      d ++ (List.zipWith (fun n op => op.bytes.take n) (runOps ω (PFile.new d) ops).2 ops).flatten := by
  obtain ⟨acc, h1, -, -, -, -, -, h7, h8⟩ := runOps_took ω (PFile.new d) (Nat.zero_le _) ops
  refine ⟨h7, ?_⟩
  rw [h1, ← h8]; simp [PFile.new]

/-- C32: after an error nothing is written any more. -/
theorem C32_error_sticky (ω : Nat → Nat) (p : PFile) (ops : List FileOp) (hf : p.failed = true) (hb : p.buf.length ≤ bufSize) :
    (runOps ω p ops).1 = p := by
  obtain ⟨acc, -, -, -, -, -, h6, -⟩ := runOps_took ω p hb ops
  exact (h6 hf).1

theorem noFail_sys {ω : Nat → Nat} {n : Nat} (hω : ∀ i, n ≤ ω i) {p : PFile} {b : Bytes} (hb : b.length ≤ n) :
    (sysWrite ω p b).1.failed = false := by
  have := hω p.calls
  simp only [sysWrite, decide_eq_false_iff_not]; omega

theorem noFail_flush {ω : Nat → Nat} {n : Nat} (hω : ∀ i, n ≤ ω i) {p : PFile} (hf : p.failed = false) (hb : p.buf.length ≤ n) :
    (flush ω p).failed = false := by
  unfold flush
  rw [if_neg (by rw [hf]; simp)]
  split
  · exact hf
  · exact noFail_sys hω hb

theorem noFail_writeLoop {ω : Nat → Nat} {n : Nat} (hω : ∀ i, n ≤ ω i) (hn : bufSize ≤ n) (f : Nat) {p : PFile} {b : Bytes} (nn : Nat)
    (hf : p.failed = false) (hb : b.length ≤ n) (hp : p.buf.length ≤ bufSize) : (writeLoop ω f p b nn).1.failed = false := by
  induction f generalizing p b nn with
  | zero => exact hf
  | succ f ih =>
    rw [writeLoop]
    split
    · split
      · exact ih _ (noFail_sys hω hb) (by simp; omega) (by simpa [sysWrite] using hp)
      · refine ih _ (noFail_flush hω hf ?_) (by simp; omega) ?_
        · simp; omega
        · have := flush_len ω { p with buf := p.buf ++ b.take (bufSize - p.buf.length) }
          simp at this; omega
    · exact hf

theorem noFail_writeStringLoop {ω : Nat → Nat} {n : Nat} (hω : ∀ i, n ≤ ω i) (hn : bufSize ≤ n) (f : Nat) {p : PFile} {b : Bytes} (nn : Nat)
    (hf : p.failed = false) (hp : p.buf.length ≤ bufSize) : (writeStringLoop ω f p b nn).1.failed = false := by
  induction f generalizing p b nn with
  | zero => exact hf
  | succ f ih =>
    rw [writeStringLoop]
    split
    · refine ih _ (noFail_flush hω hf ?_) ?_
      · simp; omega
      · have := flush_len ω { p with buf := p.buf ++ b.take (bufSize - p.buf.length) }
        simp at this; omega
    · exact hf

theorem noFail_run {ω : Nat → Nat} {n : Nat} (hω : ∀ i, n ≤ ω i) (hn : bufSize ≤ n) {p : PFile} (hf : p.failed = false)
    (hp : p.buf.length ≤ bufSize) (op : FileOp) (hb : op.bytes.length ≤ n) : (op.run ω p).1.failed = false := by
  cases op with
  | write b =>
    have := noFail_writeLoop (b := b) hω hn 3 0 hf hb hp
    simp only [FileOp.run, PFile.write]
    generalize writeLoop ω 3 p b 0 = r at *
    rw [if_neg (by rw [this]; simp)]; exact this
  | writeByte c =>
    simp only [FileOp.run, PFile.writeByte]
    rw [if_neg (by rw [hf]; simp)]
    have hfl := noFail_flush hω hf (Nat.le_trans hp hn)
    split
    · rw [if_neg (by rw [hfl]; simp)]; exact hfl
    · rw [if_neg (by rw [hf]; simp)]; exact hf
  | writeString b =>
    have := noFail_writeStringLoop (b := b) hω hn (b.length + 2) 0 hf hp
    simp only [FileOp.run, PFile.writeString]
    generalize writeStringLoop ω (b.length + 2) p b 0 = r at *
    rw [if_neg (by rw [this]; simp)]; exact this
  | flush => exact noFail_flush hω hf (Nat.le_trans hp hn)

/-- C32: a disk that takes whatever it is offered never produces an error, whatever the sizes of the writes; so then at most one buffer is
missing at any time and nothing after a `Flush`. -/
theorem C32_faultless (ω : Nat → Nat) (n : Nat) (hω : ∀ i, n ≤ ω i) (hn : 4096 ≤ n) (d : Bytes) (ops : List FileOp)
    (hb : ∀ op ∈ ops, op.bytes.length ≤ n) : (runOps ω (PFile.new d) ops).1.failed = false := by
  have key : ∀ (p : PFile) (ops : List FileOp), p.failed = false → p.buf.length ≤ bufSize → (∀ op ∈ ops, op.bytes.length ≤ n) →
      (runOps ω p ops).1.failed = false := by
    intro p ops hf hp hb
    induction ops generalizing p with
    | nil => exact hf
    | cons op ops ih =>
      simp only [runOps]
      exact ih _ (noFail_run hω hn hf hp op (hb op (by simp))) ((run_took ω p hp op).1.room hp) fun o ho => hb o (by simp [ho])
  exact key _ ops rfl (Nat.zero_le _) hb

/-- A disk that takes everything, a script with writes larger and smaller than the buffer. -/
def sampleOps : List FileOp := [.write (List.replicate 10 97), .writeByte 98, .writeString (List.replicate 5000 99), .write (List.replicate 9000 100)]

example : (runOps (fun _ => 100000) (PFile.new b!"x") (sampleOps ++ [.flush])).1.disk = b!"x" ++ asked sampleOps := by
  refine C32_flushed _ _ _ (C32_faultless _ 100000 (fun _ => Nat.le_refl _) (by decide) _ _ ?_)
  simp only [sampleOps, List.cons_append, List.nil_append, List.forall_mem_cons, FileOp.bytes, List.length_replicate]
  simp
/-- The gauges, with some bytes in the buffer. -/
example : (runOps (fun _ => 3) (PFile.new b!"x") [.write b!"hello", .writeByte 10]).1.available = 4090 ∧
    (runOps (fun _ => 3) (PFile.new b!"x") [.write b!"hello", .writeByte 10]).1.failed = false := by decide

/-- A disk that fails at once. -/
example : (runOps (fun _ => 3) (PFile.new []) [.write b!"hello", .flush, .write b!"more"]).1.disk = b!"hel" ∧
    (runOps (fun _ => 3) (PFile.new []) [.write b!"hello", .flush, .write b!"more"]).2 = [5, 0, 0] := by decide

end Verif.Props
