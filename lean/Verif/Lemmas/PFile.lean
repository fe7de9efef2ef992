import Verif.Model.Log
import Mathlib.Data.List.Infix

/-! Lemmas about the buffered file. -/

namespace Verif.PFile

/-- What a write call achieves when it takes the first `k` bytes of `b`. -/
structure Took (p : PFile) (b : Bytes) (p' : PFile) (k : Nat) : Prop where
  le : k ≤ b.length
  bytes : p'.disk ++ p'.buf = p.disk ++ p.buf ++ b.take k
  grows : p.disk <+: p'.disk
  room : p.buf.length ≤ bufSize → p'.buf.length ≤ bufSize
  stuck : p.failed = true → p' = p ∧ k = 0

theorem Took.refl (p : PFile) (b : Bytes) : Took p b p 0 := ⟨by omega, by simp, List.prefix_rfl, id, fun _ => ⟨rfl, rfl⟩⟩

theorem Took.trans {p p1 p2 : PFile} {b : Bytes} {k l : Nat} (h : Took p b p1 k) (h' : Took p1 (b.drop k) p2 l) : Took p b p2 (k + l) := by
  refine ⟨?_, ?_, h.grows.trans h'.grows, fun hr => h'.room (h.room hr), fun hf => ?_⟩
  · have := h'.le; have := h.le; simp at *; omega
  · rw [h'.bytes, h.bytes, List.take_add]; simp
  · obtain ⟨rfl, rfl⟩ := h.stuck hf
    obtain ⟨rfl, rfl⟩ := h'.stuck hf
    exact ⟨rfl, rfl⟩

theorem flush_bytes (ω : Nat → Nat) (p : PFile) : (flush ω p).disk ++ (flush ω p).buf = p.disk ++ p.buf := by
  unfold flush
  split
  · rfl
  · split
    · rfl
    · simp only [sysWrite, List.append_assoc]
      rw [List.take_append_drop]

theorem flush_grows (ω : Nat → Nat) (p : PFile) : p.disk <+: (flush ω p).disk := by
  unfold flush
  split
  · exact List.prefix_rfl
  · split
    · exact List.prefix_rfl
    · exact List.prefix_append _ _

theorem flush_len (ω : Nat → Nat) (p : PFile) : (flush ω p).buf.length ≤ p.buf.length := by
  unfold flush
  split
  · exact Nat.le_refl _
  · split
    · exact Nat.le_refl _
    · simp [sysWrite]

theorem flush_done (ω : Nat → Nat) (p : PFile) (h : (flush ω p).failed = false) : (flush ω p).buf = [] := by
  unfold flush at h ⊢
  split
  · rename_i hf; rw [if_pos hf, hf] at h; cases h
  · rename_i hf
    rw [if_neg hf] at h
    split
    · rename_i hb; exact hb
    · rename_i hb
      rw [if_neg hb] at h
      simp only [sysWrite, decide_eq_false_iff_not] at h ⊢
      rw [List.drop_eq_nil_iff]; omega

theorem flush_stuck (ω : Nat → Nat) (p : PFile) (h : p.failed = true) : flush ω p = p := by unfold flush; rw [if_pos h]

/-- Filling the buffer and flushing it. -/
theorem took_flush (ω : Nat → Nat) {p : PFile} {b : Bytes} {n : Nat} (hf : p.failed = false) (hn : n ≤ b.length)
    (hr : n ≤ bufSize - p.buf.length) : Took p b (flush ω { p with buf := p.buf ++ b.take n }) n := by
  refine ⟨hn, ?_, flush_grows ω { p with buf := p.buf ++ b.take n }, fun h => ?_, fun h => by rw [hf] at h; cases h⟩
  · rw [flush_bytes]; simp
  · have := flush_len ω { p with buf := p.buf ++ b.take n }
    simp at this; omega

theorem took_sys (ω : Nat → Nat) {p : PFile} {b : Bytes} (hf : p.failed = false) (hb : p.buf = []) :
    Took p b (sysWrite ω p b).1 (sysWrite ω p b).2 := by
  refine ⟨by simp [sysWrite]; omega, ?_, List.prefix_append _ _, fun h => h, fun h => by rw [hf] at h; cases h⟩
  simp [sysWrite, hb]

theorem writeLoop_took (ω : Nat → Nat) (f : Nat) (p : PFile) (b : Bytes) (nn : Nat) :
    ∃ k, Took p b (writeLoop ω f p b nn).1 k ∧ (writeLoop ω f p b nn).2.1 = b.drop k ∧ (writeLoop ω f p b nn).2.2 = nn + k := by
  induction f generalizing p b nn with
  | zero => exact ⟨0, .refl p b, by simp [writeLoop], rfl⟩
  | succ f ih =>
    rw [writeLoop]
    split
    · rename_i hc
      split
      · rename_i hb
        obtain ⟨k, h1, h2, h3⟩ := ih (sysWrite ω p b).1 (b.drop (sysWrite ω p b).2) (nn + (sysWrite ω p b).2)
        exact ⟨_, (took_sys ω hc.2 hb).trans h1, by rw [h2, List.drop_drop], by rw [h3, Nat.add_assoc]⟩
      · obtain ⟨k, h1, h2, h3⟩ := ih (flush ω { p with buf := p.buf ++ b.take (bufSize - p.buf.length) }) (b.drop (bufSize - p.buf.length))
          (nn + (bufSize - p.buf.length))
        exact ⟨_, (took_flush ω hc.2 (by omega) (Nat.le_refl _)).trans h1, by rw [h2, List.drop_drop], by rw [h3, Nat.add_assoc]⟩
    · exact ⟨0, .refl p b, by simp, rfl⟩

/-- The loop has ended by itself: there was an error or the rest fits. -/
def Ended (r : PFile × Bytes × Nat) : Prop := r.1.failed = true ∨ r.2.1.length ≤ bufSize - r.1.buf.length

theorem writeLoop_exit (ω : Nat → Nat) (f : Nat) (p : PFile) (b : Bytes) (nn : Nat)
    (h : p.failed = true ∨ b.length ≤ bufSize - p.buf.length) : Ended (writeLoop ω f p b nn) := by
  cases f with
  | zero => exact h
  | succ f =>
    rw [writeLoop, if_neg]
    · exact h
    · rintro ⟨h1, h2⟩; rw [h2] at h; simp at h; omega

theorem sys_ended (ω : Nat → Nat) (p : PFile) (b : Bytes) :
    (sysWrite ω p b).1.failed = true ∨ (b.drop (sysWrite ω p b).2).length ≤ bufSize - (sysWrite ω p b).1.buf.length := by
  simp only [sysWrite, List.length_drop, decide_eq_true_eq]
  omega

theorem writeLoop_ended2 (ω : Nat → Nat) (f : Nat) (p : PFile) (b : Bytes) (nn : Nat) (hb : p.buf = []) : Ended (writeLoop ω (f + 1) p b nn) := by
  rw [writeLoop]
  split
  · exact writeLoop_exit ω f _ _ _ (sys_ended ω p b)
  · rename_i hc
    exact (by
      show p.failed = true ∨ b.length ≤ bufSize - p.buf.length
      cases hf : p.failed
      · right; rw [hf] at hc; simp at hc; omega
      · exact .inl rfl)

theorem writeLoop_ended (ω : Nat → Nat) (p : PFile) (b : Bytes) (nn : Nat) : Ended (writeLoop ω 3 p b nn) := by
  by_cases hb : p.buf = []
  · exact writeLoop_ended2 ω 2 p b nn hb
  · rw [writeLoop]
    split
    · cases hf : (flush ω { p with buf := p.buf ++ b.take (bufSize - p.buf.length) }).failed
      · exact writeLoop_ended2 ω 1 _ _ _ (flush_done ω _ hf)
      · exact writeLoop_exit ω 2 _ _ _ (.inl hf)
    · rename_i hc
      show p.failed = true ∨ b.length ≤ bufSize - p.buf.length
      cases hf : p.failed
      · right; rw [hf] at hc; simp at hc; omega
      · exact .inl rfl

theorem finish_took {p p1 : PFile} {b : Bytes} {k : Nat} (h : Took p b p1 k) (hr : (b.drop k).length ≤ bufSize - p1.buf.length)
    (hf : p1.failed = false) : Took p b { p1 with buf := p1.buf ++ b.drop k } (k + (b.drop k).length) := by
  refine ⟨by have := h.le; simp; omega, ?_, h.grows, fun hb => ?_, fun hs => ?_⟩
  · have e : k + (b.drop k).length = b.length := by have := h.le; simp; omega
    rw [e, List.take_length, ← List.append_assoc]
    simp only
    rw [h.bytes, List.append_assoc, List.append_assoc, List.append_assoc, List.take_append_drop]
  · have := h.room hb
    rw [List.length_append]; omega
  · obtain ⟨rfl, rfl⟩ := h.stuck hs
    rw [hs] at hf; cases hf

/-- `Write`. -/
theorem write_took (ω : Nat → Nat) (p : PFile) (b : Bytes) : Took p b (write ω p b).1 (write ω p b).2 ∧
    ((write ω p b).1.failed = false → (write ω p b).2 = b.length) := by
  obtain ⟨k, h1, h2, h3⟩ := writeLoop_took ω 3 p b 0
  have he := writeLoop_ended ω p b 0
  unfold write
  generalize writeLoop ω 3 p b 0 = r at *
  obtain ⟨p1, b1, nn⟩ := r
  simp only [Nat.zero_add] at h1 h2 h3
  subst h3; subst h2
  dsimp only
  cases hf : p1.failed
  · simp only [Bool.false_eq_true, if_false]
    have hr : (b.drop nn).length ≤ bufSize - p1.buf.length := by
      rcases he with h | h
      · simp only at h; rw [hf] at h; cases h
      · exact h
    have ht := finish_took h1 hr hf
    rw [hf] at ht
    refine ⟨ht, fun _ => ?_⟩
    have := h1.le; simp; omega
  · simp only [if_true]
    exact ⟨h1, fun h => by rw [hf] at h; cases h⟩

theorem writeStringLoop_took (ω : Nat → Nat) (f : Nat) (p : PFile) (b : Bytes) (nn : Nat) :
    ∃ k, Took p b (writeStringLoop ω f p b nn).1 k ∧ (writeStringLoop ω f p b nn).2.1 = b.drop k ∧
      (writeStringLoop ω f p b nn).2.2 = nn + k := by
  induction f generalizing p b nn with
  | zero => exact ⟨0, .refl p b, by simp [writeStringLoop], rfl⟩
  | succ f ih =>
    rw [writeStringLoop]
    split
    · rename_i hc
      obtain ⟨k, h1, h2, h3⟩ := ih (flush ω { p with buf := p.buf ++ b.take (bufSize - p.buf.length) }) (b.drop (bufSize - p.buf.length))
        (nn + (bufSize - p.buf.length))
      exact ⟨_, (took_flush ω hc.2 (by omega) (Nat.le_refl _)).trans h1, by rw [h2, List.drop_drop], by rw [h3, Nat.add_assoc]⟩
    · exact ⟨0, .refl p b, by simp, rfl⟩

theorem writeStringLoop_ended (ω : Nat → Nat) (f : Nat) (p : PFile) (b : Bytes) (nn : Nat) (hp : p.buf.length ≤ bufSize)
    (h : b.length + (if p.buf.length = bufSize then 1 else 0) ≤ f ∨ p.failed = true) : Ended (writeStringLoop ω f p b nn) := by
  induction f generalizing p b nn with
  | zero =>
    rw [writeStringLoop]
    rcases h with h | h
    · right; simp only; omega
    · exact .inl h
  | succ f ih =>
    rw [writeStringLoop]
    split
    · rename_i hc
      have h := h.resolve_right (by rw [hc.2]; simp)
      apply ih
      · have := flush_len ω { p with buf := p.buf ++ b.take (bufSize - p.buf.length) }
        simp at this; omega
      · cases hf : (flush ω { p with buf := p.buf ++ b.take (bufSize - p.buf.length) }).failed
        · left
          rw [flush_done ω _ hf]
          have : bufSize = 4096 := rfl
          rw [List.length_nil, if_neg (by omega), List.length_drop]
          split at h <;> omega
        · exact .inr rfl
    · rename_i hc
      show p.failed = true ∨ b.length ≤ bufSize - p.buf.length
      cases hf : p.failed
      · right; rw [hf] at hc; simp at hc; omega
      · exact .inl rfl

/-- `WriteString`. -/
theorem writeString_took (ω : Nat → Nat) (p : PFile) (b : Bytes) (hp : p.buf.length ≤ bufSize) :
    Took p b (writeString ω p b).1 (writeString ω p b).2 ∧
    ((writeString ω p b).1.failed = false → (writeString ω p b).2 = b.length) := by
  obtain ⟨k, h1, h2, h3⟩ := writeStringLoop_took ω (b.length + 2) p b 0
  have he := writeStringLoop_ended ω (b.length + 2) p b 0 hp (.inl (by split <;> omega))
  unfold writeString
  generalize writeStringLoop ω (b.length + 2) p b 0 = r at *
  obtain ⟨p1, b1, nn⟩ := r
  simp only [Nat.zero_add] at h1 h2 h3
  subst h3; subst h2
  dsimp only
  cases hf : p1.failed
  · simp only [Bool.false_eq_true, if_false]
    have hr : (b.drop nn).length ≤ bufSize - p1.buf.length := by
      rcases he with h | h
      · simp only at h; rw [hf] at h; cases h
      · exact h
    have ht := finish_took h1 hr hf
    rw [hf] at ht
    refine ⟨ht, fun _ => ?_⟩
    have := h1.le; simp; omega
  · simp only [if_true]
    exact ⟨h1, fun h => by rw [hf] at h; cases h⟩

/-- `WriteByte`. -/
theorem writeByte_took (ω : Nat → Nat) (p : PFile) (c : UInt8) :
    Took p [c] (writeByte ω p c).1 (writeByte ω p c).2 ∧ ((writeByte ω p c).1.failed = false → (writeByte ω p c).2 = 1) := by
  unfold writeByte
  cases hf : p.failed
  · simp only [Bool.false_eq_true, if_false]
    have h0 := took_flush ω (p := p) (b := [c]) (n := 0) hf (by simp) (by omega)
    simp only [List.take_zero, List.append_nil] at h0
    split
    · rename_i hfull
      cases hf1 : (flush ω p).failed
      · simp only [Bool.false_eq_true, if_false]
        have := finish_took (k := 0) (b := [c]) (p1 := flush ω p) h0 (by rw [flush_done ω p hf1]; simp [bufSize]) hf1
        simp only [List.drop_zero, hf1] at this
        exact ⟨this, fun _ => trivial⟩
      · simp only [if_true]
        exact ⟨h0, fun h => by rw [hf1] at h; cases h⟩
    · rename_i hfull
      simp only [hf, Bool.false_eq_true, if_false]
      have := finish_took (k := 0) (b := [c]) (.refl p [c]) (by simp; omega) hf
      simp only [List.drop_zero, hf] at this
      exact ⟨this, fun _ => trivial⟩
  · simp only [if_true]
    exact ⟨.refl p [c], fun h => by rw [hf] at h; cases h⟩

end Verif.PFile
