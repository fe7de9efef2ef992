import Verif.Lemmas.Proto
import Verif.Spec.Log

/-! # C66 – the records of the log are protocol buffers messages -/

namespace Verif.Props

open Spec Spec.PB

/-- C66: what is written for a record is the message with exactly its fields. -/
theorem C66_written {v : VLog} {b : Bytes} (h : Proto.marshal v = some b) (hf : Fits v) (hb : b.length < 2 ^ 64) : Message (fieldsOf v) b := by
  unfold Proto.marshal at h
  split at h
  · simp only [Option.some.injEq] at h
    have l (n : Nat) (s : Bytes) := Proto.length_putString n s
    have l1 := l 1 v.id
    have l3 := l 3 v.host
    have l4 := l 4 v.name
    have l255 := l 255 v.raw
    have hl := congrArg List.length h
    simp only [List.length_append] at hl
    have la : ∀ a ∈ v.args, a.length ≤ (v.args.flatMap (Proto.putBytes 6)).length := by
      intro a ha
      obtain ⟨x, y, e⟩ := List.append_of_mem ha
      have := Proto.length_putBytes 6 a
      rw [e]
      simp only [List.flatMap_append, List.flatMap_cons, List.length_append]
      omega
    have hi : InInt64 v.index := by
      obtain ⟨-, h1, h2⟩ := hf
      unfold InInt64 minInt64 maxInt64
      omega
    rw [← h]
    exact Proto.fields_append (Proto.fields_append (Proto.fields_append (Proto.fields_append (Proto.fields_append (Proto.fields_append
      (Proto.fields_string (by omega) (by omega) (by omega)) (Proto.fields_int (by omega) (by omega) hf.1)) (Proto.fields_string (by omega) (by omega) (by omega)))
      (Proto.fields_string (by omega) (by omega) (by omega))) (Proto.fields_int (by omega) (by omega) hi))
      (Proto.fields_args _ fun a ha => by have := la a ha; omega)) (Proto.fields_string (by omega) (by omega) (by omega))
  · cases h

/-- C66: whoever wrote it, a message is read as the record it says. -/
theorem C66_read {fs : List (Nat × Value)} {s : Bytes} (h : Message fs s) (v : VLog) : Proto.unmarshal s = some v ↔ Says fs v := Proto.unmarshal_of h v

/-- C66: nothing but messages is accepted. -/
theorem C66_only {s : Bytes} {v : VLog} (h : Proto.unmarshal s = some v) : ∃ fs, Message fs s := Proto.of_unmarshal h

/-- C66: bytes are a message in at most one way. -/
theorem C66_unambiguous {fs gs : List (Nat × Value)} {s : Bytes} (h : Message fs s) (h' : Message gs s) : fs = gs := Proto.fields_unique h h'

/-- Two messages with the same strings and integers under the numbers that count. -/
theorem C66_same {fs gs : List (Nat × Value)} {s t : Bytes} (h : Message fs s) (h' : Message gs t)
    (hs : ∀ num ∈ [1, 3, 4, 6, 255], strings num fs = strings num gs) (hn : ∀ num ∈ [2, 5], numbers num fs = numbers num gs) :
    Proto.unmarshal s = Proto.unmarshal t := by
  refine Option.ext fun v => ?_
  rw [C66_read h, C66_read h']
  unfold Says
  simp only [List.forall_mem_cons, List.not_mem_nil, false_imp_iff, implies_true, and_true] at hs hn ⊢
  rw [hs.1, hs.2.1, hs.2.2.1, hs.2.2.2.1, hs.2.2.2.2, hn.1, hn.2]

/-- C66: fields a later version may add, anywhere among the others, are not noticed: other numbers, or known numbers with another type. -/
theorem C66_unknown {fs us gs : List (Nat × Value)} {s u t : Bytes} (h : Message fs s) (hu : Message us u) (h' : Message gs t)
    (ho : ∀ num x, (num, x) ∈ us → (x.wireType = 2 → num ∉ [1, 3, 4, 6, 255]) ∧ (x.wireType = 0 → num ∉ [2, 5])) :
    Proto.unmarshal (s ++ (u ++ t)) = Proto.unmarshal (s ++ t) := by
  have e1 : ∀ num ∈ [1, 3, 4, 6, 255], strings num us = [] := by
    intro num hn
    refine List.filterMap_eq_nil_iff.2 fun f hf => ?_
    obtain ⟨n, x⟩ := f
    cases x <;> simp only
    rw [if_neg]
    rintro rfl
    exact (ho _ _ hf).1 rfl hn
  have e2 : ∀ num ∈ [2, 5], numbers num us = [] := by
    intro num hn
    refine List.filterMap_eq_nil_iff.2 fun f hf => ?_
    obtain ⟨n, x⟩ := f
    cases x <;> simp only
    rw [if_neg]
    rintro rfl
    exact (ho _ _ hf).2 rfl hn
  refine C66_same (Proto.fields_append h (Proto.fields_append hu h')) (Proto.fields_append h h') (fun num hn => ?_) (fun num hn => ?_)
  · rw [Proto.strings_append, Proto.strings_append, Proto.strings_append, e1 num hn, List.nil_append]
  · rw [Proto.numbers_append, Proto.numbers_append, Proto.numbers_append, e2 num hn, List.nil_append]

/-- C66: neighbouring fields with different numbers can come in either order. -/
theorem C66_order {fs us ws gs : List (Nat × Value)} {s u w t : Bytes} (h : Message fs s) (hu : Message us u) (hw : Message ws w) (h' : Message gs t)
    (hd : ∀ f ∈ us, ∀ g ∈ ws, f.1 ≠ g.1) : Proto.unmarshal (s ++ (u ++ (w ++ t))) = Proto.unmarshal (s ++ (w ++ (u ++ t))) := by
  have e1 : ∀ num, strings num us = [] ∨ strings num ws = [] := by
    intro num
    by_contra hn
    rw [not_or] at hn
    obtain ⟨b, hb⟩ := List.exists_mem_of_ne_nil _ hn.1
    obtain ⟨c, hc⟩ := List.exists_mem_of_ne_nil _ hn.2
    obtain ⟨f, hf, ef⟩ := List.mem_filterMap.1 hb
    obtain ⟨g, hg, eg⟩ := List.mem_filterMap.1 hc
    refine hd f hf g hg ?_
    grind
  have e2 : ∀ num, numbers num us = [] ∨ numbers num ws = [] := by
    intro num
    by_contra hn
    rw [not_or] at hn
    obtain ⟨b, hb⟩ := List.exists_mem_of_ne_nil _ hn.1
    obtain ⟨c, hc⟩ := List.exists_mem_of_ne_nil _ hn.2
    obtain ⟨f, hf, ef⟩ := List.mem_filterMap.1 hb
    obtain ⟨g, hg, eg⟩ := List.mem_filterMap.1 hc
    refine hd f hf g hg ?_
    grind
  refine C66_same (Proto.fields_append h (Proto.fields_append hu (Proto.fields_append hw h')))
    (Proto.fields_append h (Proto.fields_append hw (Proto.fields_append hu h'))) (fun num hn => ?_) (fun num hn => ?_)
  · simp only [Proto.strings_append]
    rcases e1 num with e | e <;> simp [e]
  · simp only [Proto.numbers_append]
    rcases e2 num with e | e <;> simp [e]

/-- C66: a log file, from wherever it comes, gives the records of its complete messages in order; what is not a message is left out without a word. An
error is reported iff more than three bytes are left over. -/
theorem C66_file {ms bs : List Bytes} {r : Bytes} (h : List.Forall₂ Frame ms bs) (hr : Incomplete r) :
    parseLog (bs.flatten ++ r) = (ms.filterMap Proto.unmarshal, decide (4 ≤ r.length)) := by
  induction h with
  | nil =>
    rw [List.flatten_nil, List.nil_append, parseLog_eq]
    rcases hr with hr | ⟨c0, c1, c2, c3, m, rfl, hm⟩
    · have : readExact 4 r = none := readExact_none.2 hr
      simp only [readLog, this]
      simp; omega
    · have e : readExact 4 (c0 :: c1 :: c2 :: c3 :: m) = some ([c0, c1, c2, c3], m) := by simp [readExact]
      have e2 : readExact (unle32 [c0, c1, c2, c3]) m = none := readExact_none.2 (by simp only [unle32]; omega)
      simp only [readLog, e, e2]
      simp
  | @cons m b ms bs hb _ ih =>
    obtain ⟨c0, c1, c2, c3, rfl, hm⟩ := hb
    have e : readExact 4 (c0 :: c1 :: c2 :: c3 :: (m ++ (bs.flatten ++ r))) = some ([c0, c1, c2, c3], m ++ (bs.flatten ++ r)) := by simp [readExact]
    have e2 : readExact (unle32 [c0, c1, c2, c3]) (m ++ (bs.flatten ++ r)) = some (m, bs.flatten ++ r) := by
      rw [show unle32 [c0, c1, c2, c3] = m.length by simp only [unle32]; omega, readExact_append]
    rw [parseLog_eq]
    simp only [readLog, List.flatten_cons, List.cons_append, List.append_assoc, e, e2]
    cases hu : Proto.unmarshal m with
    | none => simp only [List.filterMap_cons, hu, ih]
    | some v => simp only [List.filterMap_cons, hu, ih]

/-- C66: every file is of this form. -/
theorem C66_every_file (s : Bytes) : ∃ ms bs r, List.Forall₂ Frame ms bs ∧ Incomplete r ∧ s = bs.flatten ++ r := by
  induction hn : s.length using Nat.strong_induction_on generalizing s with
  | _ n ih =>
    match s, hn with
    | c0 :: c1 :: c2 :: c3 :: m, hn =>
      by_cases hm : m.length < c0.toNat + 2 ^ 8 * c1.toNat + 2 ^ 16 * c2.toNat + 2 ^ 24 * c3.toNat
      · exact ⟨[], [], _, .nil, .inr ⟨c0, c1, c2, c3, m, rfl, hm⟩, rfl⟩
      · generalize hk : c0.toNat + 2 ^ 8 * c1.toNat + 2 ^ 16 * c2.toNat + 2 ^ 24 * c3.toNat = k at hm
        obtain ⟨ms, bs, r, h1, h2, h3⟩ := ih (m.drop k).length (by simp at hn ⊢; omega) (m.drop k) rfl
        refine ⟨m.take k :: ms, (c0 :: c1 :: c2 :: c3 :: m.take k) :: bs, r, .cons ⟨c0, c1, c2, c3, rfl, by simp; omega⟩ h1, h2, ?_⟩
        rw [List.flatten_cons, List.append_assoc, ← h3]
        simp
    | [], _ => exact ⟨[], [], [], .nil, .inl (by decide), rfl⟩
    | [a], _ => exact ⟨[], [], [a], .nil, .inl (by simp), rfl⟩
    | [a, b], _ => exact ⟨[], [], [a, b], .nil, .inl (by simp), rfl⟩
    | [a, b, c], _ => exact ⟨[], [], [a, b, c], .nil, .inl (by simp), rfl⟩

/-- A record as the server writes it. -/
def sampleLog : VLog := { id := b!"7", time := -1, host := b!"h", name := b!"set", index := 1, args := [b!"k", b!""], raw := b!"r" }

example : ∃ b, Proto.marshal sampleLog = some b ∧ Fits sampleLog ∧ b.length < 2 ^ 64 :=
  ⟨_, rfl, ⟨by decide, by decide, by decide⟩, by decide⟩
/-- Fields of a later version: a number not in use, with all the types, among them a group with a field inside. -/
example : ∃ u, Message [(9, .varint 300), (9, .fixed64 [1, 2, 3, 4, 5, 6, 7, 8]), (2, .bytes b!"x"), (9, .group), (9, .fixed32 [1, 2, 3, 4])] u := by
  have v1 (n : Nat) (h : n < 128 := by decide) : Varint n [UInt8.ofNat n] :=
    ⟨[], _, rfl, by simp, by rw [Proto.toNat_ofNat (by omega)]; exact h, by simp, by simp [base128]; omega, by omega⟩
  have h300 : Varint 300 [0xAC, 0x02] := ⟨[0xAC], 0x02, rfl, by decide, by decide, by decide, by decide, by decide⟩
  exact ⟨_, .cons (by decide) (by decide) (v1 72) (.varint h300) (.cons (by decide) (by decide) (v1 73) (.fixed64 rfl)
    (.cons (by decide) (by decide) (v1 18) (.bytes (v1 1)) (.cons (by decide) (by decide) (v1 75)
    (.group (.cons (num := 1) (v := .varint 300) (by decide) (by decide) (v1 8) (.varint h300) .nil) (v1 76) (by decide) (by decide))
    (.cons (by decide) (by decide) (v1 77) (.fixed32 rfl) .nil))))⟩
/-- A file with a frame that is not a message, one that is, and a torn one. -/
example : parseLog ([1, 0, 0, 0, 0x0C] ++ [3, 0, 0, 0, 10, 1, 55] ++ [9, 0, 0, 0, 1]) =
    ([{ id := b!"7", time := 0, host := [], name := [], index := 0, args := [], raw := [] }], true) := by decide
example : List.Forall₂ Frame [[0x0C], [10, 1, 55]] [[1, 0, 0, 0, 0x0C], [3, 0, 0, 0, 10, 1, 55]] ∧ Incomplete [9, 0, 0, 0, 1] :=
  ⟨.cons ⟨1, 0, 0, 0, rfl, rfl⟩ (.cons ⟨3, 0, 0, 0, rfl, rfl⟩ .nil), .inr ⟨9, 0, 0, 0, [1], rfl, by decide⟩⟩
/-- Not a message: a tag of type 4 without a group. -/
example : Proto.unmarshal [0x0C] = none := rfl

end Verif.Props
