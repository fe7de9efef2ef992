import Verif.Model.Proto
import Verif.Spec.Utf8

/-! The validity check of the protobuf runtime agrees with the definition of UTF-8. -/

namespace Verif

open Spec

namespace Proto

theorem u8_ext {a : UInt8} {n : Nat} (h : a.toNat = n) : UInt8.ofNat n = a := by subst h; simp

theorem utf8Valid_encode {c : Nat} (h : Scalar c) (s : Bytes) : utf8Valid (utf8Encode c ++ s) = utf8Valid s := by
  obtain ⟨h1, h2⟩ := h
  unfold utf8Encode
  split
  · rw [List.singleton_append]
    conv => lhs; unfold utf8Valid
    rw [if_pos]
    rw [UInt8.lt_iff_toNat_lt, UInt8.toNat_ofNat']; simp; omega
  · split
    · simp only [List.cons_append, List.nil_append, utf8Valid, UInt8.lt_iff_toNat_lt, UInt8.le_iff_toNat_le, UInt8.toNat_ofNat']
      rw [if_neg (by simp; omega), if_pos (by simp; omega)]
      rw [decide_eq_true (by simp; omega)]; rfl
    · split
      · simp only [List.cons_append, List.nil_append, utf8Valid, UInt8.lt_iff_toNat_lt, UInt8.le_iff_toNat_le, UInt8.toNat_ofNat', ← UInt8.toNat_inj]
        rw [if_neg (by simp; omega), if_neg (by simp; omega), if_pos (by simp; omega)]
        rw [decide_eq_true, decide_eq_true]; · rfl
        · simp; omega
        · constructor <;> split <;> (rename_i hh; simp at hh ⊢; omega)
      · simp only [List.cons_append, List.nil_append, utf8Valid, UInt8.lt_iff_toNat_lt, UInt8.le_iff_toNat_le, UInt8.toNat_ofNat', ← UInt8.toNat_inj]
        rw [if_neg (by simp; omega), if_neg (by simp; omega), if_neg (by simp; omega), if_pos (by simp; omega)]
        rw [decide_eq_true, decide_eq_true, decide_eq_true]; · rfl
        · simp; omega
        · simp; omega
        · constructor <;> split <;> (rename_i hh; simp at hh ⊢; omega)

theorem utf8_cons {c : Nat} {s t : Bytes} (hc : Scalar c) (e : s = utf8Encode c ++ t) (h : ValidUTF8 t) : ValidUTF8 s := by
  obtain ⟨cs, h1, rfl⟩ := h
  exact ⟨c :: cs, by simpa using ⟨hc, h1⟩, by simpa using e⟩

theorem utf8Valid_valid {s : Bytes} (h : utf8Valid s = true) : ValidUTF8 s := by
  generalize hn : s.length = n
  induction n using Nat.strongRecOn generalizing s with
  | _ n ih =>
  match s, h with
  | [], _ => exact ⟨[], by simp, rfl⟩
  | a :: s, h =>
    unfold utf8Valid at h
    simp only [UInt8.lt_iff_toNat_lt, UInt8.le_iff_toNat_le] at h
    split at h
    · rename_i ha
      refine utf8_cons (c := a.toNat) (t := s) ?_ ?_ (ih s.length (by simp at hn; omega) h rfl)
      · simp at ha; constructor <;> omega
      · rw [utf8Encode, if_pos (by simpa using ha)]; simp
    split at h
    · rename_i h1 h2
      match s, h with
      | b :: s, h =>
        simp only [Bool.and_eq_true, decide_eq_true_eq] at h
        obtain ⟨hb, h⟩ := h
        simp at h1 h2 hb
        refine utf8_cons (c := (a.toNat - 0xC0) * 64 + (b.toNat - 0x80)) (t := s) ?_ ?_ (ih s.length (by simp at hn; omega) h rfl)
        · constructor <;> omega
        · rw [utf8Encode, if_neg (by omega), if_pos (by omega), u8_ext (a := a) (by omega), u8_ext (a := b) (by omega)]; rfl
    split at h
    · rename_i h1 h2 h3
      match s, h with
      | b :: c :: s, h =>
        simp only [Bool.and_eq_true, decide_eq_true_eq] at h
        obtain ⟨⟨hb, hc⟩, h⟩ := h
        obtain ⟨hb1, hb2⟩ := hb
        simp only [← UInt8.toNat_inj] at hb1 hb2
        have hb3 : (if a.toNat = 224 then 160 else 128) ≤ b.toNat := by split at hb1 <;> simp_all
        have hb4 : b.toNat ≤ (if a.toNat = 237 then 159 else 191) := by split at hb2 <;> simp_all
        clear hb1 hb2
        simp at h1 h2 h3 hc
        refine utf8_cons (c := (a.toNat - 0xE0) * 4096 + (b.toNat - 0x80) * 64 + (c.toNat - 0x80)) (t := s) ?_ ?_
          (ih s.length (by simp at hn; omega) h rfl)
        · split at hb3 <;> split at hb4 <;> constructor <;> omega
        · have : 0x800 ≤ (a.toNat - 0xE0) * 4096 + (b.toNat - 0x80) * 64 + (c.toNat - 0x80) := by split at hb3 <;> omega
          have : b.toNat < 192 ∧ 128 ≤ b.toNat := by constructor <;> (split at hb3 <;> split at hb4 <;> omega)
          rw [utf8Encode, if_neg (by omega), if_neg (by omega), if_pos (by omega), u8_ext (a := a) (by omega), u8_ext (a := b) (by omega),
            u8_ext (a := c) (by omega)]; rfl
    split at h
    · rename_i h1 h2 h3 h4
      match s, h with
      | b :: c :: d :: s, h =>
        simp only [Bool.and_eq_true, decide_eq_true_eq] at h
        obtain ⟨⟨⟨hb, hc⟩, hd⟩, h⟩ := h
        obtain ⟨hb1, hb2⟩ := hb
        simp only [← UInt8.toNat_inj] at hb1 hb2
        have hb3 : (if a.toNat = 240 then 144 else 128) ≤ b.toNat := by split at hb1 <;> simp_all
        have hb4 : b.toNat ≤ (if a.toNat = 244 then 143 else 191) := by split at hb2 <;> simp_all
        clear hb1 hb2
        simp at h1 h2 h3 h4 hc hd
        refine utf8_cons (c := (a.toNat - 0xF0) * 262144 + (b.toNat - 0x80) * 4096 + (c.toNat - 0x80) * 64 + (d.toNat - 0x80)) (t := s) ?_ ?_
          (ih s.length (by simp at hn; omega) h rfl)
        · split at hb3 <;> split at hb4 <;> constructor <;> omega
        · have : 0x10000 ≤ (a.toNat - 0xF0) * 262144 + (b.toNat - 0x80) * 4096 + (c.toNat - 0x80) * 64 + (d.toNat - 0x80) := by
            split at hb3 <;> omega
          have : b.toNat < 192 ∧ 128 ≤ b.toNat := by constructor <;> (split at hb3 <;> split at hb4 <;> omega)
          rw [utf8Encode, if_neg (by omega), if_neg (by omega), if_neg (by omega), u8_ext (a := a) (by omega), u8_ext (a := b) (by omega),
            u8_ext (a := c) (by omega), u8_ext (a := d) (by omega)]; rfl
    · simp at h

theorem utf8Valid_iff (s : Bytes) : utf8Valid s = true ↔ ValidUTF8 s := by
  refine ⟨utf8Valid_valid, ?_⟩
  rintro ⟨cs, h, rfl⟩
  induction cs with
  | nil => rfl
  | cons c cs ih =>
    rw [List.flatMap_cons, utf8Valid_encode (h c (by simp))]
    exact ih fun c hc => h c (by simp [hc])

end Proto

end Verif
