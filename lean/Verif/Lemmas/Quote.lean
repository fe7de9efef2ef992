import Verif.Model.Quote
import Verif.Spec.Utf8

/-! Reading back what `strconv.Quote` writes. -/

namespace Verif.Quote

open Spec

theorem appendRune_eq (r : Nat) : appendRune r = utf8Encode r := by
  simp only [appendRune, utf8Encode]
  grind

theorem u8_ofNat_eq {n : Nat} {a : UInt8} (h : n = a.toNat) : UInt8.ofNat n = a := by
  rw [h]; simp

theorem acceptLo_toNat (a : UInt8) : (acceptLo a).toNat = if a.toNat = 0xE0 then 0xA0 else if a.toNat = 0xF0 then 0x90 else 0x80 := by
  simp only [acceptLo, ← UInt8.toNat_inj, UInt8.reduceToNat]
  by_cases h1 : a.toNat = 0xE0
  · simp [h1]
  · by_cases h2 : a.toNat = 0xF0 <;> simp [h1, h2]

theorem acceptHi_toNat (a : UInt8) : (acceptHi a).toNat = if a.toNat = 0xED then 0x9F else if a.toNat = 0xF4 then 0x8F else 0xBF := by
  simp only [acceptHi, ← UInt8.toNat_inj, UInt8.reduceToNat]
  by_cases h1 : a.toNat = 0xED
  · simp [h1]
  · by_cases h2 : a.toNat = 0xF4 <;> simp [h1, h2]

theorem decodeRune_spec (a : UInt8) (s : Bytes) :
    ((decodeRune (a :: s)).2 = 1 ∧ (decodeRune (a :: s)).1 = 0xFFFD) ∨
      ((decodeRune (a :: s)).2 = (utf8Encode (decodeRune (a :: s)).1).length ∧ Scalar (decodeRune (a :: s)).1 ∧
        ∃ t, a :: s = utf8Encode (decodeRune (a :: s)).1 ++ t) := by
  have ha := a.toNat_lt
  unfold decodeRune
  simp only [UInt8.le_iff_toNat_le, UInt8.lt_iff_toNat_lt, UInt8.reduceToNat]
  have hlo := acceptLo_toNat a
  have hhi := acceptHi_toNat a
  split
  · next h =>
    right
    simp only [utf8Encode, h, if_true]
    refine ⟨rfl, ⟨by omega, by omega⟩, s, ?_⟩
    rw [u8_ofNat_eq rfl]; rfl
  split
  · next h1 h =>
    split
    · next b t =>
      have hb := b.toNat_lt
      split
      · next h2 =>
        right
        have h4 : 0x80 ≤ b.toNat ∧ b.toNat ≤ 0xBF := by grind
        have e1 : ¬ (a.toNat % 32 * 64 + b.toNat % 64 < 0x80) := by omega
        have e2 : a.toNat % 32 * 64 + b.toNat % 64 < 0x800 := by omega
        simp only [utf8Encode, e1, e2, if_true, if_false]
        refine ⟨rfl, ⟨by omega, by omega⟩, t, ?_⟩
        rw [u8_ofNat_eq (a := a) (by omega), u8_ofNat_eq (a := b) (by omega)]; rfl
      · left; simp
    · left; simp
  split
  · next h1 h2 h =>
    split
    · next b c t =>
      have hb := b.toNat_lt
      have hc := c.toNat_lt
      split
      · next h3 =>
        right
        have h4 : (a.toNat = 0xE0 → 0xA0 ≤ b.toNat) ∧ 0x80 ≤ b.toNat ∧ b.toNat ≤ 0xBF ∧ (a.toNat = 0xED → b.toNat ≤ 0x9F) := by
          grind
        have e1 : ¬ (a.toNat % 16 * 4096 + b.toNat % 64 * 64 + c.toNat % 64 < 0x80) := by omega
        have e2 : ¬ (a.toNat % 16 * 4096 + b.toNat % 64 * 64 + c.toNat % 64 < 0x800) := by omega
        have e3 : a.toNat % 16 * 4096 + b.toNat % 64 * 64 + c.toNat % 64 < 0x10000 := by omega
        simp only [utf8Encode, e1, e2, e3, if_true, if_false]
        refine ⟨rfl, ⟨by omega, by omega⟩, t, ?_⟩
        rw [u8_ofNat_eq (a := a) (by omega), u8_ofNat_eq (a := b) (by omega), u8_ofNat_eq (a := c) (by omega)]; rfl
      · left; simp
    · left; simp
  split
  · next h1 h2 h3 h =>
    split
    · next b c d t =>
      have hb := b.toNat_lt
      have hc := c.toNat_lt
      have hd := d.toNat_lt
      split
      · next h3 =>
        right
        have h4 : (a.toNat = 0xF0 → 0x90 ≤ b.toNat) ∧ 0x80 ≤ b.toNat ∧ b.toNat ≤ 0xBF ∧ (a.toNat = 0xF4 → b.toNat ≤ 0x8F) := by
          grind
        generalize hr : a.toNat % 8 * 262144 + b.toNat % 64 * 4096 + c.toNat % 64 * 64 + d.toNat % 64 = r
        have e1 : ¬ (r < 0x80) := by omega
        have e2 : ¬ (r < 0x800) := by omega
        have e3 : ¬ (r < 0x10000) := by omega
        simp only [utf8Encode, e1, e2, e3, if_false]
        refine ⟨rfl, ⟨by omega, by omega⟩, t, ?_⟩
        rw [u8_ofNat_eq (a := a) (by omega), u8_ofNat_eq (a := b) (by omega), u8_ofNat_eq (a := c) (by omega), u8_ofNat_eq (a := d) (by omega)]; rfl
      · left; simp
    · left; simp
  left; simp

/-- The value of a hexadecimal digit. -/
def hexVal (c : UInt8) : Nat := if c.toNat < 58 then c.toNat - 48 else c.toNat - 87

theorem hexVal_lowerhex {n : Nat} (h : n < 16) : hexVal (lowerhex n) = n := by
  revert n; decide

/-- Reading a quoted string up to its closing quote: the string and the rest. -/
def unquote : Bytes → Bytes × Bytes
  | [] => ([], [])
  | 34 :: t => ([], t)
  | 92 :: 120 :: a :: b :: t => (UInt8.ofNat (16 * hexVal a + hexVal b) :: (unquote t).1, (unquote t).2)
  | 92 :: 117 :: a :: b :: c :: d :: t =>
    (utf8Encode (4096 * hexVal a + 256 * hexVal b + 16 * hexVal c + hexVal d) ++ (unquote t).1, (unquote t).2)
  | 92 :: 85 :: _ :: _ :: e :: f :: a :: b :: c :: d :: t =>
    (utf8Encode (1048576 * hexVal e + 65536 * hexVal f + 4096 * hexVal a + 256 * hexVal b + 16 * hexVal c + hexVal d) ++ (unquote t).1, (unquote t).2)
  | 92 :: 97 :: t => (7 :: (unquote t).1, (unquote t).2)
  | 92 :: 98 :: t => (8 :: (unquote t).1, (unquote t).2)
  | 92 :: 102 :: t => (12 :: (unquote t).1, (unquote t).2)
  | 92 :: 110 :: t => (10 :: (unquote t).1, (unquote t).2)
  | 92 :: 114 :: t => (13 :: (unquote t).1, (unquote t).2)
  | 92 :: 116 :: t => (9 :: (unquote t).1, (unquote t).2)
  | 92 :: 118 :: t => (11 :: (unquote t).1, (unquote t).2)
  | 92 :: c :: t => (c :: (unquote t).1, (unquote t).2)
  | c :: t => (c :: (unquote t).1, (unquote t).2)

theorem unquote_plain {c : UInt8} (h1 : c ≠ 34) (h2 : c ≠ 92) (t : Bytes) : unquote (c :: t) = (c :: (unquote t).1, (unquote t).2) := by
  rw [unquote] <;> grind

theorem unquote_copy {u : Bytes} (h : ∀ c ∈ u, c ≠ 34 ∧ c ≠ 92) (t : Bytes) : unquote (u ++ t) = (u ++ (unquote t).1, (unquote t).2) := by
  induction u with
  | nil => rfl
  | cons c u ih =>
    have hc := h c (by simp)
    rw [List.cons_append, unquote_plain hc.1 hc.2, ih fun d hd => h d (by simp [hd])]
    rfl

theorem utf8Encode_plain {r : Nat} (h1 : r ≠ 34) (h2 : r ≠ 92) (hr : Scalar r) : ∀ c ∈ utf8Encode r, c ≠ 34 ∧ c ≠ 92 := by
  have := hr.1
  intro c hc
  simp only [ne_eq, ← UInt8.toNat_inj, UInt8.reduceToNat]
  unfold utf8Encode at hc
  split at hc
  · simp only [List.mem_singleton] at hc
    subst hc; simp only [UInt8.toNat_ofNat']; omega
  split at hc
  · simp only [List.mem_cons, List.not_mem_nil, or_false] at hc
    rcases hc with rfl | rfl <;> simp only [UInt8.toNat_ofNat'] <;> omega
  split at hc
  · simp only [List.mem_cons, List.not_mem_nil, or_false] at hc
    rcases hc with rfl | rfl | rfl <;> simp only [UInt8.toNat_ofNat'] <;> omega
  · simp only [List.mem_cons, List.not_mem_nil, or_false] at hc
    rcases hc with rfl | rfl | rfl | rfl <;> simp only [UInt8.toNat_ofNat'] <;> omega

theorem unquote_x {n : Nat} (h : n < 256) (t : Bytes) : unquote (b!"\\x" ++ hexDigits 2 n ++ t) = (UInt8.ofNat n :: (unquote t).1, (unquote t).2) := by
  show unquote (92 :: 120 :: lowerhex (n / 16 ^ 1 % 16) :: lowerhex (n / 16 ^ 0 % 16) :: t) = _
  rw [unquote, hexVal_lowerhex (by omega), hexVal_lowerhex (by omega)]
  congr 3; omega

theorem unquote_u {n : Nat} (h : n < 0x10000) (t : Bytes) :
    unquote (b!"\\u" ++ hexDigits 4 n ++ t) = (utf8Encode n ++ (unquote t).1, (unquote t).2) := by
  show unquote (92 :: 117 :: lowerhex (n / 16 ^ 3 % 16) :: lowerhex (n / 16 ^ 2 % 16) :: lowerhex (n / 16 ^ 1 % 16) :: lowerhex (n / 16 ^ 0 % 16) :: t) = _
  rw [unquote, hexVal_lowerhex (by omega), hexVal_lowerhex (by omega), hexVal_lowerhex (by omega), hexVal_lowerhex (by omega)]
  congr 3; omega

theorem unquote_U {n : Nat} (h : n < 0x1000000) (t : Bytes) :
    unquote (b!"\\U" ++ hexDigits 8 n ++ t) = (utf8Encode n ++ (unquote t).1, (unquote t).2) := by
  show unquote (92 :: 85 :: _ :: _ :: lowerhex (n / 16 ^ 5 % 16) :: lowerhex (n / 16 ^ 4 % 16) :: lowerhex (n / 16 ^ 3 % 16) :: lowerhex (n / 16 ^ 2 % 16) ::
    lowerhex (n / 16 ^ 1 % 16) :: lowerhex (n / 16 ^ 0 % 16) :: t) = _
  rw [unquote, hexVal_lowerhex (by omega), hexVal_lowerhex (by omega), hexVal_lowerhex (by omega), hexVal_lowerhex (by omega),
    hexVal_lowerhex (by omega), hexVal_lowerhex (by omega)]
  congr 3; omega

theorem unquote_rune (pr : Nat → Bool) {r : Nat} (hr : Scalar r) (t : Bytes) :
    unquote (escapeRune pr r ++ t) = (utf8Encode r ++ (unquote t).1, (unquote t).2) := by
  unfold escapeRune
  split
  · next h => rcases h with rfl | rfl <;> rfl
  next h0 =>
  simp only [not_or] at h0
  split
  · rw [appendRune_eq, unquote_copy (utf8Encode_plain h0.1 h0.2 hr)]
  split
  · next h => subst h; rfl
  split
  · next h => subst h; rfl
  split
  · next h => subst h; rfl
  split
  · next h => subst h; rfl
  split
  · next h => subst h; rfl
  split
  · next h => subst h; rfl
  split
  · next h => subst h; rfl
  split
  · next h =>
    rw [unquote_x (by omega)]
    have : utf8Encode r = [UInt8.ofNat r] := by simp only [utf8Encode]; rw [if_pos (by omega)]
    rw [this]; rfl
  split
  · next h => exact unquote_u h t
  · exact unquote_U (by have := hr.1; omega) t

theorem quoteLoop_drop (pr : Nat → Bool) (u t : Bytes) : quoteLoop pr u.length (u ++ t) = quoteLoop pr 0 t := by
  induction u with
  | nil => rfl
  | cons c u ih => simpa [quoteLoop] using ih

/-- Quoting goes code point by code point. -/
theorem quoteLoop_cons (pr : Nat → Bool) (a : UInt8) (s : Bytes) :
    ((decodeRune (a :: s)).2 = 1 ∧ (decodeRune (a :: s)).1 = 0xFFFD ∧ quoteLoop pr 0 (a :: s) = b!"\\x" ++ hexDigits 2 a.toNat ++ quoteLoop pr 0 s) ∨
    ∃ r t, Scalar r ∧ a :: s = utf8Encode r ++ t ∧ t.length ≤ s.length ∧ quoteLoop pr 0 (a :: s) = escapeRune pr r ++ quoteLoop pr 0 t := by
  rcases decodeRune_spec a s with h | ⟨h, hs, t, ht⟩
  · left
    refine ⟨h.1, h.2, ?_⟩
    rw [quoteLoop, if_pos h, h.1]
  · right
    refine ⟨_, t, hs, ht, ?_, ?_⟩
    · have h0 : 0 < (utf8Encode (decodeRune (a :: s)).1).length := by
        unfold utf8Encode; grind
      have := congrArg List.length ht
      simp at this; omega
    · rw [quoteLoop]
      have hne : ¬ ((decodeRune (a :: s)).2 = 1 ∧ (decodeRune (a :: s)).1 = 0xFFFD) := by
        rintro ⟨h1, h2⟩
        rw [h1, h2] at h; exact absurd h (by decide)
      rw [if_neg hne]
      congr 1
      generalize hu : utf8Encode (decodeRune (a :: s)).1 = u at *
      cases u with
      | nil =>
        have : utf8Encode (decodeRune (a :: s)).1 ≠ [] := by unfold utf8Encode; grind
        exact absurd hu this
      | cons c u =>
        rw [h]
        simp only [List.cons_append, List.cons.injEq] at ht
        rw [ht.2]
        simpa using quoteLoop_drop pr u t

theorem unquote_quoteLoop (pr : Nat → Bool) (s t : Bytes) : unquote (quoteLoop pr 0 s ++ 34 :: t) = (s, t) := by
  generalize hn : s.length = n
  induction n using Nat.strongRecOn generalizing s with
  | ind n ih =>
    cases s with
    | nil => rfl
    | cons a s =>
      simp only [List.length_cons] at hn
      rcases quoteLoop_cons pr a s with ⟨-, -, h⟩ | ⟨r, t', hr, hs, hl, h⟩
      · rw [h, List.append_assoc, unquote_x a.toNat_lt, ih s.length (by omega) s rfl]
        simp
      · rw [h, List.append_assoc, unquote_rune pr hr, ih t'.length (by omega) t' rfl, hs]

/-- A quoted string at the head of a text is determined. -/
theorem quote_prefix (pr : Nat → Bool) {s s' t t' : Bytes} (h : quote pr s ++ t = quote pr s' ++ t') : s = s' ∧ t = t' := by
  simp only [quote, List.cons_append, List.append_assoc, List.nil_append, List.cons.injEq, true_and] at h
  have h1 := unquote_quoteLoop pr s t
  rw [h, unquote_quoteLoop] at h1
  simp only [Prod.mk.injEq] at h1
  exact ⟨h1.1.symm, h1.2.symm⟩

end Verif.Quote
