import Verif.Lemmas.Refine

/-! The decimal form of an integer is unique. -/

namespace Verif

open Spec

theorem value_append (ds : Bytes) (d : UInt8) : value (ds ++ [d]) = 10 * value ds + (d.toNat - 48) := by
  simp [value]

theorem value_pos {ds : Bytes} (hd : ∀ c ∈ ds, IsDigit c) {c : UInt8} {t : Bytes} (e : ds = c :: t) (hc : c ≠ 48) : 0 < value ds := by
  induction ds using List.reverseRecOn generalizing c t with
  | nil => cases e
  | append_singleton xs x ih =>
    rw [value_append]
    cases xs with
    | nil =>
      simp at e
      obtain ⟨rfl, rfl⟩ := e
      have h1 := hd x (by simp)
      have h2 : x.toNat ≠ 48 := fun h => hc (UInt8.toNat_inj.1 h)
      unfold IsDigit at h1
      omega
    | cons y ys =>
      have := ih (c := y) (t := ys) (fun z hz => hd z (List.mem_append_left _ hz)) rfl (by
        simp at e; rw [e.1]; exact hc)
      omega

theorem digits_unique {ds es : Bytes} (hd : ∀ c ∈ ds, IsDigit c) (he : ∀ c ∈ es, IsDigit c)
    (hds : ∀ c t, ds = c :: t → c ≠ 48) (hes : ∀ c t, es = c :: t → c ≠ 48) (hv : value ds = value es) : ds = es := by
  induction ds using List.reverseRecOn generalizing es with
  | nil =>
    cases es with
    | nil => rfl
    | cons c t => have := value_pos he rfl (hes c t rfl); rw [← hv] at this; simp [value] at this
  | append_singleton xs x ih =>
    rcases List.eq_nil_or_concat es with rfl | ⟨ys, y, rfl⟩
    · cases hx : xs ++ [x] with
      | nil => simp at hx
      | cons c t => have := value_pos hd hx (hds c t hx); rw [hv] at this; simp [value] at this
    · rw [List.concat_eq_append] at *
      rw [value_append, value_append] at hv
      have h1 := hd x (by simp)
      have h2 := he y (by simp)
      unfold IsDigit at h1 h2
      have hxy : x = y := UInt8.toNat_inj.1 (by omega)
      have hvv : value xs = value ys := by omega
      subst hxy
      rw [ih (es := ys) (fun c hc => hd c (by simp [hc])) (fun c hc => he c (by simp [hc])) ?_ ?_ hvv]
      · intro c t hct; exact hds c (t ++ [x]) (by rw [hct]; rfl)
      · intro c t hct; exact hes c (t ++ [x]) (by rw [hct]; rfl)

theorem digit_not_sign {c : UInt8} (h : IsDigit c) : c ≠ 43 ∧ c ≠ 45 := by
  constructor <;> rintro rfl <;> simp [IsDigit] at h

/-- An integer has only one decimal form. -/
theorem decimal_unique {s t : Bytes} {v : Int} (hs : Decimal s v) (ht : Decimal t v) : s = t := by
  have key : ∀ {s : Bytes} {v : Int}, Decimal s v → (s = [48] ∧ v = 0) ∨
      (∃ ds, s = ds ∧ (∀ c ∈ ds, IsDigit c) ∧ (∀ c t, ds = c :: t → c ≠ 48) ∧ v = value ds ∧ 0 < value ds) ∨
      (∃ ds, s = 45 :: ds ∧ (∀ c ∈ ds, IsDigit c) ∧ (∀ c t, ds = c :: t → c ≠ 48) ∧ v = -(value ds : Int) ∧ 0 < value ds) := by
    rintro s v ⟨hn, h⟩
    rcases h with rfl | ⟨c, ds, h1, h2, h⟩
    · left
      refine ⟨rfl, ?_⟩
      cases hn with
      | plain _ _ => rfl
    · right
      rcases h with rfl | ⟨h3, rfl⟩
      · right
        cases hn with
        | plain _ hd => exact absurd (hd 45 (by simp)) (fun h => (digit_not_sign h).2 rfl)
        | minus _ hd =>
          exact ⟨c :: ds, rfl, hd, by rintro c' t h; cases h; exact h1, rfl, value_pos hd rfl h1⟩
      · left
        cases hn with
        | plain _ hd => exact ⟨c :: ds, rfl, hd, by rintro c' t h; cases h; exact h1, rfl, value_pos hd rfl h1⟩
        | plus _ _ => exact absurd rfl h2
        | minus _ _ => exact absurd rfl h3
  rcases key hs with ⟨rfl, rfl⟩ | ⟨ds, rfl, h1, h2, h3, h4⟩ | ⟨ds, rfl, h1, h2, h3, h4⟩ <;>
  rcases key ht with ⟨rfl, h⟩ | ⟨es, rfl, g1, g2, g3, g4⟩ | ⟨es, rfl, g1, g2, g3, g4⟩
  · rfl
  · omega
  · omega
  · omega
  · exact digits_unique h1 g1 h2 g2 (by omega)
  · omega
  · omega
  · omega
  · rw [digits_unique h1 g1 h2 g2 (by omega)]

theorem decimal_eq {s : Bytes} {v : Int} (h : Decimal s v) : s = fmtInt v := decimal_unique h (decimal_fmtInt v)

theorem decimal_isInt {s : Bytes} {v : Int} (h : Decimal s v) (hv : InInt64 v) : IsInt s v := ⟨h.1, hv⟩

theorem isInt_unique {s : Bytes} {v w : Int} (h : IsInt s v) (h' : IsInt s w) : v = w := by
  have := (isInt_iff.1 h).symm.trans (isInt_iff.1 h'); simpa using this

theorem wraps_exact {x r : Int} (h : Wraps x r) (hx : InInt64 x) : r = x := by
  obtain ⟨hr, q, rfl⟩ := h
  unfold InInt64 at *
  have : (2 : Int) ^ 64 = 18446744073709551616 := by decide
  rw [this] at hr ⊢
  simp only [minInt64, maxInt64] at *
  omega

theorem wraps_unique {x r r' : Int} (h : Wraps x r) (h' : Wraps x r') : r = r' := by
  obtain ⟨hr, q, rfl⟩ := h
  obtain ⟨hr', q', rfl⟩ := h'
  have : (2 : Int) ^ 64 = 18446744073709551616 := by decide
  unfold InInt64 at *
  rw [this] at *
  simp only [minInt64, maxInt64] at *
  omega

theorem wraps_trans {x y r r' : Int} (h : Wraps x r) (h' : Wraps (r + y) r') : Wraps (x + y) r' := by
  obtain ⟨hr, q, rfl⟩ := h
  obtain ⟨hr', q', rfl⟩ := h'
  refine ⟨hr', q + q', ?_⟩
  have : (2 : Int) ^ 64 = 18446744073709551616 := by decide
  rw [this]; omega

end Verif
