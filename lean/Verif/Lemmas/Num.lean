import Verif.Model.Num
import Verif.Spec.Num

/-! Helper lemmas on decimal numerals. -/

namespace Verif

open Spec (IsDigit value Numeral)

theorem wrap64_of_in {x : Int} (h : InInt64 x) : wrap64 x = x := by
  unfold InInt64 minInt64 maxInt64 at h; unfold wrap64; omega

theorem wrap64_in (x : Int) : InInt64 (wrap64 x) := by
  unfold InInt64 minInt64 maxInt64 wrap64; omega

def valFrom (n : Nat) (ds : Bytes) : Nat := ds.foldl (fun n c => 10 * n + (c.toNat - 48)) n

@[simp] theorem valFrom_nil (n : Nat) : valFrom n [] = n := by simp only [valFrom, List.foldl_nil]
@[simp] theorem valFrom_cons (n : Nat) (c : UInt8) (ds : Bytes) :
    valFrom n (c :: ds) = valFrom (10 * n + (c.toNat - 48)) ds := by
  simp only [valFrom, List.foldl_cons]
theorem valFrom_append (n : Nat) (a b : Bytes) : valFrom n (a ++ b) = valFrom (valFrom n a) b := by
  simp [valFrom]

theorem le_valFrom (n : Nat) (ds : Bytes) : n ≤ valFrom n ds := by
  induction ds generalizing n with
  | nil => simp
  | cons c ds ih => have := ih (10 * n + (c.toNat - 48)); simp; omega

theorem parseUintLoop_eq (ds : Bytes) (n : Nat) (hn : n < 18446744073709551616) :
    parseUintLoop n ds =
      if (∀ c ∈ ds, IsDigit c) ∧ valFrom n ds < 18446744073709551616 then some (valFrom n ds) else none := by
  induction ds generalizing n with
  | nil => simp [parseUintLoop, hn]
  | cons c ds ih =>
    unfold parseUintLoop
    by_cases hc : 48 ≤ c.toNat ∧ c.toNat ≤ 57
    · have hd : IsDigit c := hc
      have hle := le_valFrom (10 * n + (c.toNat - 48)) ds
      rw [if_pos hc]
      by_cases h1 : n ≥ 1844674407370955162
      · have : ¬ (valFrom n (c :: ds) < 18446744073709551616) := by simp; omega
        simp [h1]; intros; simp at this; omega
      · simp only [h1, if_false]
        by_cases h2 : 10 * n + (c.toNat - 48) < 18446744073709551616
        · have e : (n * 10 + (c.toNat - 48)) % 18446744073709551616 = 10 * n + (c.toNat - 48) := by
            rw [Nat.mul_comm]; exact Nat.mod_eq_of_lt h2
          rw [e, if_neg (by omega), ih _ h2]
          simp [hd]
        · have : ¬ (valFrom n (c :: ds) < 18446744073709551616) := by simp; omega
          rw [if_pos (by omega)]
          simp; intros; simp at this; omega
    · have hd : ¬ IsDigit c := hc
      simp [hc, hd]

theorem parseUint_eq_some {ds : Bytes} {n : Nat} :
    parseUint ds = some n ↔
      ds ≠ [] ∧ (∀ c ∈ ds, IsDigit c) ∧ value ds < 18446744073709551616 ∧ value ds = n := by
  cases ds with
  | nil => simp [parseUint]
  | cons c ds =>
    simp only [parseUint]
    rw [parseUintLoop_eq _ _ (by omega)]
    have : valFrom 0 (c :: ds) = value (c :: ds) := rfl
    rw [this]
    split <;> rename_i h
    · simp only [Option.some.injEq]
      constructor
      · intro e; exact ⟨by simp, h.1, h.2, e⟩
      · intro e; exact e.2.2.2
    · constructor
      · intro e; cases e
      · intro e; exact absurd ⟨e.2.1, e.2.2.1⟩ h

theorem isDigit_ne_sign {c : UInt8} (h : IsDigit c) : c ≠ 43 ∧ c ≠ 45 := by
  unfold IsDigit at h
  constructor <;> (rintro rfl; simp at h)

/-- Exact meaning of the parser. -/
theorem parseInt64_eq_some {s : Bytes} {v : Int} :
    parseInt64 s = some v ↔ Numeral s v ∧ InInt64 v := by
  constructor
  · intro h
    cases s with
    | nil => simp [parseInt64] at h
    | cons c cs =>
      simp only [parseInt64] at h
      generalize hb : (if (c == 43 || c == 45) = true then cs else c :: cs) = body at h
      cases hp : parseUint body with
      | none => simp [hp] at h
      | some un =>
        rw [hp] at h
        obtain ⟨hne, hdig, hlt, hv⟩ := parseUint_eq_some.1 hp
        simp only at h
        by_cases hneg : c = 45
        · subst hneg
          simp at hb h; subst hb
          obtain ⟨h1, h2⟩ := h
          subst h2; subst hv
          refine ⟨Numeral.minus hne hdig, ?_⟩
          unfold InInt64 minInt64 maxInt64; omega
        · have hnb : (c == 45) = false := by simpa using hneg
          simp [hnb] at h hb
          obtain ⟨h1, h2⟩ := h
          subst h2; subst hv
          by_cases hplus : c = 43
          · subst hplus; simp at hb; subst hb
            refine ⟨Numeral.plus hne hdig, ?_⟩
            unfold InInt64 minInt64 maxInt64; omega
          · simp [hplus] at hb; subst hb
            refine ⟨Numeral.plain hne hdig, ?_⟩
            unfold InInt64 minInt64 maxInt64; omega
  · rintro ⟨hn, hr⟩
    unfold InInt64 minInt64 maxInt64 at hr
    cases hn with
    | @plain ds hne hdig =>
      cases hs : s with
      | nil => exact absurd hs hne
      | cons c cs =>
        have hc := isDigit_ne_sign (hdig c (by rw [hs]; simp))
        simp only [parseInt64]
        have e1 : (c == 43) = false := by simpa using hc.1
        have e2 : (c == 45) = false := by simpa using hc.2
        simp only [e1, e2, Bool.or_self, Bool.false_eq_true, if_false]
        have hp : parseUint s = some (value s) :=
          parseUint_eq_some.2 ⟨hne, hdig, by omega, rfl⟩
        rw [hs] at hp hr
        rw [hp]; simp; omega
    | @plus ds hne hdig =>
      have hp : parseUint ds = some (value ds) :=
          parseUint_eq_some.2 ⟨hne, hdig, by omega, rfl⟩
      simp [parseInt64, hp]; omega
    | @minus ds hne hdig =>
      have hp : parseUint ds = some (value ds) :=
          parseUint_eq_some.2 ⟨hne, hdig, by omega, rfl⟩
      simp [parseInt64, hp]; omega

theorem fmtNatAux_spec (f n : Nat) (h : n < f) :
    fmtNatAux f n ≠ [] ∧ (∀ c ∈ fmtNatAux f n, IsDigit c) ∧ valFrom 0 (fmtNatAux f n) = n := by
  induction f generalizing n with
  | zero => omega
  | succ f ih =>
    unfold fmtNatAux
    split
    · rename_i hn
      have : (UInt8.ofNat (48 + n)).toNat = 48 + n := by
        rw [UInt8.toNat_ofNat']; omega
      refine ⟨by simp, ?_, ?_⟩
      · simp [IsDigit, this]; omega
      · simp only [valFrom_cons, valFrom_nil, this]; omega
    · rename_i hn
      obtain ⟨h1, h2, h3⟩ := ih (n / 10) (by omega)
      have : (UInt8.ofNat (48 + n % 10)).toNat = 48 + n % 10 := by
        rw [UInt8.toNat_ofNat']; omega
      refine ⟨by simp, ?_, ?_⟩
      · intro c hc
        rcases List.mem_append.1 hc with hc | hc
        · exact h2 c hc
        · simp at hc; subst hc; simp [IsDigit, this]; omega
      · rw [valFrom_append, h3]; simp only [valFrom_cons, valFrom_nil, this]; omega

theorem fmtNat_spec (n : Nat) :
    fmtNat n ≠ [] ∧ (∀ c ∈ fmtNat n, IsDigit c) ∧ value (fmtNat n) = n :=
  fmtNatAux_spec (n + 1) n (by omega)

theorem numeral_fmtInt (n : Int) : Numeral (fmtInt n) n := by
  cases n with
  | ofNat k =>
    obtain ⟨h1, h2, h3⟩ := fmtNat_spec k
    have := Numeral.plain h1 h2
    rw [h3] at this; exact this
  | negSucc k =>
    obtain ⟨h1, h2, h3⟩ := fmtNat_spec (k + 1)
    have := Numeral.minus h1 h2
    rw [h3] at this
    exact this

theorem parseInt64_fmtInt {n : Int} (h : InInt64 n) : parseInt64 (fmtInt n) = some n :=
  parseInt64_eq_some.2 ⟨numeral_fmtInt n, h⟩

theorem parseInt64_in {s : Bytes} {v : Int} (h : parseInt64 s = some v) : InInt64 v :=
  (parseInt64_eq_some.1 h).2

/-- The bytes of a formatted integer never include CR or LF. -/
theorem fmtInt_chars (n : Int) : ∀ c ∈ fmtInt n, c = 45 ∨ IsDigit c := by
  cases n with
  | ofNat k => intro c hc; exact Or.inr ((fmtNat_spec k).2.1 c hc)
  | negSucc k =>
    intro c hc
    simp only [fmtInt, List.mem_cons] at hc
    rcases hc with rfl | hc
    · exact Or.inl rfl
    · exact Or.inr ((fmtNat_spec (k + 1)).2.1 c hc)

theorem fmtInt_ne_nil (n : Int) : fmtInt n ≠ [] := by
  cases n with
  | ofNat k => exact (fmtNat_spec k).1
  | negSucc k => simp [fmtInt]

theorem fmtInt_inj {m n : Int} (h : fmtInt m = fmtInt n) : m = n := by
  have hm := numeral_fmtInt m
  have hn := numeral_fmtInt n
  cases m with
  | ofNat a =>
    cases n with
    | ofNat b =>
      have : fmtNat a = fmtNat b := h
      have e := congrArg value this
      rw [(fmtNat_spec a).2.2, (fmtNat_spec b).2.2] at e; rw [e]
    | negSucc b =>
      have h' : fmtNat a = 45 :: fmtNat (b + 1) := h
      have := (fmtNat_spec a).2.1 45 (by rw [h']; simp)
      exact absurd rfl (isDigit_ne_sign this).2
  | negSucc a =>
    cases n with
    | ofNat b =>
      have h' : 45 :: fmtNat (a + 1) = fmtNat b := h
      have := (fmtNat_spec b).2.1 45 (by rw [← h']; simp)
      exact absurd rfl (isDigit_ne_sign this).2
    | negSucc b =>
      have h' : 45 :: fmtNat (a + 1) = 45 :: fmtNat (b + 1) := h
      have e := congrArg value (List.cons.inj h').2
      rw [(fmtNat_spec _).2.2, (fmtNat_spec _).2.2] at e
      have : a = b := by omega
      rw [this]

end Verif
