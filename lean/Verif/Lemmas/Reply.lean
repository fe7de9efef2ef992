import Verif.Lemmas.Request
import Verif.Lemmas.Resp
import Verif.Spec.Reply

/-! The texts of internal errors. -/

namespace Verif

open Spec

/-- A character that is no line break separates two texts. -/
theorem lineSafe_sep {x d : Bytes} {c : UInt8} (h1 : c ≠ 10) (h2 : c ≠ 13) : LineSafe (x ++ c :: d) ↔ LineSafe x ∧ LineSafe d := by
  induction x with
  | nil =>
    rw [List.nil_append, lineSafe_cons]
    exact ⟨fun h => ⟨lineSafe_nil, h.1⟩, fun h => ⟨h.2, fun e => h2 e.1, fun e => h1 e.1⟩⟩
  | cons a x ih =>
    rw [List.cons_append, lineSafe_cons, ih, lineSafe_cons]
    have : (x ++ c :: d).head? = some 10 ↔ x.head? = some 10 := by
      cases x with
      | nil => simp [h1]
      | cons b x => simp
    rw [this]
    tauto

theorem lineSafe_listed {xs : List Bytes} : LineSafe (listed xs) ↔ ∀ x ∈ xs, LineSafe x := by
  induction xs with
  | nil => simp [listed, lineSafe_nil]
  | cons x xs ih =>
    cases xs with
    | nil => simp [listed]
    | cons y ys =>
      have : listed (x :: y :: ys) = x ++ 32 :: listed (y :: ys) := by simp [listed]
      rw [this, lineSafe_sep (by decide) (by decide), ih]
      simp

theorem listed_join (xs : List Bytes) : Quote.join b!" " xs = listed xs := by
  induction xs with
  | nil => rfl
  | cons x xs ih =>
    cases xs with
    | nil => rfl
    | cons y ys => rw [Quote.join, listed, ih]; simp

theorem uintRange_iff (cs : Bytes) (n : Nat) (hn : n < 18446744073709551616) :
    Quote.uintRange n cs = true ↔ ∃ ds rest, cs = ds ++ rest ∧ (∀ c ∈ ds, IsDigit c) ∧ 18446744073709551616 ≤ valFrom n ds := by
  induction cs generalizing n with
  | nil =>
    simp only [Quote.uintRange, Bool.false_eq_true, false_iff]
    rintro ⟨ds, rest, h, -, hv⟩
    obtain ⟨rfl, rfl⟩ := List.append_eq_nil_iff.1 h.symm
    simp at hv; omega
  | cons c cs ih =>
    unfold Quote.uintRange
    by_cases hc : 48 ≤ c.toNat ∧ c.toNat ≤ 57
    · rw [if_pos hc]
      have one : 18446744073709551616 ≤ 10 * n + (c.toNat - 48) →
          ∃ ds rest, c :: cs = ds ++ rest ∧ (∀ c ∈ ds, IsDigit c) ∧ 18446744073709551616 ≤ valFrom n ds := fun h =>
        ⟨[c], cs, rfl, fun x hx => by rw [List.mem_singleton.1 hx]; exact hc, by simpa using h⟩
      by_cases h1 : n ≥ 1844674407370955162
      · rw [if_pos h1]
        exact ⟨fun _ => one (by omega), fun _ => rfl⟩
      · rw [if_neg h1]
        by_cases h2 : 10 * n + (c.toNat - 48) < 18446744073709551616
        · have e : (n * 10 + (c.toNat - 48)) % 18446744073709551616 = 10 * n + (c.toNat - 48) := by
            rw [Nat.mul_comm]; exact Nat.mod_eq_of_lt h2
          simp only [e]
          rw [if_neg (by omega), ih _ h2]
          constructor
          · rintro ⟨ds, rest, rfl, hd, hv⟩
            exact ⟨c :: ds, rest, rfl, fun x hx => by rcases List.mem_cons.1 hx with rfl | hx; exacts [hc, hd x hx], by simpa using hv⟩
          · rintro ⟨ds, rest, hs, hd, hv⟩
            cases ds with
            | nil => simp at hv; omega
            | cons b ds =>
              simp only [List.cons_append, List.cons.injEq] at hs
              obtain ⟨rfl, rfl⟩ := hs
              exact ⟨ds, rest, rfl, fun x hx => hd x (by simp [hx]), by simpa using hv⟩
        · simp only
          rw [if_pos (by omega)]
          exact ⟨fun _ => one (by omega), fun _ => rfl⟩
    · rw [if_neg hc]
      simp only [Bool.false_eq_true, false_iff]
      rintro ⟨ds, rest, hs, hd, hv⟩
      cases ds with
      | nil => simp at hv; omega
      | cons b ds =>
        simp only [List.cons_append, List.cons.injEq] at hs
        exact hc (hs.1 ▸ hd b (by simp))

theorem numeral_body {s : Bytes} {x : Int} (h : Numeral s x) : ∃ sign ds : Bytes, s = sign ++ ds ∧ (sign = [] ∨ sign = b!"+" ∨ sign = b!"-") ∧ ds ≠ [] ∧
    (∀ c ∈ ds, IsDigit c) := by
  cases h with
  | plain h1 h2 => exact ⟨[], _, rfl, .inl rfl, h1, h2⟩
  | plus h1 h2 => exact ⟨b!"+", _, rfl, .inr (.inl rfl), h1, h2⟩
  | minus h1 h2 => exact ⟨b!"-", _, rfl, .inr (.inr rfl), h1, h2⟩

/-- The text says what is wrong. -/
theorem intRange_iff {s : Bytes} (h : parseInt64 s = none) : Quote.intRange s = true ↔ TooBig s := by
  cases s with
  | nil =>
    simp only [Quote.intRange, Bool.false_eq_true, false_iff]
    rintro (⟨x, hx⟩ | ⟨sign, ds, rest, h1, -, -, h4⟩)
    · obtain ⟨sign, ds, h1, -, h3, -⟩ := numeral_body hx
      exact h3 (List.append_eq_nil_iff.1 h1.symm).2
    · have := (List.append_eq_nil_iff.1 (List.append_eq_nil_iff.1 h1.symm).1).2
      subst this
      simp [value] at h4
  | cons c cs =>
    have split : ∀ {sign ds : Bytes}, c :: cs = sign ++ ds → (sign = [] ∨ sign = b!"+" ∨ sign = b!"-") → (∀ d ∈ ds.head?, d ≠ 43 ∧ d ≠ 45) →
        (if (c == 43 || c == 45) = true then cs else c :: cs) = ds := by
      intro sign ds he hs hd
      rcases hs with rfl | rfl | rfl
      · rw [List.nil_append] at he
        subst he
        have := hd c (by simp)
        simp [this.1, this.2]
      · simp only [List.cons_append, List.nil_append, List.cons.injEq] at he
        obtain ⟨rfl, rfl⟩ := he; simp
      · simp only [List.cons_append, List.nil_append, List.cons.injEq] at he
        obtain ⟨rfl, rfl⟩ := he; simp
    simp only [Quote.intRange]
    have hb : ∃ sign, c :: cs = sign ++ (if (c == 43 || c == 45) = true then cs else c :: cs) ∧ (sign = [] ∨ sign = b!"+" ∨ sign = b!"-") := by
      by_cases h1 : c = 43
      · subst h1; exact ⟨b!"+", by simp, by simp⟩
      · by_cases h2 : c = 45
        · subst h2; exact ⟨b!"-", by simp, by simp⟩
        · exact ⟨[], by simp [h1, h2], by simp⟩
    obtain ⟨sign, he, hs⟩ := hb
    generalize hbe : (if (c == 43 || c == 45) = true then cs else c :: cs) = body at he split ⊢
    cases hp : parseUint body with
    | some un =>
      simp only [true_iff]
      obtain ⟨hne, hdig, -⟩ := parseUint_eq_some.1 hp
      left
      rcases hs with rfl | rfl | rfl <;> rw [he]
      · exact ⟨_, .plain hne hdig⟩
      · exact ⟨_, .plus hne hdig⟩
      · exact ⟨_, .minus hne hdig⟩
    | none =>
      simp only
      rw [uintRange_iff _ _ (by omega)]
      have two : (2 : Nat) ^ 64 = 18446744073709551616 := by decide
      constructor
      · rintro ⟨ds, rest, hd, h1, h2⟩
        exact .inr ⟨sign, ds, rest, by rw [he, hd, List.append_assoc], hs, h1, by rw [two]; exact h2⟩
      · rintro (⟨x, hx⟩ | ⟨sign', ds, rest, h1, h2, h3, h4⟩)
        · obtain ⟨sign', ds, h1, h2, h3, h4⟩ := numeral_body hx
          have hb := split h1 h2 (fun d hd => isDigit_ne_sign (h4 d (List.mem_of_mem_head? hd)))
          subst hb
          refine ⟨body, [], by simp, h4, ?_⟩
          by_contra hlt
          have := parseUint_eq_some.2 ⟨h3, h4, Nat.lt_of_not_le hlt, rfl⟩
          rw [hp] at this
          cases this
        · rw [two] at h4
          rw [List.append_assoc] at h1
          have hne : ds ≠ [] := by rintro rfl; simp [value] at h4
          have hb := split h1 h2 (fun d hd => by
            cases ds with
            | nil => exact absurd rfl hne
            | cons b ds =>
              simp only [List.cons_append, List.head?_cons, Option.mem_some_iff] at hd
              subst hd
              exact isDigit_ne_sign (h3 b (by simp)))
          exact ⟨ds, rest, hb, h3, h4⟩

theorem fmtHexAux_spec (f n : Nat) (h : n < 16 ^ f) (hf : 0 < f) : fmtHexAux f n ≠ [] ∧ (0 < n → (fmtHexAux f n).head? ≠ some 48) ∧
    ∀ c ∈ fmtHexAux f n, 48 ≤ c.toNat ∧ c.toNat ≤ 57 ∨ 97 ≤ c.toNat ∧ c.toNat ≤ 102 := by
  have hx : ∀ m < 16, (0 < m → Quote.lowerhex m ≠ 48) ∧ (48 ≤ (Quote.lowerhex m).toNat ∧ (Quote.lowerhex m).toNat ≤ 57 ∨
      97 ≤ (Quote.lowerhex m).toNat ∧ (Quote.lowerhex m).toNat ≤ 102) := by decide
  induction f generalizing n with
  | zero => omega
  | succ f ih =>
    unfold fmtHexAux
    split
    · rename_i h1
      refine ⟨by simp, fun h0 => ?_, ?_⟩
      · simpa using (hx n h1).1 h0
      · simpa using (hx n h1).2
    · rename_i h1
      have hf : 0 < f := by
        rcases Nat.eq_zero_or_pos f with rfl | h
        · simp at h; omega
        · exact h
      have hlt : n / 16 < 16 ^ f := by
        rw [Nat.div_lt_iff_lt_mul (by omega)]; rw [Nat.pow_succ] at h; omega
      obtain ⟨h2, h3, h4⟩ := ih (n / 16) hlt hf
      refine ⟨by simp, fun _ => ?_, ?_⟩
      · rw [List.head?_append_of_ne_nil _ h2]
        exact h3 (by omega)
      · intro c hc
        rcases List.mem_append.1 hc with hc | hc
        · exact h4 c hc
        · rw [List.mem_singleton.1 hc]
          exact (hx _ (Nat.mod_lt _ (by omega))).2

theorem pointer_fmt (a : Nat) : Pointer (fmtPointer a) := by
  unfold fmtPointer
  split
  · exact .inl rfl
  · obtain ⟨h1, h2, h3⟩ := fmtHexAux_spec (a + 1) a (by
      calc a < 2 ^ a := Nat.lt_two_pow_self
        _ ≤ 16 ^ a := Nat.pow_le_pow_left (by omega) a
        _ ≤ 16 ^ (a + 1) := Nat.pow_le_pow_right (by omega) (by omega)) (by omega)
    exact .inr ⟨_, rfl, h1, h2 (by omega), h3⟩

theorem pointer_noLF {p : Bytes} (h : Pointer p) : (10 : UInt8) ∉ p := by
  rcases h with rfl | ⟨ds, rfl, -, -, h⟩
  · decide
  · intro hc
    rcases List.mem_append.1 hc with hc | hc
    · revert hc; decide
    · have := h 10 hc; simp at this

/-- The commands whose `Execute` ends in an internal error, and its text. -/
theorem exec_internal {env : Env} {st st' : State} {a : DB} {c : Command} {m : Bytes} (h : Abs st a) (ho : env.ord.Fair) (hv : Valid c)
    (he : execute env st c = .ok (st', .error (.internal m))) :
    (∃ k v, (c = .incr k v ∨ c = .decr k v) ∧ parseInt64 v = none ∧ m = Quote.numError env.table v) ∨
    (∃ vs, (c = .lpush [] vs ∨ c = .rpush [] vs) ∧ m = b!"nil access object") ∨ (∃ vs, c = .mset [] vs ∧ m = b!"nil access object") := by
  obtain ⟨out, hs, hm⟩ := exec_refines h ho hv
  rw [he] at hm
  cases out with
  | none => simp [Sim] at hm
  | some p =>
    obtain ⟨a', v⟩ := p
    simp only [Sim] at hm
    obtain ⟨rfl, -⟩ := hm
    cases c
    case incr k v =>
      refine .inl ⟨k, v, .inl rfl, ?_⟩
      have : parseInt64 v = none := by
        simp only [Step, AddStep, done, fails] at hs
        rcases hs with ⟨_, _, _, _, _, _, _, _, _, _, hx⟩ | ⟨hx, -⟩ | ⟨-, -, hx⟩ | ⟨-, -, hx⟩
        · simp at hx
        · exact not_isInt_iff.1 hx
        · simp at hx
        · simp at hx
      simp only [execute, Exec.incr, this, Outcome.ok.injEq, Prod.mk.injEq, Except.error.injEq, CmdErr.internal.injEq] at he
      exact ⟨this, he.2.symm⟩
    case decr k v =>
      refine .inl ⟨k, v, .inr rfl, ?_⟩
      have : parseInt64 v = none := by
        simp only [Step, AddStep, done, fails] at hs
        rcases hs with ⟨_, _, _, _, _, _, _, _, _, _, hx⟩ | ⟨hx, -⟩ | ⟨-, -, hx⟩ | ⟨-, -, hx⟩
        · simp at hx
        · exact not_isInt_iff.1 hx
        · simp at hx
        · simp at hx
      simp only [execute, Exec.decr, this, Outcome.ok.injEq, Prod.mk.injEq, Except.error.injEq, CmdErr.internal.injEq] at he
      exact ⟨this, he.2.symm⟩
    case mset ks vs =>
      by_cases hk : ks = []
      · subst hk
        simp only [execute, Exec.mset, if_true, nilAccess, Outcome.ok.injEq, Prod.mk.injEq, Except.error.injEq, CmdErr.internal.injEq] at he
        exact .inr (.inr ⟨vs, rfl, he.2.symm⟩)
      · simp [Step, hk, done] at hs
    case lpush k vs =>
      by_cases hk : k = []
      · subst hk
        simp only [execute, Exec.lpush, State.getOrCreateList, if_true, nilAccess, Outcome.ok.injEq, Prod.mk.injEq, Except.error.injEq,
          CmdErr.internal.injEq] at he
        exact .inr (.inl ⟨vs, .inl rfl, he.2.symm⟩)
      · simp [Step, hk, done] at hs
    case rpush k vs =>
      by_cases hk : k = []
      · subst hk
        simp only [execute, Exec.rpush, State.getOrCreateList, if_true, nilAccess, Outcome.ok.injEq, Prod.mk.injEq, Except.error.injEq,
          CmdErr.internal.injEq] at he
        exact .inr (.inl ⟨vs, .inr rfl, he.2.symm⟩)
      · simp [Step, hk, done] at hs
    all_goals exfalso; simp only [Step, done, fails] at hs
    all_goals grind

end Verif
