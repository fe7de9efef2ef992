import Verif.Model.Cost
import Verif.Spec.Cost
import Verif.Props.Wire

/-! C74: what a request costs. -/

namespace Verif.Props

open Spec Cost

theorem readIn_succ (k : Nat) (s : Bytes) : readIn (k + 1) s = step (itemsIn (readIn k)) s := by
  unfold readIn step; rfl

theorem itemsIn_stuck {rd : Bytes → ReadRes Resp} (hl : ∀ s o r, rd s = .ok o r → r.length ≤ s.length) :
    ∀ (n : Nat) (s : Bytes), itemsIn rd n s = .stuck → ∃ s', s'.length ≤ s.length ∧ rd s' = .stuck := by
  intro n
  induction n with
  | zero => intro s h; simp [itemsIn] at h
  | succ n ih =>
    intro s h
    simp only [itemsIn] at h
    cases e : rd s with
    | stuck => exact ⟨s, Nat.le_refl _, e⟩
    | ok o r =>
      rw [e] at h
      simp only at h
      cases e' : itemsIn rd n r with
      | stuck =>
        obtain ⟨s', h1, h2⟩ := ih r e'
        exact ⟨s', Nat.le_trans h1 (hl _ _ _ e), h2⟩
      | _ => simp [e'] at h
    | _ => simp [e] at h

theorem itemsIn_length {rd : Bytes → ReadRes Resp} (hl : ∀ s o r, rd s = .ok o r → r.length ≤ s.length) :
    ∀ (n : Nat) (s : Bytes) (os : List Resp) (r : Bytes), itemsIn rd n s = .ok os r → r.length ≤ s.length := by
  intro n
  induction n with
  | zero => intro s os r h; simp [itemsIn] at h; rw [h.2]
  | succ n ih =>
    intro s os r h
    simp only [itemsIn] at h
    cases e : rd s with
    | ok o r' =>
      rw [e] at h
      simp only at h
      cases e' : itemsIn rd n r' with
      | ok os' r'' =>
        simp [e'] at h
        have := ih _ _ _ e'
        have := hl _ _ _ e
        rw [← h.2]; omega
      | _ => simp [e'] at h
    | _ => simp [e] at h

theorem readIn_length : ∀ (k : Nat) (s : Bytes) (o : Resp) (r : Bytes), readIn k s = .ok o r → r.length ≤ s.length := by
  intro k
  induction k with
  | zero => intro s o r h; simp [readIn] at h
  | succ k ih =>
    intro s o r h
    rw [readIn_succ] at h
    have := step_length (fun n s os r => itemsIn_length ih n s os r) h
    omega

theorem itemsIn_parse {rd : Bytes → ReadRes Resp} (h : ∀ s, rd s ≠ .stuck → rd s = parse s) :
    ∀ (n : Nat) (s : Bytes), itemsIn rd n s ≠ .stuck → itemsIn rd n s = parseItems n s := by
  intro n
  induction n with
  | zero => intro s _; rw [parseItems_zero]; rfl
  | succ n ih =>
    intro s hs
    rw [parseItems_succ]
    simp only [itemsIn] at hs ⊢
    by_cases e : rd s = .stuck
    · simp [e] at hs
    · rw [h s e] at hs ⊢
      cases e' : parse s with
      | ok o r =>
        rw [e'] at hs
        simp only at hs ⊢
        by_cases e2 : itemsIn rd n r = .stuck
        · simp [e2] at hs
        · rw [ih r e2]
          cases parseItems n r <;> rfl
      | _ => rfl

/-- Where two continuations agree unless the first is stuck, so do the steps. -/
theorem stepBody_unless {k k' : Nat → Bytes → ReadRes (List Resp)} {c : UInt8} {d rest : Bytes}
    (hk : ∀ n, k n rest ≠ .stuck → k n rest = k' n rest) (h : stepBody k c d rest ≠ .stuck) : stepBody k c d rest = stepBody k' c d rest := by
  unfold stepBody at h ⊢
  split; · rfl
  split; · rfl
  split; · rfl
  split; · rfl
  split
  · rename_i h1 h2 h3 h4 h5
    rw [if_neg h1, if_neg h2, if_neg h3, if_neg h4, if_pos h5] at h
    cases e : parseInt64 d with
    | none => rfl
    | some n =>
      rw [e] at h
      simp only at h ⊢
      split
      · rfl
      · rename_i hn
        rw [if_neg hn] at h
        by_cases e2 : k n.toNat rest = .stuck
        · rw [e2] at h; exact absurd rfl h
        · rw [hk _ e2]
  · rfl

theorem readIn_parse : ∀ (k : Nat) (s : Bytes), readIn k s ≠ .stuck → readIn k s = parse s := by
  intro k
  induction k with
  | zero => intro s h; exact absurd rfl h
  | succ k ih =>
    intro s h
    rw [readIn_succ] at h ⊢
    rw [parse_eq]
    rcases step_cases (itemsIn (readIn k)) s with ⟨e, e1⟩ | ⟨e, e1⟩ | ⟨rest, rfl, e1⟩ | ⟨c, d, rest, rfl, h1, h2, e1⟩
    · rw [e1]; simp [step, e]
    · rw [e1]; simp [step, e]
    · rw [e1]
      have ht := readToken_token (v := []) (rest := rest) lineSafe_nil (by simp)
      simp only [List.nil_append] at ht
      simp [step, ht]
    · rw [e1] at h ⊢
      rw [step_token _ h1 h2]
      exact stepBody_unless (fun n hn => itemsIn_parse ih n rest hn) h

theorem parseInt64_cons {d : Bytes} {n : Int} (h : parseInt64 d = some n) : 1 ≤ d.length := by
  cases d with
  | nil => simp [parseInt64] at h
  | cons c d => simp

theorem stepBody_stuck {k : Nat → Bytes → ReadRes (List Resp)} {c : UInt8} {d rest : Bytes} (h : stepBody k c d rest = .stuck) :
    1 ≤ d.length ∧ ∃ n, k n rest = .stuck := by
  unfold stepBody at h
  split at h; · simp at h
  split at h; · exact absurd h (readBulk_not_stuck _ _)
  split at h; · simp at h
  split at h; · split at h <;> simp at h
  split at h
  · cases e : parseInt64 d with
    | none => simp [e] at h
    | some n =>
      rw [e] at h
      simp only at h
      split at h
      · simp at h
      · refine ⟨parseInt64_cons e, n.toNat, ?_⟩
        cases e2 : k n.toNat rest with
        | stuck => rfl
        | _ => simp [e2, arrMap, ReadRes.mapR] at h
  · simp at h

theorem readIn_stuck : ∀ (k : Nat) (s : Bytes), readIn k s = .stuck → 4 * k ≤ s.length := by
  intro k
  induction k with
  | zero => intro s _; omega
  | succ k ih =>
    intro s h
    rw [readIn_succ] at h
    rcases step_cases (itemsIn (readIn k)) s with ⟨e, e1⟩ | ⟨e, e1⟩ | ⟨rest, rfl, e1⟩ | ⟨c, d, rest, rfl, h1, h2, e1⟩
    · simp [e1] at h
    · simp [e1] at h
    · simp [e1] at h
    · rw [e1] at h
      obtain ⟨hd, n, hn⟩ := stepBody_stuck h
      obtain ⟨s', hs, hk⟩ := itemsIn_stuck (readIn_length k) n rest hn
      have := ih s' hk
      simp; omega

theorem readIn_header (k : Nat) {c : UInt8} {t rest : Bytes} (hc : c ≠ 13) (hc' : c ≠ 10) (h : LineSafe t) :
    readIn (k + 1) ([c] ++ t ++ [13, 10] ++ rest) = stepBody (itemsIn (readIn k)) c t rest := by
  rw [readIn_succ]
  have := step_token (itemsIn (readIn k)) (rest := rest) (lineSafe_marker hc hc' h) hc'
  simpa using this

theorem stepBody_leaf (k k' : Nat → Bytes → ReadRes (List Resp)) {c : UInt8} (hc : c ≠ 42) (d rest : Bytes) :
    stepBody k c d rest = stepBody k' c d rest := by
  unfold stepBody
  simp [hc]

theorem readIn_leaf (k : Nat) {c : UInt8} {t rest : Bytes} {o : Resp} {r : Bytes} (hc : c ≠ 13) (hc' : c ≠ 10) (h : LineSafe t) (h42 : c ≠ 42)
    (hp : parse ([c] ++ t ++ [13, 10] ++ rest) = .ok o r) : readIn (k + 1) ([c] ++ t ++ [13, 10] ++ rest) = .ok o r := by
  rw [parse_header hc hc' h] at hp
  rw [readIn_header k hc hc' h, stepBody_leaf _ parseItems h42, hp]

theorem levels_pos (o : Resp) : 1 ≤ levels o := by cases o <;> simp [levels]

mutual
theorem taken_readIn : ∀ {o : Resp} {b : Bytes}, Taken o b → ∀ k rest, readIn k (b ++ rest) = if levels o ≤ k then .ok o rest else .stuck
  | o, _, _, 0, rest => by
    have := levels_pos o
    rw [if_neg (by omega)]; rfl
  | _, _, .simple h, k + 1, rest => by
    rw [readIn_leaf k (by decide) (by decide) h (by decide) (taken_parse (.simple h) rest)]; simp [levels]
  | _, _, .error h, k + 1, rest => by
    rw [readIn_leaf k (by decide) (by decide) h (by decide) (taken_parse (.error h) rest)]; simp [levels]
  | _, _, .int h, k + 1, rest => by
    rw [readIn_leaf k (by decide) (by decide) (isInt_safe h) (by decide) (taken_parse (.int h) rest)]; simp [levels]
  | _, _, .bulk (d := d) (t := t) x y h hd, k + 1, rest => by
    have hp := taken_parse (.bulk x y h hd) rest
    rw [show b!"$" ++ t ++ b!"\r\n" ++ d ++ [x, y] ++ rest = [36] ++ t ++ [13, 10] ++ (d ++ [x, y] ++ rest) by simp] at hp ⊢
    rw [readIn_leaf k (by decide) (by decide) (isInt_safe h) (by decide) hp]; simp [levels]
  | _, _, .nullBulk h, k + 1, rest => by
    rw [readIn_leaf k (by decide) (by decide) (isInt_safe h) (by decide) (taken_parse (.nullBulk h) rest)]; simp [levels]
  | _, _, .array (items := items) (t := t) (b := b) h hn hl hi, k + 1, rest => by
    rw [show b!"*" ++ t ++ b!"\r\n" ++ b ++ rest = [42] ++ t ++ [13, 10] ++ (b ++ rest) by simp,
      readIn_header k (by decide) (by decide) (isInt_safe h)]
    simp only [stepBody, isInt_iff.1 h, if_neg hn, hl, takenAll_itemsIn hi k rest]
    by_cases hk : levelsAll items ≤ k
    · have h2 : levels (.array items) ≤ k + 1 := by simp only [levels]; omega
      simp [hk, h2, arrMap, ReadRes.mapR]
    · have h2 : ¬ levels (.array items) ≤ k + 1 := by simp only [levels]; omega
      simp [hk, h2, arrMap, ReadRes.mapR]
  | _, _, .nullArray h, k + 1, rest => by
    rw [readIn_header k (by decide) (by decide) (isInt_safe h)]; simp [stepBody, isInt_iff.1 h, levels]
theorem takenAll_itemsIn : ∀ {os : List Resp} {b : Bytes}, TakenAll os b → ∀ k rest,
    itemsIn (readIn k) os.length (b ++ rest) = if levelsAll os ≤ k then .ok os rest else .stuck
  | _, _, .nil, k, rest => by simp [itemsIn, levelsAll]
  | _, _, .cons (o := o) (os := os) h hs, k, rest => by
    rw [List.length_cons, List.append_assoc]
    simp only [itemsIn, taken_readIn h k]
    by_cases h1 : levels o ≤ k
    · rw [if_pos h1]
      simp only [takenAll_itemsIn hs k rest]
      by_cases h2 : levelsAll os ≤ k
      · rw [if_pos h2, if_pos (by simp [levelsAll]; omega)]
      · rw [if_neg h2, if_neg (by simp [levelsAll]; omega)]
    · rw [if_neg h1, if_neg (by simp [levelsAll]; omega)]
end

/-! ## Sizes -/

theorem fmtNatAux_length : ∀ (f n L : Nat), n < 10 ^ L → 1 ≤ L → (fmtNatAux f n).length ≤ L := by
  intro f
  induction f with
  | zero => intro n L _ _; simp [fmtNatAux]
  | succ f ih =>
    intro n L hn hL
    unfold fmtNatAux
    split
    · simpa using hL
    · obtain ⟨M, rfl⟩ : ∃ M, L = M + 1 := ⟨L - 1, by omega⟩
      have hM : 1 ≤ M := by
        rcases Nat.eq_zero_or_pos M with rfl | h
        · simp at hn; omega
        · exact h
      have : n / 10 < 10 ^ M := by
        rw [Nat.pow_succ] at hn
        exact (Nat.div_lt_iff_lt_mul (by decide)).2 hn
      have := ih _ _ this hM
      simp; omega

theorem valFrom_lt : ∀ (ds : Bytes) (n : Nat), (∀ c ∈ ds, IsDigit c) → valFrom n ds < (n + 1) * 10 ^ ds.length := by
  intro ds
  induction ds with
  | nil => intro n _; simp
  | cons c ds ih =>
    intro n h
    have hc := h c (by simp)
    unfold IsDigit at hc
    have := ih (10 * n + (c.toNat - 48)) (fun c hc => h c (by simp [hc]))
    rw [valFrom_cons, List.length_cons, Nat.pow_succ]
    refine Nat.lt_of_lt_of_le this ?_
    rw [Nat.mul_comm (10 ^ ds.length) 10, ← Nat.mul_assoc]
    exact Nat.mul_le_mul_right _ (by omega)

theorem value_length {ds : Bytes} (h : ∀ c ∈ ds, IsDigit c) (hne : ds ≠ []) : (fmtNat (value ds)).length ≤ ds.length := by
  refine fmtNatAux_length _ _ _ ?_ ?_
  · have := valFrom_lt ds 0 h
    simpa [valFrom, value] using this
  · cases ds with
    | nil => exact absurd rfl hne
    | cons => simp

/-- No numeral of a number is shorter than its usual form. -/
theorem numeral_length {t : Bytes} {n : Int} (h : Numeral t n) : (fmtInt n).length ≤ t.length := by
  cases h with
  | plain hne hd => exact value_length hd hne
  | @plus ds hne hd =>
    have : (fmtInt (value ds : Int)).length ≤ ds.length := value_length hd hne
    simp; omega
  | @minus ds hne hd =>
    have h1 := value_length hd hne
    cases e : value ds with
    | zero =>
      rw [e] at h1
      have : fmtInt (-((0 : Nat) : Int)) = fmtNat 0 := rfl
      rw [this]; simp; omega
    | succ m =>
      rw [e] at h1
      have : fmtInt (-((m + 1 : Nat) : Int)) = 45 :: fmtNat (m + 1) := rfl
      rw [this]; simpa using h1

theorem encodeList_length_cons (o : Resp) (os : List Resp) : (Resp.encodeList (o :: os)).length = o.encode.length + (Resp.encodeList os).length := by
  simp [Resp.encodeList]

theorem fmtNat_length_of {t : Bytes} {n : Int} {m : Nat} (h : IsInt t n) (hm : n.toNat = m) : (fmtNat m).length ≤ t.length := by
  by_cases hn : 0 ≤ n
  · have : n = (m : Int) := by omega
    subst this
    exact numeral_length h.1
  · have : m = 0 := by omega
    subst this
    have : (fmtNat 0).length = 1 := by decide
    have h2 := parseInt64_cons (isInt_iff.1 h)
    omega

mutual
/-- An object is never written with more bytes than it was read from. -/
theorem taken_length : ∀ {o : Resp} {b : Bytes}, Taken o b → o.encode.length ≤ b.length
  | _, _, .simple h => by simp [Resp.encode, Resp.crlf]
  | _, _, .error h => by simp [Resp.encode, Resp.crlf]
  | _, _, .int h => by
    have := numeral_length h.1
    simp [Resp.encode, Resp.crlf]; omega
  | _, _, .bulk (d := d) x y h hd => by
    have := fmtNat_length_of h (m := d.length) (by omega)
    simp [Resp.encode, Resp.crlf]; omega
  | _, _, .nullBulk h => by
    have := numeral_length h.1
    have e : (fmtInt (-1)).length = 2 := by decide
    simp [Resp.encode]; omega
  | _, _, .array (items := items) h hn hl hi => by
    have h1 := takenAll_length hi
    have h2 := fmtNat_length_of h hl
    simp [Resp.encode, Resp.crlf]; omega
  | _, _, .nullArray h => by
    have := numeral_length h.1
    have e : (fmtInt (-1)).length = 2 := by decide
    simp [Resp.encode]; omega
theorem takenAll_length : ∀ {os : List Resp} {b : Bytes}, TakenAll os b → (Resp.encodeList os).length ≤ b.length
  | _, _, .nil => by simp [Resp.encodeList]
  | _, _, .cons h hs => by
    have := taken_length h
    have := takenAll_length hs
    simp [encodeList_length_cons]; omega
end

mutual
theorem held_le : ∀ o : Resp, held o ≤ (2 * levels o + 1) * o.encode.length
  | .simple d => by simp [held, levels, Resp.encode, Resp.crlf]; omega
  | .bulk d => by simp [held, levels, Resp.encode, Resp.crlf]; omega
  | .nullBulk => by simp [held, levels]; omega
  | .error m => by simp [held, levels, Resp.encode, Resp.crlf]; omega
  | .int n => by simp [held, levels]; omega
  | .array items => by
    have h := heldAll_le items (levelsAll items) (Nat.le_refl _)
    have h2 : (Resp.encodeList items).length ≤ (Resp.array items).encode.length := by simp [Resp.encode]; omega
    have h3 := Nat.mul_le_mul_left (2 * levelsAll items + 1) h2
    simp only [held, levels]
    have e : (2 * (1 + levelsAll items) + 1) * (Resp.array items).encode.length =
        2 * (Resp.array items).encode.length + (2 * levelsAll items + 1) * (Resp.array items).encode.length := by
      rw [← Nat.add_mul]; congr 1; omega
    rw [e]; omega
  | .nullArray => by simp [held, levels]; omega
theorem heldAll_le : ∀ (os : List Resp) (m : Nat), levelsAll os ≤ m → heldAll os ≤ (2 * m + 1) * (Resp.encodeList os).length
  | [], m, _ => by simp [heldAll]
  | o :: os, m, hm => by
    have hm' : levels o ≤ m ∧ levelsAll os ≤ m := by simp [levelsAll] at hm; exact hm
    have h1 := held_le o
    have h2 := heldAll_le os m hm'.2
    have h3 := Nat.mul_le_mul_right o.encode.length (show 2 * levels o + 1 ≤ 2 * m + 1 by omega)
    rw [encodeList_length_cons, Nat.mul_add]
    simp only [heldAll]; omega
end

theorem nested_length (n : Nat) : (nested n).encode.length = 4 * (n + 1) := by
  induction n with
  | zero => decide
  | succ n ih =>
    simp only [nested, Resp.encode, Resp.encodeList]
    have : (fmtNat 1).length = 1 := by decide
    simp [ih, Resp.crlf, this]; omega

theorem nested_held (n : Nat) : held (nested n) = 4 * ((n + 1) * (n + 2)) := by
  induction n with
  | zero => decide
  | succ n ih =>
    have hl := nested_length (n + 1)
    simp only [nested] at hl ⊢
    simp only [held, heldAll, ih, hl]
    grind

theorem nested_levels (n : Nat) : levels (nested n) = n + 1 := by
  induction n with
  | zero => rfl
  | succ n ih => simp [nested, levels, levelsAll, ih]; omega

theorem nested_clean (n : Nat) : Clean (nested n) ∧ Sized (nested n) := by
  induction n with
  | zero => exact ⟨.array (by simp), .array (by simp) (by simp)⟩
  | succ n ih => exact ⟨.array (by simpa using ih.1), .array (by simp) (by simpa using ih.2)⟩

/-! ## C74 -/

/-- C74, the stack: reading an object needs room for exactly as many calls of `readObject` as the object has levels. -/
theorem C74_levels {s : Bytes} {o : Resp} {r : Bytes} (h : parse s = .ok o r) (k : Nat) :
    readIn k s = if levels o ≤ k then .ok o r else .stuck := by
  obtain ⟨b, rfl, ht⟩ := (C62_read s o r).1 h
  exact taken_readIn ht k r

/-- C74, the stack: a reader that has room enough does as one with all the room in the world, and room for one call per four bytes is always
enough. -/
theorem C74_room (k : Nat) (s : Bytes) : (readIn k s ≠ .stuck → readIn k s = parse s) ∧ (s.length < 4 * k → readIn k s ≠ .stuck) :=
  ⟨readIn_parse k s, fun h e => by have := readIn_stuck k s e; omega⟩

/-- C74, the stack: however much room there is, some four bytes per call exceed it, whatever is sent after them. -/
theorem C74_overflow (k : Nat) : ∃ s : Bytes, s.length = 4 * k ∧ ∀ later, readIn k (s ++ later) = .stuck := by
  refine ⟨(List.replicate k b!"*1\r\n").flatten, by simp; omega, ?_⟩
  induction k with
  | zero => intro later; rfl
  | succ k ih =>
    intro later
    rw [List.replicate_succ, List.flatten_cons, List.append_assoc]
    generalize hx : (List.replicate k b!"*1\r\n").flatten ++ later = x
    rw [show b!"*1\r\n" ++ x = [42] ++ [49] ++ [13, 10] ++ x by simp, readIn_header k (by decide) (by decide) (lineSafe_of_noLF (by decide))]
    have h1 : parseInt64 [49] = some 1 := by decide
    have h2 : readIn k x = .stuck := by rw [← hx]; exact ih later
    simp [stepBody, h1, itemsIn, h2, arrMap, ReadRes.mapR]

/-- C74, the memory, partial: an object keeps at most five times the bytes it was read from if it is an array of strings, and twice as much again
for every further level. Missing: a bound that does not depend on the levels, which does not hold (`C74_false`). -/
theorem C74_memory_partial {s : Bytes} {o : Resp} {r : Bytes} (h : parse s = .ok o r) :
    ∃ b, s = b ++ r ∧ held o ≤ (2 * levels o + 1) * b.length := by
  obtain ⟨b, rfl, ht⟩ := (C62_read s o r).1 h
  exact ⟨b, rfl, Nat.le_trans (held_le o) (Nat.mul_le_mul_left _ (taken_length ht))⟩

/-- C74, the memory: `n + 1` arrays inside each other take four bytes each on the wire, and make the server keep `4 (n + 1) (n + 2)` bytes. -/
theorem C74_nested (n : Nat) : ∃ s : Bytes, s.length = 4 * (n + 1) ∧ ∃ o, parse s = .ok o [] ∧ held o = 4 * ((n + 1) * (n + 2)) := by
  refine ⟨(nested n).encode, nested_length n, nested n, ?_, nested_held n⟩
  have := parse_encode (nested n) (nested_clean n).1 (nested_clean n).2 []
  simpa using this

/-- C74 is false: no constant times the length of a request bounds the memory it takes. -/
theorem C74_false : ¬ ∃ C, ∀ s o r, parse s = .ok o r → held o ≤ C * s.length := by
  rintro ⟨C, h⟩
  obtain ⟨s, hs, o, ho, hh⟩ := C74_nested C
  have h1 := h s o [] ho
  rw [hs, hh, show C * (4 * (C + 1)) = 4 * ((C + 1) * C) by grind] at h1
  have h2 := Nat.le_of_mul_le_mul_left h1 (by decide)
  have h3 := Nat.le_of_mul_le_mul_left h2 (by omega)
  omega

/-- A hundred kilobytes of brackets take two and a half gigabytes. -/
example : ∃ s : Bytes, s.length = 100000 ∧ ∃ o, parse s = .ok o [] ∧ held o = 2500100000 := C74_nested 24999

/-- An ordinary request has two levels. -/
example : parse b!"*2\r\n$3\r\nGET\r\n$1\r\nk\r\n" = .ok (.array [.bulk b!"GET", .bulk b!"k"]) [] ∧ levels (.array [.bulk b!"GET", .bulk b!"k"]) = 2 ∧
    held (.array [.bulk b!"GET", .bulk b!"k"]) = 76 := ⟨rfl, rfl, rfl⟩

example : readIn 1 b!"*1\r\n:1\r\n" = .stuck ∧ readIn 2 b!"*1\r\n:1\r\n" = .ok (.array [.int 1]) [] := ⟨rfl, rfl⟩

/-- On a stack with room for three calls, twelve bytes are too many. -/
example : readIn 3 b!"*1\r\n*1\r\n*1\r\n" = .stuck ∧ readIn 3 b!"*1\r\n*1\r\n*1\r" = parse b!"*1\r\n*1\r\n*1\r" := ⟨rfl, rfl⟩

end Verif.Props
