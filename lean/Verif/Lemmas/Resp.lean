import Verif.Lemmas.Num
import Verif.Spec.Resp

/-! Helper lemmas on the RESP reader. -/

namespace Verif

open Spec (LineSafe Clean Sized IsDigit)

/-! ### readLine -/

theorem readLine_append {p : Bytes} (h : (10 : UInt8) ∉ p) (r : Bytes) :
    readLine (p ++ 10 :: r) = some (p ++ [10], r) := by
  induction p with
  | nil => simp [readLine]
  | cons c p ih =>
    simp only [List.mem_cons, not_or] at h
    simp only [List.cons_append, readLine]
    rw [if_neg (fun e => h.1 e.symm), ih h.2]

theorem readLine_some {s l r : Bytes} (h : readLine s = some (l, r)) :
    ∃ p, (10 : UInt8) ∉ p ∧ l = p ++ [10] ∧ s = p ++ 10 :: r := by
  induction s generalizing l r with
  | nil => simp [readLine] at h
  | cons c s ih =>
    simp only [readLine] at h
    split at h
    · rename_i hc
      simp at h
      exact ⟨[], by simp, by simp [h.1], by simp [hc, h.2]⟩
    · rename_i hc
      split at h
      · simp at h
      · rename_i l' r' he
        simp at h
        obtain ⟨p, h1, h2, h3⟩ := ih he
        refine ⟨c :: p, ?_, ?_, ?_⟩
        · simp [h1]; exact fun e => hc e.symm
        · rw [← h.1, h2]; rfl
        · rw [h3, ← h.2]; rfl

theorem readLine_none {s : Bytes} (h : readLine s = none) : (10 : UInt8) ∉ s := by
  induction s with
  | nil => simp
  | cons c s ih =>
    simp only [readLine] at h
    split at h
    · simp at h
    · rename_i hc
      split at h
      · rename_i he; simp [ih he]; exact fun e => hc e.symm
      · simp at h

/-! ### LineSafe -/

theorem lineSafe_nil : LineSafe [] := by simp [LineSafe]

theorem lineSafe_cons {c : UInt8} {d : Bytes} :
    LineSafe (c :: d) ↔ LineSafe d ∧ ¬ (c = 13 ∧ d.head? = some 10) ∧ ¬ (c = 10 ∧ d.head? = some 10) := by
  unfold LineSafe
  have key : ∀ x : UInt8, ([x, 10] : Bytes) <:+: c :: d ↔ (c = x ∧ d.head? = some 10) ∨ ([x, 10] : Bytes) <:+: d := by
    intro x
    rw [List.infix_cons_iff]
    cases d with
    | nil => simp
    | cons a d => simp [eq_comm]
  rw [key, key]
  constructor
  · rintro ⟨h1, h2⟩
    simp only [not_or] at h1 h2
    exact ⟨⟨h1.2, h2.2⟩, h1.1, h2.1⟩
  · rintro ⟨⟨h1, h2⟩, h3, h4⟩
    simp only [not_or]
    exact ⟨⟨h3, h1⟩, h4, h2⟩

theorem lineSafe_of_suffix {p d : Bytes} (h : LineSafe (p ++ d)) : LineSafe d := by
  induction p with
  | nil => exact h
  | cons c p ih => exact ih (lineSafe_cons.1 h).1

theorem lineSafe_of_noLF {d : Bytes} (h : (10 : UInt8) ∉ d) : LineSafe d := by
  induction d with
  | nil => exact lineSafe_nil
  | cons c d ih =>
    simp only [List.mem_cons, not_or] at h
    have hd : d.head? ≠ some 10 := by
      intro e; exact h.2 (List.mem_of_mem_head? (by rw [e]; simp))
    exact lineSafe_cons.2 ⟨ih h.2, fun e => hd e.2, fun e => hd e.2⟩

theorem lineSafe_join {p v : Bytes} (h1 : (10 : UInt8) ∉ p) (h2 : p.getLast? ≠ some 13) (hne : p ≠ [])
    (hv : LineSafe v) (hh : v.head? ≠ some 10) : LineSafe (p ++ 10 :: v) := by
  induction p with
  | nil => exact absurd rfl hne
  | cons c p ih =>
    simp only [List.mem_cons, not_or] at h1
    cases p with
    | nil =>
      simp only [List.getLast?_singleton] at h2
      simp only [List.cons_append, List.nil_append]
      refine lineSafe_cons.2 ⟨lineSafe_cons.2 ⟨hv, fun e => hh e.2, fun e => hh e.2⟩, ?_, ?_⟩
      · rintro ⟨rfl, _⟩; exact h2 rfl
      · rintro ⟨rfl, _⟩; exact h1.1 rfl
    | cons a p =>
      have h2' : (a :: p).getLast? ≠ some 13 := by simpa using h2
      refine lineSafe_cons.2 ⟨ih h1.2 h2' (by simp), ?_, ?_⟩
      · rintro ⟨_, e⟩; simp at e; exact h1.2 (by rw [e]; simp)
      · rintro ⟨e, _⟩; exact h1.1 e.symm

/-! ### tokens -/

/-- A complete token: a line-safe text, not starting with LF, followed by CRLF. -/
def IsToken (t : Bytes) : Prop := ∃ v, t = v ++ [13, 10] ∧ LineSafe v ∧ v.head? ≠ some 10

theorem getElem?_sub_two_append (p : Bytes) :
    (p ++ [10])[(p ++ [10]).length - 2]? = some 13 ↔ p.getLast? = some 13 ∨ (p = [] ∧ False) := by
  rcases List.eq_nil_or_concat p with rfl | ⟨q, a, rfl⟩
  · simp
  · simp

theorem not_lineSafe_crlf (a b : Bytes) : ¬ LineSafe (a ++ 13 :: 10 :: b) := by
  intro h
  have := (lineSafe_cons.1 (lineSafe_of_suffix h)).2.1
  exact this ⟨rfl, rfl⟩

theorem readTokenLoop_token {f : Nat} {buf v rest : Bytes} (hv : LineSafe v) (hh : v.head? ≠ some 10)
    (hf : v.length < f) :
    readTokenLoop f buf (v ++ 13 :: 10 :: rest) = .ok (buf ++ v ++ [13, 10]) rest := by
  induction f generalizing buf v with
  | zero => omega
  | succ f ih =>
    by_cases hmem : (10 : UInt8) ∈ v
    · obtain ⟨p, v', rfl, hp⟩ := List.eq_append_cons_of_mem hmem
      have hpne : p ≠ [] := by rintro rfl; simp at hh
      have hlast : p.getLast? ≠ some 13 := by
        intro e
        obtain ⟨q, rfl⟩ := List.getLast?_eq_some_iff.1 e
        exact not_lineSafe_crlf q v' (by simpa using hv)
      have hs : LineSafe (10 :: v') := lineSafe_of_suffix hv
      have hv' := lineSafe_cons.1 hs
      have hh' : v'.head? ≠ some 10 := fun e => hv'.2.2 ⟨rfl, e⟩
      simp only [List.append_assoc, List.cons_append, readTokenLoop]
      rw [readLine_append hp]
      simp only
      have hlen : ¬ (p ++ [10]).length ≤ 1 := by
        have := List.length_pos_iff.2 hpne; simp; omega
      rw [if_neg hlen, if_neg]
      · rw [ih hv'.1 hh' (by simp at hf; omega)]
        simp
      · rw [getElem?_sub_two_append]; simp [hlast]
    · simp only [readTokenLoop]
      have : v ++ 13 :: 10 :: rest = (v ++ [13]) ++ 10 :: rest := by simp
      rw [this, readLine_append (by simp [hmem])]
      simp

theorem readTokenLoop_ok {f : Nat} {buf s t r : Bytes} (h : readTokenLoop f buf s = .ok t r) :
    ∃ v, t = buf ++ v ++ [13, 10] ∧ s = v ++ 13 :: 10 :: r ∧ LineSafe v ∧ v.head? ≠ some 10 := by
  induction f generalizing buf s with
  | zero => simp [readTokenLoop] at h
  | succ f ih =>
    simp only [readTokenLoop] at h
    split at h
    · simp at h
    · rename_i cur rest he
      obtain ⟨p, hp, rfl, rfl⟩ := readLine_some he
      split at h
      · simp at h
      · rename_i hl
        have hpne : p ≠ [] := by rintro rfl; simp at hl
        split at h
        · rename_i h13
          rw [getElem?_sub_two_append] at h13
          simp at h13
          obtain ⟨q, rfl⟩ := List.getLast?_eq_some_iff.1 h13
          simp only [ReadRes.ok.injEq] at h
          simp only [List.mem_append, not_or] at hp
          refine ⟨q, ?_, ?_, lineSafe_of_noLF hp.1, ?_⟩
          · rw [← h.1]; simp
          · rw [← h.2]; simp
          · intro e; exact hp.1 (List.mem_of_mem_head? (by rw [e]; simp))
        · rename_i h13
          rw [getElem?_sub_two_append] at h13
          simp at h13
          obtain ⟨v, rfl, rfl, h3, h4⟩ := ih h
          refine ⟨p ++ 10 :: v, by simp, by simp, lineSafe_join hp h13 hpne h3 h4, ?_⟩
          cases p with
          | nil => exact absurd rfl hpne
          | cons a p => simp at hp ⊢; exact fun e => hp.1 e.symm

theorem readTokenLoop_not_stuck {f : Nat} {buf s : Bytes} (h : s.length < f) : readTokenLoop f buf s ≠ .stuck := by
  induction f generalizing buf s with
  | zero => omega
  | succ f ih =>
    simp only [readTokenLoop]
    split
    · simp
    · rename_i cur rest he
      obtain ⟨p, hp, rfl, rfl⟩ := readLine_some he
      split
      · simp
      · split
        · simp
        · apply ih; simp at h; omega

theorem readTokenLoop_not_panic {f : Nat} {buf s : Bytes} : readTokenLoop f buf s ≠ .panic := by
  induction f generalizing buf s with
  | zero => simp [readTokenLoop]
  | succ f ih =>
    simp only [readTokenLoop]
    split
    · simp
    · split
      · simp
      · split
        · simp
        · apply ih

theorem readTokenLoop_bad_append {f f' : Nat} {buf s : Bytes} (x : Bytes) (h : readTokenLoop f buf s = .bad)
    (hf : f ≤ f') : readTokenLoop f' buf (s ++ x) = .bad := by
  induction f generalizing buf s f' with
  | zero => simp [readTokenLoop] at h
  | succ f ih =>
    cases f' with
    | zero => omega
    | succ f' =>
      simp only [readTokenLoop] at h
      split at h
      · simp at h
      · rename_i cur rest he
        obtain ⟨p, hp, rfl, rfl⟩ := readLine_some he
        simp only [readTokenLoop, List.append_assoc, List.cons_append]
        rw [readLine_append hp]
        simp only
        split at h
        · rename_i hl; rw [if_pos hl]
        · rename_i hl
          rw [if_neg hl]
          split at h
          · simp at h
          · rename_i h13
            rw [if_neg h13]
            exact ih h (by omega)

theorem readToken_token {v rest : Bytes} (hv : LineSafe v) (hh : v.head? ≠ some 10) :
    readToken (v ++ 13 :: 10 :: rest) = .ok (v ++ [13, 10]) rest := by
  unfold readToken
  rw [readTokenLoop_token hv hh (by simp; omega)]; simp

theorem readToken_ok {s t r : Bytes} (h : readToken s = .ok t r) :
    ∃ v, t = v ++ [13, 10] ∧ s = v ++ 13 :: 10 :: r ∧ LineSafe v ∧ v.head? ≠ some 10 := by
  obtain ⟨v, h1, h2⟩ := readTokenLoop_ok h
  exact ⟨v, by simpa using h1, h2⟩

theorem readToken_not_stuck (s : Bytes) : readToken s ≠ .stuck := readTokenLoop_not_stuck (by omega)
theorem readToken_not_panic (s : Bytes) : readToken s ≠ .panic := readTokenLoop_not_panic

theorem readToken_append_ok {s t r : Bytes} (x : Bytes) (h : readToken s = .ok t r) :
    readToken (s ++ x) = .ok t (r ++ x) := by
  obtain ⟨v, rfl, rfl, h3, h4⟩ := readToken_ok h
  simpa using readToken_token (rest := r ++ x) h3 h4

theorem readToken_append_bad {s : Bytes} (x : Bytes) (h : readToken s = .bad) : readToken (s ++ x) = .bad :=
  readTokenLoop_bad_append x h (by simp)

theorem tokenBody_cons (c : UInt8) (d : Bytes) : tokenBody (c :: d ++ [13, 10]) = some d := by
  unfold tokenBody goSlice
  rw [if_pos]
  · simp
    have : ((d.length : Int) + 2 + 1 - 2).toNat - 1 = d.length := by omega
    rw [this]; simp
  · simp; omega

/-! ### one reading step, without fuel -/

theorem goSlice_eq_ok {s : Bytes} {lo hi : Int} {d : Bytes} (h : goSlice s lo hi = some d) :
    0 ≤ lo ∧ lo ≤ hi ∧ hi ≤ s.length ∧ d = (s.drop lo.toNat).take (hi.toNat - lo.toNat) := by
  unfold goSlice at h
  split at h
  · rename_i hc; simp at h; exact ⟨hc.1, hc.2.1, hc.2.2, h.symm⟩
  · simp at h

theorem readBytes_ok {n : Int} {s t r : Bytes} (h : readBytes n s = .ok t r) :
    0 ≤ n ∧ n ≤ s.length ∧ t = s.take n.toNat ∧ r = s.drop n.toNat := by
  unfold readBytes at h
  split at h
  · simp at h
  · split at h
    · rename_i h1 h2; simp at h; exact ⟨by omega, h2, h.1.symm, h.2.symm⟩
    · simp at h

theorem readBulk_not_stuck (t s : Bytes) : readBulk t s ≠ .stuck := by
  unfold readBulk
  split <;> try simp
  split <;> try simp
  split <;> try simp
  split <;> try simp
  · split <;> simp
  · rename_i h
    unfold readBytes at h
    split at h
    · simp at h
    · split at h <;> simp at h

theorem readBulk_length {t s r : Bytes} {o : Resp} (h : readBulk t s = .ok o r) : r.length ≤ s.length := by
  unfold readBulk at h
  split at h <;> try simp at h
  split at h <;> try simp at h
  split at h
  · simp at h; rw [h.2]; exact Nat.le_refl _
  · split at h <;> try simp at h
    rename_i hb
    obtain ⟨_, _, _, rfl⟩ := readBytes_ok hb
    split at h <;> simp at h
    rw [← h.2]; simp

theorem readBytes_append_ok {n : Int} {s t r : Bytes} (x : Bytes) (h : readBytes n s = .ok t r) :
    readBytes n (s ++ x) = .ok t (r ++ x) := by
  obtain ⟨h1, h2, rfl, rfl⟩ := readBytes_ok h
  unfold readBytes
  rw [if_neg (by omega), if_pos (by simp; omega)]
  rw [List.take_append_of_le_length (by omega), List.drop_append_of_le_length (by omega)]

theorem readBytes_bad {n : Int} {s : Bytes} (h : readBytes n s = .bad) : n < 0 := by
  unfold readBytes at h
  split at h
  · assumption
  · split at h <;> simp at h

theorem readBytes_neg {n : Int} (s : Bytes) (h : n < 0) : readBytes n s = .bad := by
  unfold readBytes; rw [if_pos h]

end Verif
