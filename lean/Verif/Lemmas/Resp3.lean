import Verif.Lemmas.Resp2

/-! Consumed part of a read, panics of the RESP reader. -/

namespace Verif

open Spec (LineSafe Clean Sized IsDigit Numeral)

theorem readBulk_local {t rest r : Bytes} {o : Resp} (h : readBulk t rest = .ok o r) :
    ∃ u, rest = u ++ r ∧ ∀ x, readBulk t (u ++ x) = .ok o x := by
  unfold readBulk at h ⊢
  split at h
  · simp at h
  · split at h
    · simp at h
    · rename_i n _
      split at h
      · rename_i hn
        simp at h
        refine ⟨[], by simp [h.2], fun x => ?_⟩
        simp [hn, h.1]
      · rename_i hn
        split at h <;> try (simp at h; done)
        rename_i tok rest' hb
        obtain ⟨h1, h2, rfl, rfl⟩ := readBytes_ok hb
        split at h <;> simp at h
        rename_i d hd
        generalize hw : wrap64 (n + 2) = w at *
        refine ⟨rest.take w.toNat, by rw [← h.2]; simp, fun x => ?_⟩
        rw [if_neg hn]
        have : readBytes w (List.take w.toNat rest ++ x) = .ok (List.take w.toNat rest) x := by
          unfold readBytes
          have hl : (List.take w.toNat rest).length = w.toNat := by
            rw [List.length_take]; omega
          rw [if_neg (by omega), if_pos (by rw [List.length_append, hl]; omega)]
          congr 1
          · exact List.take_left' hl
          · exact List.drop_left' hl
        rw [this]
        simp only
        rw [hd]; simp [h.1]

theorem stepBody_local {k : Nat → Bytes → ReadRes (List Resp)} {c : UInt8} {d rest r : Bytes} {o : Resp}
    (hk : ∀ n os r, k n rest = .ok os r → ∃ u, rest = u ++ r ∧ ∀ x, k n (u ++ x) = .ok os x)
    (h : stepBody k c d rest = .ok o r) : ∃ u, rest = u ++ r ∧ ∀ x, stepBody k c d (u ++ x) = .ok o x := by
  unfold stepBody at h ⊢
  by_cases h1 : c = 43
  · simp only [h1, if_true] at h ⊢
    simp at h
    exact ⟨[], by simp [h.2], fun x => by simp [h.1]⟩
  simp only [h1, if_false] at h ⊢
  by_cases h2 : c = 36
  · simp only [h2, if_true] at h ⊢; exact readBulk_local h
  simp only [h2, if_false] at h ⊢
  by_cases h3 : c = 45
  · simp only [h3, if_true] at h ⊢
    simp at h
    exact ⟨[], by simp [h.2], fun x => by simp [h.1]⟩
  simp only [h3, if_false] at h ⊢
  by_cases h4 : c = 58
  · simp only [h4, if_true] at h ⊢
    cases hp : parseInt64 d with
    | none => simp [hp] at h
    | some n =>
      simp [hp] at h
      exact ⟨[], by simp [h.2], fun x => by simp [h.1]⟩
  simp only [h4, if_false] at h ⊢
  by_cases h5 : c = 42
  · simp only [h5, if_true] at h ⊢
    cases hp : parseInt64 d with
    | none => simp [hp] at h
    | some n =>
      simp only [hp] at h ⊢
      by_cases h6 : n = -1
      · simp only [h6, if_true] at h ⊢
        simp at h
        exact ⟨[], by simp [h.2], fun x => by simp [h.1]⟩
      · simp only [h6, if_false] at h ⊢
        cases hi : k n.toNat rest with
        | ok os r' =>
          rw [hi] at h
          simp [arrMap, ReadRes.mapR] at h
          obtain ⟨u, hu, hx⟩ := hk _ _ _ hi
          refine ⟨u, by rw [hu, h.2], fun x => ?_⟩
          rw [hx]; simp [arrMap, ReadRes.mapR, h.1]
        | eof => rw [hi] at h; simp [arrMap, ReadRes.mapR] at h
        | bad => rw [hi] at h; simp [arrMap, ReadRes.mapR] at h
        | panic => rw [hi] at h; simp [arrMap, ReadRes.mapR] at h
        | stuck => rw [hi] at h; simp [arrMap, ReadRes.mapR] at h
  · simp [h5] at h

theorem local_aux : ∀ L : Nat,
    (∀ s : Bytes, s.length ≤ L → ∀ o r, parse s = .ok o r → ∃ u, s = u ++ r ∧ ∀ x, parse (u ++ x) = .ok o x) ∧
    (∀ s : Bytes, s.length ≤ L → ∀ n os r, parseItems n s = .ok os r →
      ∃ u, s = u ++ r ∧ ∀ x, parseItems n (u ++ x) = .ok os x) := by
  intro L
  induction L using Nat.strongRecOn with
  | _ L ih =>
    have hobj : ∀ s : Bytes, s.length ≤ L → ∀ o r, parse s = .ok o r →
        ∃ u, s = u ++ r ∧ ∀ x, parse (u ++ x) = .ok o x := by
      intro s hs o r h
      rw [parse_eq] at h
      rcases step_cases parseItems s with ⟨_, e⟩ | ⟨_, e⟩ | ⟨rest, rfl, e⟩ | ⟨c, d, rest, rfl, h1, h2, e⟩
      · simp [e] at h
      · simp [e] at h
      · simp [e] at h
      · rw [e] at h
        obtain ⟨u, hu, hx⟩ := stepBody_local
          (fun n => (ih rest.length (by simp at hs; omega)).2 rest (Nat.le_refl _) n) h
        refine ⟨c :: d ++ 13 :: 10 :: u, by simp [hu], fun x => ?_⟩
        have : (c :: d ++ 13 :: 10 :: u) ++ x = c :: d ++ 13 :: 10 :: (u ++ x) := by simp
        rw [parse_eq, this, step_token _ h1 h2, hx]
    refine ⟨hobj, ?_⟩
    intro s hs n os r h
    cases n with
    | zero =>
      simp [parseItems_zero] at h
      exact ⟨[], by simp [h.2], fun x => by simp [parseItems_zero, h.1]⟩
    | succ n =>
      rw [parseItems_succ] at h
      cases ho : parse s with
      | ok o rest =>
        rw [ho] at h
        simp only at h
        have hl := parse_length ho
        cases hi : parseItems n rest with
        | ok os' r' =>
          rw [hi] at h
          simp [ReadRes.mapR] at h
          obtain ⟨u1, hu1, hx1⟩ := hobj s hs _ _ ho
          obtain ⟨u2, hu2, hx2⟩ := (ih rest.length (by omega)).2 rest (Nat.le_refl _) n _ _ hi
          refine ⟨u1 ++ u2, by rw [hu1, hu2, h.2]; simp, fun x => ?_⟩
          rw [parseItems_succ, List.append_assoc, hx1]
          simp only
          rw [hx2]; simp [ReadRes.mapR, h.1]
        | eof => rw [hi] at h; simp [ReadRes.mapR] at h
        | bad => rw [hi] at h; simp [ReadRes.mapR] at h
        | panic => rw [hi] at h; simp [ReadRes.mapR] at h
        | stuck => rw [hi] at h; simp [ReadRes.mapR] at h
      | eof => simp [ho] at h
      | bad => simp [ho] at h
      | panic => simp [ho] at h
      | stuck => simp [ho] at h

/-- The bytes a successful read consumed determine the object, whatever follows them. -/
theorem parse_local {s : Bytes} {o : Resp} {r : Bytes} (h : parse s = .ok o r) :
    ∃ u, s = u ++ r ∧ ∀ x, parse (u ++ x) = .ok o x := (local_aux s.length).1 s (Nat.le_refl _) o r h

/-! ### panics -/

theorem readBytes_not_panic (n : Int) (s : Bytes) : readBytes n s ≠ .panic ∧ readBytes n s ≠ .stuck := by
  unfold readBytes
  split
  · simp
  · split <;> simp

theorem readBulk_panic {c : UInt8} {d rest : Bytes} :
    readBulk (c :: d ++ [13, 10]) rest = .panic ↔ parseInt64 d = some (-2) := by
  unfold readBulk
  rw [tokenBody_cons]
  simp only
  cases hp : parseInt64 d with
  | none => simp
  | some n =>
    have hin := parseInt64_in hp
    unfold InInt64 minInt64 maxInt64 at hin
    simp only [Option.some.injEq]
    by_cases hn : n = -1
    · simp [hn]
    · rw [if_neg hn]
      cases hb : readBytes (wrap64 (n + 2)) rest with
      | ok tok rest' =>
        obtain ⟨h1, h2, rfl, rfl⟩ := readBytes_ok hb
        simp only
        have hw : wrap64 (n + 2) = n + 2 ∨ wrap64 (n + 2) < 0 := by unfold wrap64; omega
        rcases hw with hw | hw
        · rw [hw] at h1 h2 ⊢
          unfold goSlice
          by_cases h2' : n = -2
          · subst h2'; simp
          · rw [if_pos]
            · simp [h2']
            · refine ⟨by omega, by omega, ?_⟩
              rw [List.length_take]; omega
        · omega
      | eof =>
        simp only [reduceCtorEq, false_iff]
        rintro rfl
        simp [readBytes, wrap64] at hb
      | bad =>
        simp only [reduceCtorEq, false_iff]
        rintro rfl
        simp [readBytes, wrap64] at hb
      | panic => exact absurd hb (readBytes_not_panic _ _).1
      | stuck => exact absurd hb (readBytes_not_panic _ _).2

theorem numeral_noLF {d : Bytes} {n : Int} (h : Numeral d n) : (10 : UInt8) ∉ d := by
  have key : ∀ ds : Bytes, (∀ c ∈ ds, IsDigit c) → (10 : UInt8) ∉ ds := by
    intro ds hd hm; have := hd _ hm; simp [IsDigit] at this
  cases h with
  | plain _ hd => exact key _ hd
  | plus _ hd => simp; exact key _ hd
  | minus _ hd => simp; exact key _ hd

theorem stepBody_panic {k : Nat → Bytes → ReadRes (List Resp)} {c : UInt8} {d rest : Bytes} :
    stepBody k c d rest = .panic ↔
      (c = 36 ∧ parseInt64 d = some (-2)) ∨
      (c = 42 ∧ ∃ n, parseInt64 d = some n ∧ n ≠ -1 ∧ k n.toNat rest = .panic) := by
  unfold stepBody
  by_cases h1 : c = 43
  · simp [h1]
  by_cases h2 : c = 36
  · simp only [h2]; simp [readBulk_panic (c := 36)]
    exact readBulk_panic (c := 36)
  by_cases h3 : c = 45
  · simp [h3]
  by_cases h4 : c = 58
  · simp only [h4]; simp; cases parseInt64 d <;> simp
  by_cases h5 : c = 42
  · simp only [h5]; simp
    cases hp : parseInt64 d with
    | none => simp
    | some n =>
      simp only [Option.some.injEq]
      by_cases h6 : n = -1
      · simp [h6]
      · simp only [h6, if_false]
        cases hk : k n.toNat rest <;> simp [arrMap, ReadRes.mapR, hk, h6]
  · simp [h1, h2, h3, h4, h5]

/-- Reading `os` one after the other from `s` leaves `r`. -/
inductive ReadsSeq : Bytes → List Resp → Bytes → Prop where
  | nil (s) : ReadsSeq s [] s
  | cons {s o r os r'} : parse s = .ok o r → ReadsSeq r os r' → ReadsSeq s (o :: os) r'

theorem parseItems_panic : ∀ (n : Nat) (s : Bytes),
    parseItems n s = .panic ↔ ∃ os r, os.length < n ∧ ReadsSeq s os r ∧ parse r = .panic := by
  intro n
  induction n with
  | zero => intro s; simp [parseItems_zero]
  | succ n ih =>
    intro s
    rw [parseItems_succ]
    cases ho : parse s with
    | ok o rest =>
      simp only
      have : (parseItems n rest).mapR (o :: ·) = .panic ↔ parseItems n rest = .panic := by
        cases parseItems n rest <;> simp [ReadRes.mapR]
      rw [this, ih]
      constructor
      · rintro ⟨os, r, h1, h2, h3⟩
        exact ⟨o :: os, r, by simp; omega, .cons ho h2, h3⟩
      · rintro ⟨os, r, h1, h2, h3⟩
        cases h2 with
        | nil => rw [ho] at h3; cases h3
        | cons h4 h5 =>
          rw [ho] at h4; cases h4
          exact ⟨_, r, by simp at h1; omega, h5, h3⟩
    | panic => simp; exact ⟨[], by simp, s, .nil _, ho⟩
    | eof =>
      simp; intro os hl r hr
      cases hr with
      | nil => simp [ho]
      | cons h => simp [ho] at h
    | bad =>
      simp; intro os hl r hr
      cases hr with
      | nil => simp [ho]
      | cons h => simp [ho] at h
    | stuck => exact absurd ho (parse_not_stuck s)

end Verif
