import Verif.Spec.Proto
import Verif.Lemmas.Log
import Verif.Lemmas.Utf8
import Mathlib.Tactic.Ring

/-! The wire format as the reader takes it. -/

namespace Verif.Proto

open Spec Spec.PB

theorem base128_append (s : Bytes) (c : UInt8) : base128 (s ++ [c]) = base128 s + 128 ^ s.length * (c.toNat % 128) := by
  induction s with
  | nil => simp [base128]
  | cons d s ih => simp only [List.cons_append, base128, ih, List.length_cons, Nat.pow_succ]; ring

theorem base128_lt (s : Bytes) : base128 s < 128 ^ s.length := by
  induction s with
  | nil => simp [base128]
  | cons d s ih => simp only [base128, List.length_cons, Nat.pow_succ]; omega

theorem getVarintF_iff (f : Nat) (s : Bytes) (n : Nat) (r : Bytes) : getVarintF f s = some (n, r) ↔
    ∃ init last, s = init ++ last :: r ∧ (∀ c ∈ init, 128 ≤ c.toNat) ∧ last.toNat < 128 ∧ init.length + 1 ≤ f ∧ n = base128 (init ++ [last]) ∧
      (init.length + 1 = f → last.toNat < 2) := by
  induction f generalizing s n with
  | zero => simp [getVarintF]
  | succ f ih =>
    cases s with
    | nil => simp [getVarintF]
    | cons c cs =>
      unfold getVarintF
      by_cases hc : c.toNat < 128
      · rw [if_pos hc]
        constructor
        · intro h
          split at h
          · cases h
          · rename_i h2
            simp only [Option.some.injEq, Prod.mk.injEq] at h
            obtain ⟨rfl, rfl⟩ := h
            exact ⟨[], c, rfl, by simp, hc, by simp, by simp [base128]; omega, by simp; omega⟩
        · rintro ⟨init, last, h1, h2, h3, h4, h5, h6⟩
          cases init with
          | nil =>
            simp only [List.nil_append, List.cons.injEq] at h1
            obtain ⟨rfl, rfl⟩ := h1
            simp only [List.length_nil, Nat.zero_add] at h6
            rw [if_neg (by omega)]
            simp [h5, base128]; omega
          | cons d init =>
            simp only [List.cons_append, List.cons.injEq] at h1
            have := h2 d (by simp)
            rw [← h1.1] at this
            omega
      · rw [if_neg hc]
        constructor
        · intro h
          split at h
          · rename_i v r' hg
            simp only [Option.some.injEq, Prod.mk.injEq] at h
            obtain ⟨rfl, rfl⟩ := h
            obtain ⟨init, last, h1, h2, h3, h4, h5, h6⟩ := (ih _ _).1 hg
            refine ⟨c :: init, last, by simp [h1], ?_, h3, by simp; omega, ?_, by simp; omega⟩
            · intro d hd
              rcases List.mem_cons.1 hd with rfl | hd
              · omega
              · exact h2 d hd
            · have := c.toNat_lt
              simp only [List.cons_append, base128, h5]; omega
          · cases h
        · rintro ⟨init, last, h1, h2, h3, h4, h5, h6⟩
          cases init with
          | nil =>
            simp only [List.nil_append, List.cons.injEq] at h1
            rw [← h1.1] at h3; omega
          | cons d init =>
            simp only [List.cons_append, List.cons.injEq] at h1
            obtain ⟨rfl, rfl⟩ := h1
            rw [(ih _ (base128 (init ++ [last]))).2 ⟨init, last, rfl, fun c hc => h2 c (by simp [hc]), h3, by simpa using h4, rfl, by
              intro h; exact h6 (by simp; omega)⟩]
            have := c.toNat_lt
            simp only [List.cons_append, base128] at h5
            simp only [h5, Option.some.injEq, Prod.mk.injEq, and_true]; omega

theorem getVarint_iff (s : Bytes) (n : Nat) (r : Bytes) : getVarint s = some (n, r) ↔ ∃ p, s = p ++ r ∧ Varint n p := by
  unfold getVarint
  rw [getVarintF_iff]
  constructor
  · rintro ⟨init, last, rfl, h2, h3, h4, h5, h6⟩
    refine ⟨init ++ [last], by simp, init, last, rfl, h2, h3, by simpa using h4, h5, ?_⟩
    rw [h5, base128_append]
    have hb := base128_lt init
    by_cases hl : init.length + 1 = 10
    · have := h6 hl
      have : init.length = 9 := by omega
      rw [this] at hb ⊢
      omega
    · have h1 : 128 ^ (init ++ [last]).length ≤ 128 ^ 9 := Nat.pow_le_pow_right (by omega) (by simp; omega)
      have := base128_lt (init ++ [last])
      rw [base128_append] at this
      omega
  · rintro ⟨p, rfl, init, last, rfl, h2, h3, h4, h5, h6⟩
    refine ⟨init, last, by simp, h2, h3, by simpa using h4, h5, ?_⟩
    intro hl
    rw [h5, base128_append] at h6
    have : init.length = 9 := by omega
    rw [this] at h6
    omega

theorem varint_ne_nil {n : Nat} {s : Bytes} (h : Varint n s) : s ≠ [] := by
  obtain ⟨i, l, rfl, -⟩ := h; simp

theorem varint_pos {n : Nat} {s : Bytes} (h : Varint n s) : 1 ≤ s.length := by
  have := List.length_pos_iff.2 (varint_ne_nil h); omega

theorem getVarint_of {n : Nat} {s : Bytes} (h : Varint n s) (r : Bytes) : getVarint (s ++ r) = some (n, r) := (getVarint_iff _ _ _).2 ⟨s, rfl, h⟩

theorem getBytes_iff (s b r : Bytes) : getBytes s = some (b, r) ↔ ∃ p, s = p ++ (b ++ r) ∧ Varint b.length p := by
  unfold getBytes
  constructor
  · intro h
    cases hg : getVarint s with
    | none => rw [hg] at h; cases h
    | some x =>
      obtain ⟨n, q⟩ := x
      rw [hg] at h
      simp only at h
      split at h
      · rename_i hn
        simp only [Option.some.injEq, Prod.mk.injEq] at h
        obtain ⟨rfl, rfl⟩ := h
        obtain ⟨p, rfl, hp⟩ := (getVarint_iff _ _ _).1 hg
        refine ⟨p, by simp, ?_⟩
        rwa [List.length_take, Nat.min_eq_left hn]
      · cases h
  · rintro ⟨p, rfl, hp⟩
    rw [getVarint_of hp]
    simp

theorem getBytes_of {p b : Bytes} (h : Varint b.length p) (r : Bytes) : getBytes (p ++ (b ++ r)) = some (b, r) := (getBytes_iff _ _ _).2 ⟨p, rfl, h⟩

theorem tag_num (num : Nat) (v : Value) : (num * 8 + v.wireType) / 8 = num ∧ (num * 8 + v.wireType) % 8 = v.wireType ∧ v.wireType ≠ 4 := by
  cases v <;> simp only [Value.wireType] <;> omega

theorem skip_of (f : Nat) :
    (∀ {num : Nat} {v : Value} {s : Bytes}, Encoded num v s → 2 * s.length + 1 ≤ f → ∀ r, skipValue f num v.wireType (s ++ r) = some r) ∧
    ∀ {num : Nat} {fs : List (Nat × Value)} {s e : Bytes}, Fields 2147483647 fs s → Varint (num * 8 + 4) e → 1 ≤ num → num ≤ 2147483647 →
      2 * (s.length + e.length) ≤ f → ∀ r, skipGroup f num (s ++ (e ++ r)) = some r := by
  induction f with
  | zero =>
    refine ⟨fun _ hf => by omega, fun _ he _ _ hf => ?_⟩
    have := varint_pos he
    omega
  | succ f ih =>
    constructor
    · intro num v s h hf r
      cases h with
      | varint h => simp [skipValue, Value.wireType, getVarint_of h]
      | fixed64 h => simp [skipValue, Value.wireType, h]
      | bytes h => simp [skipValue, Value.wireType, getBytes_of h]
      | fixed32 h => simp [skipValue, Value.wireType, h]
      | group h he h1 h2 =>
        simp only [skipValue, Value.wireType, List.append_assoc]
        exact ih.2 h he h1 h2 (by simp at hf; omega) r
    · intro num fs s e h he hn hn' hf r
      have := varint_pos he
      cases h with
      | nil =>
        simp only [skipGroup, List.nil_append, getVarint_of he]
        rw [if_neg (by omega), if_pos (by omega), if_pos (by omega)]
      | cons h1 h2 ht hv hr =>
        rename_i n v fs t s r'
        have ht' := varint_pos ht
        obtain ⟨e1, e2, e3⟩ := tag_num n v
        simp only [skipGroup, List.append_assoc, getVarint_of ht]
        rw [e1, e2, if_neg (by omega), if_neg e3, ih.1 hv (by simp at hf; omega)]
        exact ih.2 hr he hn hn' (by simp at hf; omega) r

theorem of_skip (f : Nat) :
    (∀ {num w : Nat} {s r : Bytes}, 1 ≤ num → num ≤ 2147483647 → skipValue f num w s = some r →
      ∃ v p, v.wireType = w ∧ Encoded num v p ∧ s = p ++ r) ∧
    ∀ {num : Nat} {s r : Bytes}, skipGroup f num s = some r → ∃ fs p e, Fields 2147483647 fs p ∧ Varint (num * 8 + 4) e ∧ s = p ++ (e ++ r) := by
  induction f with
  | zero => exact ⟨fun _ _ h => by simp [skipValue] at h, fun h => by simp [skipGroup] at h⟩
  | succ f ih =>
    constructor
    · intro num w s r h1 h2 h
      unfold skipValue at h
      split at h
      · cases hg : getVarint s with
        | none => simp [hg] at h
        | some x =>
          obtain ⟨n, q⟩ := x
          simp only [hg, Option.map_some, Option.some.injEq] at h
          subst h
          obtain ⟨p, e, hp⟩ := (getVarint_iff _ _ _).1 hg
          exact ⟨.varint n, p, rfl, .varint hp, e⟩
      · split at h
        · rename_i hl
          simp only [Option.some.injEq] at h
          subst h
          exact ⟨.fixed64 (s.take 8), s.take 8, rfl, .fixed64 (by simp; omega), by simp⟩
        · cases h
      · cases hg : getBytes s with
        | none => simp [hg] at h
        | some x =>
          obtain ⟨b, q⟩ := x
          simp only [hg, Option.map_some, Option.some.injEq] at h
          subst h
          obtain ⟨p, e, hp⟩ := (getBytes_iff _ _ _).1 hg
          exact ⟨.bytes b, p ++ b, rfl, .bytes hp, by simp [e]⟩
      · obtain ⟨fs, p, e, hf, he, rfl⟩ := ih.2 h
        exact ⟨.group, p ++ e, rfl, .group hf he h1 h2, by simp⟩
      · split at h
        · rename_i hl
          simp only [Option.some.injEq] at h
          subst h
          exact ⟨.fixed32 (s.take 4), s.take 4, rfl, .fixed32 (by simp; omega), by simp⟩
        · cases h
      · cases h
    · intro num s r h
      unfold skipGroup at h
      cases hg : getVarint s with
      | none => simp [hg] at h
      | some x =>
        obtain ⟨tag, q⟩ := x
        obtain ⟨t, rfl, ht⟩ := (getVarint_iff _ _ _).1 hg
        simp only [hg] at h
        split at h
        · cases h
        · split at h
          · split at h
            · simp only [Option.some.injEq] at h
              subst h
              refine ⟨[], [], t, .nil, ?_, by simp⟩
              convert ht using 1
              omega
            · cases h
          · cases hv : skipValue f (tag / 8) (tag % 8) q with
            | none => simp [hv] at h
            | some r' =>
              simp only [hv] at h
              obtain ⟨v, p, hw, hp, rfl⟩ := ih.1 (by omega) (by omega) hv
              obtain ⟨fs, p', e, hf, he, rfl⟩ := ih.2 h
              refine ⟨(tag / 8, v) :: fs, t ++ (p ++ p'), e, .cons (by omega) (by omega) ?_ hp hf, he, by simp⟩
              convert ht using 1
              omega

/-- One field. -/
def put (v : VLog) : Nat × Value → Option VLog
  | (1, .bytes b) => if utf8Valid b then some { v with id := b } else none
  | (2, .varint n) => some { v with time := wrap64 n }
  | (3, .bytes b) => if utf8Valid b then some { v with host := b } else none
  | (4, .bytes b) => if utf8Valid b then some { v with name := b } else none
  | (5, .varint n) => some { v with index := wrap32 n }
  | (6, .bytes b) => if utf8Valid b then some { v with args := v.args ++ [b] } else none
  | (255, .bytes b) => if utf8Valid b then some { v with raw := b } else none
  | _ => some v

/-- A string field of `readField`. -/
def strField (s : Bytes) (put : Bytes → VLog) : Option (VLog × Bytes) :=
  match getBytes s with
  | none => none
  | some (b, r) => if utf8Valid b then some (put b, r) else none

/-- An integer field of `readField`. -/
def intField (s : Bytes) (put : Nat → VLog) : Option (VLog × Bytes) :=
  match getVarint s with
  | none => none
  | some (n, r) => some (put n, r)

theorem readField_eq (f : Nat) (v : VLog) (num w : Nat) (s : Bytes) : readField f v num w s =
    match num, w with
    | 1, 2 => strField s fun b => { v with id := b }
    | 2, 0 => intField s fun n => { v with time := wrap64 n }
    | 3, 2 => strField s fun b => { v with host := b }
    | 4, 2 => strField s fun b => { v with name := b }
    | 5, 0 => intField s fun n => { v with index := wrap32 n }
    | 6, 2 => strField s fun b => { v with args := v.args ++ [b] }
    | 255, 2 => strField s fun b => { v with raw := b }
    | _, _ => (skipValue f num w s).map fun r => (v, r) := rfl

theorem readField_of {num : Nat} {x : Value} {s : Bytes} (h : Encoded num x s) (f : Nat) (hf : 2 * s.length + 1 ≤ f) (v : VLog) (r : Bytes) :
    readField f v num x.wireType (s ++ r) = (put v (num, x)).map fun v' => (v', r) := by
  have hs := (skip_of f).1 h hf r
  rw [readField_eq]
  cases h with
  | varint h =>
    rename_i n
    have hg (put) : intField (s ++ r) put = some (put n, r) := by rw [intField, getVarint_of h]
    simp only [Value.wireType, hg] at hs ⊢
    unfold put
    split <;> simp_all
  | fixed64 h =>
    simp only [Value.wireType] at hs ⊢
    unfold put
    split <;> simp_all
  | bytes h =>
    rename_i p b
    have hg (put) : strField (p ++ b ++ r) put = if utf8Valid b then some (put b, r) else none := by
      rw [strField, List.append_assoc, getBytes_of h]
    simp only [Value.wireType, hg] at hs ⊢
    unfold put
    clear hg
    cases hb : utf8Valid b <;> split <;> simp_all
  | fixed32 h =>
    simp only [Value.wireType] at hs ⊢
    unfold put
    split <;> simp_all
  | group h he h1 h2 =>
    simp only [Value.wireType] at hs ⊢
    unfold put
    split <;> simp_all

theorem unmarshalLoop_of {fs : List (Nat × Value)} {s : Bytes} (h : Message fs s) (f : Nat) (hf : s.length ≤ f) (v : VLog) :
    unmarshalLoop f v s = fs.foldlM put v := by
  induction f generalizing fs s v with
  | zero =>
    obtain rfl : s = [] := List.length_eq_zero_iff.1 (by omega)
    generalize hs : ([] : Bytes) = s at h
    cases h with
    | nil => simp [unmarshalLoop]
    | cons h1 h2 ht hv hr =>
      have := varint_pos ht
      have := congrArg List.length hs
      simp at this; omega
  | succ f ih =>
    cases h with
    | nil => simp [unmarshalLoop]
    | cons h1 h2 ht hv hr =>
      rename_i n x fs t s r
      have ht' := varint_pos ht
      obtain ⟨e1, e2, e3⟩ := tag_num n x
      obtain ⟨c, t', e⟩ : ∃ c t', t ++ (s ++ r) = c :: t' := List.exists_cons_of_ne_nil (by simp [varint_ne_nil ht])
      have hg := getVarint_of ht (s ++ r)
      rw [e] at hg ⊢
      simp only [unmarshalLoop, hg]
      rw [e1, e2, if_neg (by omega), if_neg e3, readField_of hv _ (by simp; omega)]
      simp only [List.foldlM_cons]
      cases put v (n, x) with
      | none => rfl
      | some v' =>
        simp only [Option.map_some]
        exact ih hr (by simp at hf; omega) v'

theorem of_readField {f num w : Nat} {s r : Bytes} {v v' : VLog} (h1 : 1 ≤ num) (h2 : num ≤ 2147483647) (h : readField f v num w s = some (v', r)) :
    ∃ x p, x.wireType = w ∧ Encoded num x p ∧ s = p ++ r := by
  have str : ∀ (g : Bytes → VLog), strField s g = some (v', r) → ∃ x p, x.wireType = 2 ∧ Encoded num x p ∧ s = p ++ r := by
    intro g hh
    unfold strField at hh
    cases hg : getBytes s with
    | none => simp [hg] at hh
    | some y =>
      obtain ⟨b, q⟩ := y
      simp only [hg] at hh
      split at hh
      · simp only [Option.some.injEq, Prod.mk.injEq] at hh
        obtain ⟨-, rfl⟩ := hh
        obtain ⟨p, e, hp⟩ := (getBytes_iff _ _ _).1 hg
        exact ⟨.bytes b, p ++ b, rfl, .bytes hp, by simp [e]⟩
      · cases hh
  have var : ∀ (g : Nat → VLog), intField s g = some (v', r) → ∃ x p, x.wireType = 0 ∧ Encoded num x p ∧ s = p ++ r := by
    intro g hh
    unfold intField at hh
    cases hg : getVarint s with
    | none => simp [hg] at hh
    | some y =>
      obtain ⟨n, q⟩ := y
      simp only [hg, Option.some.injEq, Prod.mk.injEq] at hh
      obtain ⟨-, rfl⟩ := hh
      obtain ⟨p, e, hp⟩ := (getVarint_iff _ _ _).1 hg
      exact ⟨.varint n, p, rfl, .varint hp, e⟩
  rw [readField_eq] at h
  split at h
  · exact str _ h
  · exact var _ h
  · exact str _ h
  · exact str _ h
  · exact var _ h
  · exact str _ h
  · exact str _ h
  · cases hk : skipValue f num w s with
    | none => simp [hk] at h
    | some q =>
      simp only [hk, Option.map_some, Option.some.injEq, Prod.mk.injEq] at h
      obtain ⟨-, rfl⟩ := h
      exact (of_skip f).1 h1 h2 hk

theorem of_unmarshalLoop {f : Nat} {v v' : VLog} {s : Bytes} (h : unmarshalLoop f v s = some v') : ∃ fs, Message fs s := by
  induction f generalizing v s with
  | zero =>
    cases s with
    | nil => exact ⟨[], .nil⟩
    | cons c s => simp [unmarshalLoop] at h
  | succ f ih =>
    cases s with
    | nil => exact ⟨[], .nil⟩
    | cons c s =>
      unfold unmarshalLoop at h
      cases hg : getVarint (c :: s) with
      | none => simp [hg] at h
      | some x =>
        obtain ⟨tag, q⟩ := x
        obtain ⟨t, e, ht⟩ := (getVarint_iff _ _ _).1 hg
        simp only [hg] at h
        split at h
        · cases h
        · split at h
          · cases h
          · cases hv : readField (2 * q.length + 2) v (tag / 8) (tag % 8) q with
            | none => simp [hv] at h
            | some y =>
              obtain ⟨v1, r⟩ := y
              simp only [hv] at h
              obtain ⟨x, p, hw, hp, rfl⟩ := of_readField (by omega) (by omega) hv
              obtain ⟨fs, hf⟩ := ih h
              rw [e]
              refine ⟨(tag / 8, x) :: fs, .cons (by omega) (by omega) ?_ hp hf⟩
              convert ht using 1
              omega

/-- The record said by fields. -/
def said (fs : List (Nat × Value)) : VLog :=
  { id := (strings 1 fs).getLastD [], time := wrap64 ((numbers 2 fs).getLastD 0 : Nat), host := (strings 3 fs).getLastD []
    name := (strings 4 fs).getLastD [], index := wrap32 ((numbers 5 fs).getLastD 0 : Nat), args := strings 6 fs
    raw := (strings 255 fs).getLastD [] }

/-- All strings that count are UTF-8. -/
def Readable (fs : List (Nat × Value)) : Prop := ∀ num ∈ [1, 3, 4, 6, 255], ∀ b ∈ strings num fs, ValidUTF8 b

theorem strings_append (num : Nat) (fs gs : List (Nat × Value)) : strings num (fs ++ gs) = strings num fs ++ strings num gs := List.filterMap_append
theorem numbers_append (num : Nat) (fs gs : List (Nat × Value)) : numbers num (fs ++ gs) = numbers num fs ++ numbers num gs := List.filterMap_append

theorem readable_append (fs gs : List (Nat × Value)) : Readable (fs ++ gs) ↔ Readable fs ∧ Readable gs := by
  simp only [Readable, strings_append, List.mem_append]
  exact ⟨fun h => ⟨fun n hn b hb => h n hn b (.inl hb), fun n hn b hb => h n hn b (.inr hb)⟩,
    fun h n hn b hb => hb.elim (h.1 n hn b) (h.2 n hn b)⟩

theorem put_said (fs : List (Nat × Value)) (x : Nat × Value) : (Readable [x] → put (said fs) x = some (said (fs ++ [x]))) ∧
    (¬ Readable [x] → put (said fs) x = none) := by
  unfold said Readable
  simp only [strings_append, numbers_append]
  obtain ⟨n, x⟩ := x
  unfold put
  cases x with
  | varint m =>
    have e : ∀ k, strings k [(n, .varint m)] = [] := fun k => rfl
    have e' : ∀ k, numbers k [(n, .varint m)] = if n = k then [m] else [] := by intro k; simp only [numbers, List.filterMap]; split <;> simp_all
    simp only [e, e']
    split <;> simp_all
  | bytes b =>
    have e : ∀ k, numbers k [(n, .bytes b)] = [] := fun k => rfl
    have e' : ∀ k, strings k [(n, .bytes b)] = if n = k then [b] else [] := by intro k; simp only [strings, List.filterMap]; split <;> simp_all
    simp only [e, e', ← utf8Valid_iff]
    split <;> simp_all
  | fixed64 b =>
    have e : ∀ k, numbers k [(n, .fixed64 b)] = [] := fun k => rfl
    have e' : ∀ k, strings k [(n, .fixed64 b)] = [] := fun k => rfl
    simp [e, e']
  | fixed32 b =>
    have e : ∀ k, numbers k [(n, .fixed32 b)] = [] := fun k => rfl
    have e' : ∀ k, strings k [(n, .fixed32 b)] = [] := fun k => rfl
    simp [e, e']
  | group =>
    have e : ∀ k, numbers k [(n, .group)] = [] := fun k => rfl
    have e' : ∀ k, strings k [(n, .group)] = [] := fun k => rfl
    simp [e, e']

theorem foldlM_put (fs : List (Nat × Value)) : (Readable fs → fs.foldlM put empty = some (said fs)) ∧ (¬ Readable fs → fs.foldlM put empty = none) := by
  induction fs using List.reverseRecOn with
  | nil => exact ⟨fun _ => rfl, fun h => absurd (by simp [Readable, strings]) h⟩
  | append_singleton fs x ih =>
    rw [readable_append, List.foldlM_append]
    constructor
    · rintro ⟨h1, h2⟩
      rw [ih.1 h1]
      simpa using (put_said fs x).1 h2
    · intro h
      by_cases h1 : Readable fs
      · rw [ih.1 h1]
        simpa using (put_said fs x).2 fun h2 => h ⟨h1, h2⟩
      · rw [ih.2 h1]
        rfl

theorem wrap64_of {x : Int} {n : Nat} : x = wrap64 n ↔ InInt64 x ∧ (2 ^ 64 : Int) ∣ x - n := by
  unfold wrap64 InInt64 minInt64 maxInt64
  omega

theorem wrap32_of {x : Int} {n : Nat} : x = wrap32 n ↔ (-2 ^ 31 ≤ x ∧ x < 2 ^ 31) ∧ (2 ^ 32 : Int) ∣ x - n := by
  unfold wrap32
  omega

theorem says_iff (fs : List (Nat × Value)) (v : VLog) : Says fs v ↔ Readable fs ∧ v = said fs := by
  unfold Says Readable said
  rw [← wrap64_of, ← wrap32_of]
  cases v
  simp only [VLog.mk.injEq]
  tauto

theorem unmarshal_of {fs : List (Nat × Value)} {s : Bytes} (h : Message fs s) (v : VLog) : unmarshal s = some v ↔ Says fs v := by
  rw [unmarshal, unmarshalLoop_of h _ (by omega), says_iff]
  by_cases hr : Readable fs
  · rw [(foldlM_put fs).1 hr]
    simp [hr, eq_comm]
  · rw [(foldlM_put fs).2 hr]
    simp [hr]

theorem of_unmarshal {s : Bytes} {v : VLog} (h : unmarshal s = some v) : ∃ fs, Message fs s := of_unmarshalLoop h

theorem encoded_bytes {num : Nat} {b p : Bytes} (h : Encoded num (.bytes b) p) : ∃ q, p = q ++ b ∧ Varint b.length q := by
  cases h with
  | bytes h => exact ⟨_, rfl, h⟩

theorem encoded_unique {num : Nat} {x y : Value} {p q r t : Bytes} (h : Encoded num x p) (h' : Encoded num y q) (hw : x.wireType = y.wireType)
    (e : p ++ r = q ++ t) : x = y ∧ p = q ∧ r = t := by
  have e1 := (skip_of (2 * (p.length + q.length) + 1)).1 h (by omega) r
  have e2 := (skip_of (2 * (p.length + q.length) + 1)).1 h' (by omega) t
  rw [e, hw, e2] at e1
  obtain rfl : t = r := by simpa using e1
  obtain rfl : p = q := List.append_cancel_right e
  refine ⟨?_, rfl, rfl⟩
  cases x <;> cases y <;> simp only [Value.wireType, Nat.reduceEqDiff, OfNat.ofNat_ne_zero, OfNat.zero_ne_ofNat, OfNat.one_ne_ofNat, OfNat.ofNat_ne_one,
    zero_ne_one, one_ne_zero] at hw
  · cases h with
    | varint h => cases h' with
      | varint h' =>
        obtain ⟨_, _, _, _, _, _, h, _⟩ := h
        obtain ⟨_, _, _, _, _, _, h', _⟩ := h'
        rw [h, h']
  · cases h; cases h'; rfl
  · obtain ⟨u, rfl, h1⟩ := encoded_bytes h
    obtain ⟨w, e, h2⟩ := encoded_bytes h'
    have e3 := getBytes_of h1 []
    have e4 := getBytes_of h2 []
    simp only [List.append_nil] at e3 e4
    rw [e, e4] at e3
    simp at e3
    rw [e3]
  · rfl
  · cases h; cases h'; rfl

theorem fields_unique {max : Nat} {fs gs : List (Nat × Value)} {s : Bytes} (h : Fields max fs s) (h' : Fields max gs s) : fs = gs := by
  induction fs generalizing gs s with
  | nil =>
    cases h
    generalize hs : ([] : Bytes) = s at h'
    cases h' with
    | nil => rfl
    | cons _ _ ht =>
      have := varint_pos ht
      have := congrArg List.length hs
      simp at this; omega
  | cons f fs ih =>
    cases h with
    | cons h1 h2 ht hv hr =>
      rename_i n x t s r
      generalize hs : t ++ (s ++ r) = u at h'
      cases h' with
      | nil => exact absurd hs (by simp [varint_ne_nil ht])
      | cons h1' h2' ht' hv' hr' =>
        rename_i n' x' fs' t' s' r'
        have e1 := getVarint_of ht (s ++ r)
        have e2 := getVarint_of ht' (s' ++ r')
        rw [hs, e2] at e1
        simp only [Option.some.injEq, Prod.mk.injEq] at e1
        obtain ⟨e3, e4⟩ := e1
        obtain ⟨a1, a2, -⟩ := tag_num n x
        obtain ⟨b1, b2, -⟩ := tag_num n' x'
        rw [e3] at b1 b2
        obtain rfl : n = n' := by omega
        obtain ⟨rfl, rfl, rfl⟩ := encoded_unique hv hv' (by omega) e4.symm
        rw [ih hr hr']

theorem fields_append {max : Nat} {fs gs : List (Nat × Value)} {s t : Bytes} (h : Fields max fs s) (h' : Fields max gs t) : Fields max (fs ++ gs) (s ++ t) := by
  induction fs generalizing s with
  | nil => cases h; exact h'
  | cons f fs ih =>
    cases h with
    | cons h1 h2 ht hv hr =>
      rw [List.append_assoc, List.append_assoc]
      exact .cons h1 h2 ht hv (ih hr)

theorem varint_put {n : Nat} (h : n < 2 ^ 64) : Varint n (putVarint n) := by
  have := getVarint_put n [] h
  rw [List.append_nil] at this
  obtain ⟨p, e, hp⟩ := (getVarint_iff _ _ _).1 this
  rw [List.append_nil] at e
  rwa [e]

theorem fields_bytes {num : Nat} {s : Bytes} (h1 : 1 ≤ num) (h2 : num ≤ 536870911) (hs : s.length < 2 ^ 64) : Message [(num, .bytes s)] (putBytes num s) := by
  have := Fields.cons (max := 536870911) h1 h2 (v := .bytes s) (varint_put (by simp only [Value.wireType]; omega)) (.bytes (varint_put hs)) .nil
  simpa only [putBytes, Message, Value.wireType, List.append_nil, List.append_assoc] using this

theorem fields_string {num : Nat} {s : Bytes} (h1 : 1 ≤ num) (h2 : num ≤ 536870911) (hs : s.length < 2 ^ 64) :
    Message (if s = [] then [] else [(num, .bytes s)]) (putString num s) := by
  unfold putString
  split
  · exact .nil
  · exact fields_bytes h1 h2 hs

theorem fields_int {num : Nat} {x : Int} (h1 : 1 ≤ num) (h2 : num ≤ 536870911) (hx : InInt64 x) :
    Message (if x = 0 then [] else [(num, .varint (if 0 ≤ x then x else 2 ^ 64 + x).toNat)]) (putInt num x) := by
  unfold putInt
  split
  · exact .nil
  · have e : (if 0 ≤ x then x else 2 ^ 64 + x).toNat = (x % 18446744073709551616).toNat := by
      unfold InInt64 minInt64 maxInt64 at hx
      split <;> omega
    rw [e]
    have := Fields.cons (max := 536870911) h1 h2 (v := .varint (x % 18446744073709551616).toNat) (varint_put (by simp only [Value.wireType]; omega))
      (.varint (varint_put (mod_lt x))) .nil
    simpa only [Message, Value.wireType, List.append_nil, Nat.add_zero] using this

theorem fields_args (as : List Bytes) (h : ∀ a ∈ as, a.length < 2 ^ 64) : Message (as.map fun a => (6, .bytes a)) (as.flatMap (putBytes 6)) := by
  induction as with
  | nil => exact .nil
  | cons a as ih =>
    exact fields_append (fields_bytes (by omega) (by omega) (h a (by simp))) (ih fun b hb => h b (by simp [hb]))

end Verif.Proto
