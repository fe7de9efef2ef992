import Verif.Spec.Request
import Verif.Lemmas.Refine

/-! From requests to commands. -/

namespace Verif

open Spec

theorem text_of {o : Resp} {d : Bytes} (h : IsText o d) : text o = some d := by cases h <;> rfl

theorem isText_iff {o : Resp} {d : Bytes} : IsText o d ↔ text o = some d := by
  constructor
  · exact text_of
  · intro h
    cases o <;> simp [text] at h
    · subst h; exact .simple _
    · subst h; exact .bulk _
    · subst h; exact .null

theorem texts_of {os : List Resp} {ds : List Bytes} (h : List.Forall₂ IsText os ds) : texts os = some ds := by
  induction h with
  | nil => rfl
  | cons h1 _ ih => simp [texts, text_of h1, ih]

theorem texts_iff {os : List Resp} {ds : List Bytes} : texts os = some ds ↔ List.Forall₂ IsText os ds := by
  refine ⟨fun h => ?_, texts_of⟩
  induction os generalizing ds with
  | nil => simp [texts] at h; subst h; exact .nil
  | cons o os ih =>
    simp only [texts] at h
    split at h
    · simp at h
    · rename_i d hd
      split at h
      · simp at h
      · rename_i ds' hds
        simp at h; subst h
        exact .cons (isText_iff.2 hd) (ih hds)

theorem texts_length {os : List Resp} {ds : List Bytes} (h : texts os = some ds) : os.length = ds.length :=
  (texts_iff.1 h).length_eq

theorem pairs_of {ks vs : List Bytes} (hl : ks.length = vs.length) {os : List Resp}
    (h : List.Forall₂ IsText os ((ks.zip vs).flatMap fun p => [p.1, p.2])) : pairs os = some (ks, vs) := by
  induction ks generalizing vs os with
  | nil => 
    have : vs = [] := List.length_eq_zero_iff.1 (by simpa using hl.symm)
    subst this
    cases h; rfl
  | cons k ks ih =>
    cases vs with
    | nil => simp at hl
    | cons v vs =>
      simp only [List.zip_cons_cons, List.flatMap_cons, List.cons_append, List.nil_append] at h
      cases h with
      | cons h1 h =>
        cases h with
        | cons h2 h =>
          simp only [pairs, text_of h1, text_of h2, ih (by simpa using hl) h]

theorem pairs_length {os : List Resp} : ∀ {p : List Bytes × List Bytes}, pairs os = some p → p.1.length = p.2.length := by
  induction os using pairs.induct with
  | case1 k v os hk => intro p h; simp [pairs, hk] at h
  | case2 k v os dk hk hv => intro p h; simp [pairs, hk, hv] at h
  | case3 k v os dk hk dv hv ih => intro p h; simp [pairs, hk, hv, ih] at h
  | case4 k v os dk hk dv hv ks vs hp ih =>
    intro p h
    simp [pairs, hk, hv, hp] at h
    subst h
    have := ih hp
    simp at this ⊢; exact this
  | case5 os hos =>
    intro p h
    rcases os with _ | ⟨o, _ | ⟨o', os⟩⟩
    · simp [pairs] at h; subst h; rfl
    · simp [pairs] at h; subst h; rfl
    · exact absurd rfl (hos _ _ _)

theorem intArg_in {o : Resp} {v : Int} (h : intArg o = some v) : InInt64 v := by
  unfold intArg at h
  split at h
  · simp at h
  · exact parseInt64_in h

theorem intArg_iff {o : Resp} {v : Int} : intArg o = some v ↔ ∃ d, IsText o d ∧ IsInt d v := by
  unfold intArg
  simp only [isText_iff, isInt_iff]
  cases text o <;> simp

theorem forall₂_one {os : List Resp} {k : Bytes} : List.Forall₂ IsText os [k] ↔ ∃ o, os = [o] ∧ IsText o k := by
  simp [List.forall₂_cons_right_iff, and_comm]

theorem forall₂_two {os : List Resp} {k v : Bytes} :
    List.Forall₂ IsText os [k, v] ↔ ∃ o p, os = [o, p] ∧ IsText o k ∧ IsText p v := by
  constructor
  · rintro (_ | ⟨h1, _ | ⟨h2, _ | _⟩⟩); exact ⟨_, _, rfl, h1, h2⟩
  · rintro ⟨o, p, rfl, h1, h2⟩; exact .cons h1 (.cons h2 .nil)

theorem forall₂_three {os : List Resp} {k v w : Bytes} :
    List.Forall₂ IsText os [k, v, w] ↔ ∃ o p q, os = [o, p, q] ∧ IsText o k ∧ IsText p v ∧ IsText q w := by
  constructor
  · rintro (_ | ⟨h1, _ | ⟨h2, _ | ⟨h3, _ | _⟩⟩⟩); exact ⟨_, _, _, rfl, h1, h2, h3⟩
  · rintro ⟨o, p, q, rfl, h1, h2, h3⟩; exact .cons h1 (.cons h2 (.cons h3 .nil))

theorem forall₂_four {os : List Resp} {k v w x : Bytes} :
    List.Forall₂ IsText os [k, v, w, x] ↔ ∃ o p q r, os = [o, p, q, r] ∧ IsText o k ∧ IsText p v ∧ IsText q w ∧ IsText r x := by
  constructor
  · rintro (_ | ⟨h1, _ | ⟨h2, _ | ⟨h3, _ | ⟨h4, _ | _⟩⟩⟩⟩); exact ⟨_, _, _, _, rfl, h1, h2, h3, h4⟩
  · rintro ⟨o, p, q, r, rfl, h1, h2, h3, h4⟩; exact .cons h1 (.cons h2 (.cons h3 (.cons h4 .nil)))

/-! ### What each parser accepts -/

theorem parseKey_iff {mk : Bytes → Command} {os : List Resp} {c : Command} :
    parseKey mk os = some c ↔ ∃ k, List.Forall₂ IsText os [k] ∧ c = mk k := by
  simp only [forall₂_one, isText_iff]
  constructor
  · intro h
    unfold parseKey at h
    split at h
    · rename_i o
      cases ht : text o with
      | none => rw [ht] at h; simp at h
      | some k => rw [ht] at h; simp at h; exact ⟨k, ⟨o, rfl, ht⟩, h.symm⟩
    · simp at h
  · rintro ⟨k, ⟨o, rfl, ht⟩, rfl⟩
    simp [parseKey, ht]

theorem parseKeyArg_iff {mk : Bytes → Bytes → Command} {os : List Resp} {c : Command} :
    parseKeyArg mk os = some c ↔ ∃ k v, List.Forall₂ IsText os [k, v] ∧ c = mk k v := by
  simp only [forall₂_two, isText_iff]
  constructor
  · intro h
    unfold parseKeyArg at h
    split at h
    · rename_i o p
      split at h
      · rename_i k v h1 h2
        simp at h; exact ⟨k, v, ⟨o, p, rfl, h1, h2⟩, h.symm⟩
      · simp at h
    · simp at h
  · rintro ⟨k, v, ⟨o, p, rfl, h1, h2⟩, rfl⟩
    simp [parseKeyArg, h1, h2]

theorem parseKeys_iff {mk : List Bytes → Command} {os : List Resp} {c : Command} :
    parseKeys mk os = some c ↔ ∃ ks, ks ≠ [] ∧ List.Forall₂ IsText os ks ∧ c = mk ks := by
  simp only [← texts_iff]
  unfold parseKeys
  constructor
  · intro h
    split at h
    · simp at h
    · rename_i hl
      cases ht : texts os with
      | none => rw [ht] at h; simp at h
      | some ks =>
        rw [ht] at h; simp at h
        refine ⟨ks, ?_, rfl, h.symm⟩
        rintro rfl
        have := texts_length ht
        simp at this; exact hl (by simp [this])
  · rintro ⟨ks, hk, ht, rfl⟩
    have := texts_length ht
    have : ks.length ≠ 0 := by simpa using hk
    rw [if_neg (by omega), ht]; rfl

theorem parseKeyArgs_iff {mk : Bytes → List Bytes → Command} {os : List Resp} {c : Command} :
    parseKeyArgs mk os = some c ↔ ∃ k vs, vs ≠ [] ∧ List.Forall₂ IsText os (k :: vs) ∧ c = mk k vs := by
  simp only [← texts_iff]
  unfold parseKeyArgs
  constructor
  · intro h
    split at h
    · simp at h
    · rename_i hl
      split at h
      · rename_i k vs ht
        simp at h
        refine ⟨k, vs, ?_, ht, h.symm⟩
        rintro rfl
        have := texts_length ht
        simp at this; omega
      · simp at h
  · rintro ⟨k, vs, hk, ht, rfl⟩
    have h1 := texts_length ht
    have h2 : vs.length ≠ 0 := by simpa using hk
    simp at h1
    rw [if_neg (by omega), ht]

theorem parseKeyInts_iff {mk : Bytes → Int → Int → Command} {os : List Resp} {c : Command} :
    parseKeyInts mk os = some c ↔ ∃ k l r i j, List.Forall₂ IsText os [k, l, r] ∧ IsInt l i ∧ IsInt r j ∧ c = mk k i j := by
  constructor
  · intro h
    unfold parseKeyInts at h
    split at h
    · rename_i o a b
      split at h
      · rename_i k i j h1 h2 h3
        simp at h
        obtain ⟨l, hl, hi⟩ := intArg_iff.1 h2
        obtain ⟨r, hr, hj⟩ := intArg_iff.1 h3
        exact ⟨k, l, r, i, j, forall₂_three.2 ⟨_, _, _, rfl, isText_iff.2 h1, hl, hr⟩, hi, hj, h.symm⟩
      · simp at h
    · simp at h
  · rintro ⟨k, l, r, i, j, hf, hi, hj, rfl⟩
    obtain ⟨o, p, q, rfl, h1, h2, h3⟩ := forall₂_three.1 hf
    simp [parseKeyInts, text_of h1, intArg_iff.2 ⟨l, h2, hi⟩, intArg_iff.2 ⟨r, h3, hj⟩]

theorem parseKeyIntArg_iff {mk : Bytes → Int → Bytes → Command} {os : List Resp} {c : Command} :
    parseKeyIntArg mk os = some c ↔ ∃ k l v i, List.Forall₂ IsText os [k, l, v] ∧ IsInt l i ∧ c = mk k i v := by
  constructor
  · intro h
    unfold parseKeyIntArg at h
    split at h
    · rename_i o a b
      split at h
      · rename_i k i v h1 h2 h3
        simp at h
        obtain ⟨l, hl, hi⟩ := intArg_iff.1 h2
        exact ⟨k, l, v, i, forall₂_three.2 ⟨_, _, _, rfl, isText_iff.2 h1, hl, isText_iff.2 h3⟩, hi, h.symm⟩
      · simp at h
    · simp at h
  · rintro ⟨k, l, v, i, hf, hi, rfl⟩
    obtain ⟨o, p, q, rfl, h1, h2, h3⟩ := forall₂_three.1 hf
    simp [parseKeyIntArg, text_of h1, intArg_iff.2 ⟨l, h2, hi⟩, text_of h3]

theorem parseLindex_iff {os : List Resp} {c : Command} :
    parseLindex os = some c ↔ ∃ k l i, List.Forall₂ IsText os [k, l] ∧ IsInt l i ∧ c = .lindex k i := by
  constructor
  · intro h
    unfold parseLindex at h
    split at h
    · rename_i o a
      split at h
      · rename_i k i h1 h2
        simp at h
        obtain ⟨l, hl, hi⟩ := intArg_iff.1 h2
        exact ⟨k, l, i, forall₂_two.2 ⟨_, _, rfl, isText_iff.2 h1, hl⟩, hi, h.symm⟩
      · simp at h
    · simp at h
  · rintro ⟨k, l, i, hf, hi, rfl⟩
    obtain ⟨o, p, rfl, h1, h2⟩ := forall₂_two.1 hf
    simp [parseLindex, text_of h1, intArg_iff.2 ⟨l, h2, hi⟩]

theorem pairs_forall₂ {os : List Resp} : ∀ {p : List Bytes × List Bytes}, os.length % 2 = 0 → pairs os = some p →
    List.Forall₂ IsText os (weave p.1 p.2) := by
  induction os using pairs.induct with
  | case1 k v os hk => intro p _ h; simp [pairs, hk] at h
  | case2 k v os dk hk hv => intro p _ h; simp [pairs, hk, hv] at h
  | case3 k v os dk hk dv hv ih => intro p _ h; simp [pairs, hk, hv, ih] at h
  | case4 k v os dk hk dv hv ks vs hp ih =>
    intro p hl h
    simp [pairs, hk, hv, hp] at h
    subst h
    have := ih (by simp at hl; omega) hp
    exact .cons (isText_iff.2 hk) (.cons (isText_iff.2 hv) this)
  | case5 os hos =>
    intro p hl h
    rcases os with _ | ⟨o, _ | ⟨o', os⟩⟩
    · simp [pairs] at h; subst h; exact .nil
    · simp at hl
    · exact absurd rfl (hos _ _ _)

theorem weave_length {ks vs : List Bytes} (hl : ks.length = vs.length) : (weave ks vs).length = 2 * ks.length := by
  induction ks generalizing vs with
  | nil => simp [weave]
  | cons k ks ih =>
    cases vs with
    | nil => simp at hl
    | cons v vs =>
      have := ih (vs := vs) (by simpa using hl)
      simp only [weave, List.zip_cons_cons, List.flatMap_cons, List.length_append, List.length_cons] at this ⊢
      rw [this]; simp; omega

theorem parseMset_iff {os : List Resp} {c : Command} :
    parseMset os = some c ↔ ∃ ks vs, ks.length = vs.length ∧ List.Forall₂ IsText os (weave ks vs) ∧ c = .mset ks vs := by
  unfold parseMset
  constructor
  · intro h
    split at h
    · simp at h
    · rename_i hl
      simp at hl
      cases hp : pairs os with
      | none => rw [hp] at h; simp at h
      | some p =>
        rw [hp] at h; simp at h
        exact ⟨p.1, p.2, pairs_length hp, pairs_forall₂ hl hp, h.symm⟩
  · rintro ⟨ks, vs, hl, hf, rfl⟩
    have := hf.length_eq
    rw [weave_length hl] at this
    rw [if_neg (by omega), pairs_of hl hf]; rfl

theorem parseHset_iff {os : List Resp} {c : Command} :
    parseHset os = some c ↔ ∃ k fs vs, fs.length = vs.length ∧ List.Forall₂ IsText os (k :: weave fs vs) ∧ c = .hset k fs vs := by
  unfold parseHset
  constructor
  · intro h
    split at h
    · simp at h
    · rename_i hl
      simp at hl
      cases os with
      | nil => simp at h
      | cons o rest =>
        simp only at h
        split at h
        · simp at h
        · rename_i k hk
          cases hp : pairs rest with
          | none => rw [hp] at h; simp at h
          | some p =>
            rw [hp] at h; simp at h
            exact ⟨k, p.1, p.2, pairs_length hp, .cons (isText_iff.2 hk) (pairs_forall₂ (by simp at hl; omega) hp), h.symm⟩
  · rintro ⟨k, fs, vs, hl, hf, rfl⟩
    have := hf.length_eq
    rw [List.length_cons, weave_length hl] at this
    rw [if_neg (by omega)]
    cases hf with
    | cons h1 h2 => simp only [text_of h1, pairs_of hl h2]; rfl

theorem parseIncr_iff {mk : Bytes → Bytes → Command} {os : List Resp} {c : Command} :
    parseIncr mk os = some c ↔
      (∃ k, List.Forall₂ IsText os [k] ∧ c = mk k b!"1") ∨ ∃ k d, List.Forall₂ IsText os [k, d] ∧ c = mk k d := by
  simp only [forall₂_one, forall₂_two, isText_iff]
  constructor
  · intro h
    unfold parseIncr at h
    split at h
    · rename_i o
      cases ht : text o with
      | none => rw [ht] at h; simp at h
      | some k => rw [ht] at h; simp at h; exact .inl ⟨k, ⟨o, rfl, ht⟩, h.symm⟩
    · rename_i o p
      split at h
      · rename_i k v h1 h2
        simp at h; exact .inr ⟨k, v, ⟨o, p, rfl, h1, h2⟩, h.symm⟩
      · simp at h
    · simp at h
  · rintro (⟨k, ⟨o, rfl, ht⟩, rfl⟩ | ⟨k, v, ⟨o, p, rfl, h1, h2⟩, rfl⟩)
    · simp [parseIncr, ht]
    · simp [parseIncr, h1, h2]

theorem parseIncrOne_iff {mk : Bytes → Bytes → Command} {os : List Resp} {c : Command} :
    parseIncrOne mk os = some c ↔ ∃ o rest k, os = o :: rest ∧ IsText o k ∧ c = mk k b!"1" := by
  unfold parseIncrOne
  cases os with
  | nil => simp [parseIncr]
  | cons o rest =>
    simp only [List.length_cons, List.take_succ_cons, List.take_zero, ge_iff_le, Nat.le_add_left, if_true, isText_iff]
    constructor
    · intro h
      unfold parseIncr at h
      cases ht : text o with
      | none => simp [ht] at h
      | some k => simp [ht] at h; exact ⟨o, rest, k, rfl, ht, h.symm⟩
    · rintro ⟨o', rest', k, e, ht, rfl⟩
      cases e
      simp [parseIncr, ht]

theorem parseCount_iff {mk : Bytes → Option Int → Command} {os : List Resp} {c : Command} :
    parseCount mk os = some c ↔
      (∃ k, List.Forall₂ IsText os [k] ∧ c = mk k none) ∨ ∃ k d n, List.Forall₂ IsText os [k, d] ∧ IsInt d n ∧ c = mk k (some n) := by
  constructor
  · intro h
    unfold parseCount at h
    split at h
    · rename_i o
      cases ht : text o with
      | none => rw [ht] at h; simp at h
      | some k => rw [ht] at h; simp at h; exact .inl ⟨k, forall₂_one.2 ⟨o, rfl, isText_iff.2 ht⟩, h.symm⟩
    · rename_i o p
      split at h
      · rename_i k v h1 h2
        simp at h
        obtain ⟨d, hd, hi⟩ := intArg_iff.1 h2
        exact .inr ⟨k, d, v, forall₂_two.2 ⟨o, p, rfl, isText_iff.2 h1, hd⟩, hi, h.symm⟩
      · simp at h
    · simp at h
  · rintro (⟨k, hf, rfl⟩ | ⟨k, d, n, hf, hi, rfl⟩)
    · obtain ⟨o, rfl, h1⟩ := forall₂_one.1 hf
      simp [parseCount, text_of h1]
    · obtain ⟨o, p, rfl, h1, h2⟩ := forall₂_two.1 hf
      simp [parseCount, text_of h1, intArg_iff.2 ⟨d, h2, hi⟩]

theorem parseLinsert_iff {os : List Resp} {c : Command} :
    parseLinsert os = some c ↔ ∃ k w p v, List.Forall₂ IsText os [k, w, p, v] ∧
      ((toLower w = b!"before" ∧ c = .linsert k false p v) ∨ (toLower w = b!"after" ∧ c = .linsert k true p v)) := by
  constructor
  · intro h
    unfold parseLinsert at h
    split at h
    · rename_i o w p v
      split at h
      · rename_i k w' p' v' h1 h2 h3 h4
        refine ⟨k, w', p', v', forall₂_four.2 ⟨_, _, _, _, rfl, isText_iff.2 h1, isText_iff.2 h2, isText_iff.2 h3, isText_iff.2 h4⟩, ?_⟩
        split at h
        · rename_i hb; simp at h; exact .inl ⟨hb, h.symm⟩
        · split at h
          · rename_i ha; simp at h; exact .inr ⟨ha, h.symm⟩
          · simp at h
      · simp at h
    · simp at h
  · rintro ⟨k, w, p, v, hf, h⟩
    obtain ⟨o, p', q, r, rfl, h1, h2, h3, h4⟩ := forall₂_four.1 hf
    simp only [parseLinsert, text_of h1, text_of h2, text_of h3, text_of h4]
    rcases h with ⟨e, rfl⟩ | ⟨e, rfl⟩
    · rw [if_pos e]
    · rw [if_neg (by rw [e]; decide), if_pos e]

/-- Everything argument parsing lets through is `Valid`. -/
theorem newCommand_valid {name : Bytes} {args : List Resp} {c : Command} (h : newCommand name args = .ok c) : Valid c := by
  unfold newCommand at h
  split at h
  · simp at h
  · rename_i parse hp
    split at h
    · simp at h
    · rename_i c' hc
      simp at h; subst h
      have hm := GoMap.mem_of_get hp
      simp only [keyMap, List.mem_cons, Prod.mk.injEq, List.not_mem_nil, or_false] at hm
      have v1 : ∀ {mk}, parseKey mk args = some c' → (∀ k, Valid (mk k)) → Valid c' := by
        intro mk h hv; obtain ⟨k, -, rfl⟩ := parseKey_iff.1 h; exact hv k
      have v2 : ∀ {mk}, parseKeyArg mk args = some c' → (∀ k v, Valid (mk k v)) → Valid c' := by
        intro mk h hv; obtain ⟨k, v, -, rfl⟩ := parseKeyArg_iff.1 h; exact hv k v
      have v3 : ∀ {mk}, parseKeys mk args = some c' → (∀ ks, ks ≠ [] → Valid (mk ks)) → Valid c' := by
        intro mk h hv; obtain ⟨ks, hk, -, rfl⟩ := parseKeys_iff.1 h; exact hv ks hk
      have v4 : ∀ {mk}, parseKeyArgs mk args = some c' → (∀ k vs, vs ≠ [] → Valid (mk k vs)) → Valid c' := by
        intro mk h hv; obtain ⟨k, vs, hk, -, rfl⟩ := parseKeyArgs_iff.1 h; exact hv k vs hk
      have v5 : ∀ {mk}, parseKeyInts mk args = some c' → (∀ k a b, InInt64 a ∧ InInt64 b → Valid (mk k a b)) → Valid c' := by
        intro mk h hv; obtain ⟨k, l, r, i, j, -, hi, hj, rfl⟩ := parseKeyInts_iff.1 h; exact hv k i j ⟨hi.2, hj.2⟩
      have v6 : ∀ {mk}, parseKeyIntArg mk args = some c' → (∀ k a b, InInt64 a → Valid (mk k a b)) → Valid c' := by
        intro mk h hv; obtain ⟨k, l, r, i, -, hi, rfl⟩ := parseKeyIntArg_iff.1 h; exact hv k i r hi.2
      have v7 : ∀ {mk}, parseIncr mk args = some c' → (∀ k v, Valid (mk k v)) → Valid c' := by
        intro mk h hv
        rcases parseIncr_iff.1 h with ⟨k, -, rfl⟩ | ⟨k, d, -, rfl⟩
        · exact hv k _
        · exact hv k d
      have v8 : ∀ {mk}, parseIncrOne mk args = some c' → (∀ k v, Valid (mk k v)) → Valid c' := by
        intro mk h hv; obtain ⟨o, rest, k, -, -, rfl⟩ := parseIncrOne_iff.1 h; exact hv k _
      have v9 : ∀ {mk}, parseCount mk args = some c' → (∀ k v, (∀ n, v = some n → InInt64 n) → Valid (mk k v)) → Valid c' := by
        intro mk h hv
        rcases parseCount_iff.1 h with ⟨k, -, rfl⟩ | ⟨k, d, n, -, hi, rfl⟩
        · exact hv k none (by simp)
        · exact hv k (some n) (by simp; exact hi.2)
      have v10 : parseMset args = some c' → Valid c' := by
        intro h; obtain ⟨ks, vs, hl, -, rfl⟩ := parseMset_iff.1 h; exact hl
      have v11 : parseHset args = some c' → Valid c' := by
        intro h; obtain ⟨k, ks, vs, hl, -, rfl⟩ := parseHset_iff.1 h; exact hl
      have v12 : parseLindex args = some c' → Valid c' := by
        intro h; obtain ⟨k, l, i, -, hi, rfl⟩ := parseLindex_iff.1 h; exact hi.2
      have v13 : parseLinsert args = some c' → Valid c' := by
        intro h; obtain ⟨k, w, p, v, -, ⟨-, rfl⟩ | ⟨-, rfl⟩⟩ := parseLinsert_iff.1 h <;> trivial
      repeat' (rcases hm with ⟨-, hm⟩ | hm)
      all_goals try (obtain ⟨-, hm⟩ := hm)
      all_goals try subst hm
      all_goals first
        | exact v10 hc | exact v11 hc | exact v12 hc | exact v13 hc
        | exact v1 hc (fun _ => trivial) | exact v2 hc (fun _ _ => trivial) | exact v3 hc (fun _ h => h)
        | exact v4 hc (fun _ _ h => h) | exact v5 hc (fun _ _ _ h => h) | exact v6 hc (fun _ _ _ h => h)
        | exact v7 hc (fun _ _ => trivial) | exact v8 hc (fun _ _ => trivial) | exact v9 hc (fun _ _ h => h)

/-! ### Names -/

theorem folds_toLower {n w : Bytes} (h : Folds n w) : toLower n = w := by
  induction h with
  | nil => rfl
  | char c hc _ ih =>
    rw [toLower, ih]
    · rfl
    · rintro cs rfl; simp at hc
    · rintro cs rfl; simp at hc
  | dotted _ ih => rw [toLower, ih]
  | kelvin _ ih => rw [toLower, ih]

theorem lower_small {c : UInt8} (h : (lower c).toNat < 128) : c.toNat < 128 := by
  unfold lower at h
  split at h <;> omega

theorem toLower_folds {n : Bytes} : (∀ c ∈ toLower n, c.toNat < 128) → Folds n (toLower n) := by
  induction n using toLower.induct with
  | case1 cs ih => intro h; rw [toLower] at h ⊢; exact .dotted (ih fun x hx => h x (by simp [hx]))
  | case2 cs ih => intro h; rw [toLower] at h ⊢; exact .kelvin (ih fun x hx => h x (by simp [hx]))
  | case3 c cs h1 h2 ih =>
    intro h
    rw [toLower] at h ⊢
    · exact .char c (lower_small (h _ List.mem_cons_self)) (ih fun x hx => h x (by simp [hx]))
    all_goals assumption
  | case4 => intro _; exact .nil

theorem folds_iff {n w : Bytes} (h : ∀ c ∈ w, c.toNat < 128) : toLower n = w ↔ Folds n w :=
  ⟨fun e => e ▸ toLower_folds (e ▸ h), folds_toLower⟩

theorem toLower_self {w : Bytes} (h : ∀ c ∈ w, c.toNat < 128) (hl : w.map lower = w) : Folds w w := by
  induction w with
  | nil => exact .nil
  | cons c w ih =>
    simp only [List.map_cons, List.cons.injEq] at hl
    have := Folds.char c (h c (by simp)) (ih (fun x hx => h x (by simp [hx])) hl.2)
    rwa [hl.1] at this

theorem keyMap_names : ∀ w ∈ keyMap.map Prod.fst, ∀ c ∈ w, c.toNat < 128 := by
  rw [show keyMap.map Prod.fst = commandNames from rfl]
  decide

theorem newCommand_call {objs os : List Resp} {name : Bytes} (h : Calls objs name os) :
    ∃ n, requestCommand objs = newCommand n os ∧ toLower n = name := by
  obtain ⟨o, n, rfl, ht, hf⟩ := h
  exact ⟨n, by simp only [requestCommand, text_of ht], folds_toLower hf⟩

/-- A request for a known command with acceptable arguments becomes that command. -/
theorem call_command {objs os : List Resp} {name : Bytes} {parse : List Resp → Option Command} {c : Command}
    (h : Calls objs name os) (hp : keyMap.get name = some parse) (hc : parse os = some c) : requestCommand objs = .ok c := by
  obtain ⟨n, e, hn⟩ := newCommand_call h
  rw [e]; simp only [newCommand, hn, hp, hc]

/-- Argument parsing implements the documented syntax (one direction). -/
theorem command_means {objs : List Resp} {c : Command} (h : requestCommand objs = .ok c) : Means objs c := by
  unfold requestCommand at h
  split at h
  · simp at h
  rename_i o args
  split at h
  · simp at h
  rename_i name hname
  unfold newCommand at h
  split at h
  · simp at h
  · rename_i parse hp
    split at h
    · simp at h
    · rename_i c' hc
      simp at h; subst h
      have hm := GoMap.mem_of_get hp
      have hcall : Calls (o :: args) (toLower name) args :=
        ⟨o, name, rfl, isText_iff.2 hname, toLower_folds (keyMap_names _ (List.mem_map_of_mem hm))⟩
      revert hcall
      have hlow : (toLower name, parse) ∈ keyMap := hm
      clear hm hp
      simp only [keyMap, List.mem_cons, Prod.mk.injEq, List.not_mem_nil, or_false] at hlow
      revert hlow
      generalize toLower name = w
      intro hm hcall
      have v1 : ∀ {mk}, parseKey mk args = some c' → (∀ k, Request (o :: args) w [k] → Means (o :: args) (mk k)) → Means (o :: args) c' := by
        intro mk h hv; obtain ⟨k, hk, rfl⟩ := parseKey_iff.1 h; exact hv k ⟨_, hcall, hk⟩
      have v2 : ∀ {mk}, parseKeyArg mk args = some c' → (∀ k v, Request (o :: args) w [k, v] → Means (o :: args) (mk k v)) →
          Means (o :: args) c' := by
        intro mk h hv; obtain ⟨k, v, hk, rfl⟩ := parseKeyArg_iff.1 h; exact hv k v ⟨_, hcall, hk⟩
      have v3 : ∀ {mk}, parseKeys mk args = some c' → (∀ ks, ks ≠ [] ∧ Request (o :: args) w ks → Means (o :: args) (mk ks)) →
          Means (o :: args) c' := by
        intro mk h hv; obtain ⟨ks, hk, hf, rfl⟩ := parseKeys_iff.1 h; exact hv ks ⟨hk, _, hcall, hf⟩
      have v4 : ∀ {mk}, parseKeyArgs mk args = some c' →
          (∀ k vs, vs ≠ [] ∧ Request (o :: args) w (k :: vs) → Means (o :: args) (mk k vs)) → Means (o :: args) c' := by
        intro mk h hv; obtain ⟨k, vs, hk, hf, rfl⟩ := parseKeyArgs_iff.1 h; exact hv k vs ⟨hk, _, hcall, hf⟩
      have v5 : ∀ {mk}, parseKeyInts mk args = some c' →
          (∀ k a b, (∃ l r, Request (o :: args) w [k, l, r] ∧ IsInt l a ∧ IsInt r b) → Means (o :: args) (mk k a b)) →
          Means (o :: args) c' := by
        intro mk h hv; obtain ⟨k, l, r, i, j, hf, hi, hj, rfl⟩ := parseKeyInts_iff.1 h
        exact hv k i j ⟨l, r, ⟨_, hcall, hf⟩, hi, hj⟩
      have v6 : ∀ {mk}, parseKeyIntArg mk args = some c' →
          (∀ k a b, (∃ l, Request (o :: args) w [k, l, b] ∧ IsInt l a) → Means (o :: args) (mk k a b)) → Means (o :: args) c' := by
        intro mk h hv; obtain ⟨k, l, r, i, hf, hi, rfl⟩ := parseKeyIntArg_iff.1 h; exact hv k i r ⟨l, ⟨_, hcall, hf⟩, hi⟩
      have v7 : ∀ {mk}, parseIncr mk args = some c' → (∀ k, Request (o :: args) w [k] → Means (o :: args) (mk k b!"1")) →
          (∀ k d, Request (o :: args) w [k, d] → Means (o :: args) (mk k d)) → Means (o :: args) c' := by
        intro mk h hv hw
        rcases parseIncr_iff.1 h with ⟨k, hf, rfl⟩ | ⟨k, d, hf, rfl⟩
        · exact hv k ⟨_, hcall, hf⟩
        · exact hw k d ⟨_, hcall, hf⟩
      have v8 : ∀ {mk}, parseIncrOne mk args = some c' →
          (∀ k, (∃ p ps, Calls (o :: args) w (p :: ps) ∧ IsText p k) → Means (o :: args) (mk k b!"1")) → Means (o :: args) c' := by
        intro mk h hv; obtain ⟨p, rest, k, e, hk, rfl⟩ := parseIncrOne_iff.1 h; exact hv k ⟨p, rest, e ▸ hcall, hk⟩
      have v9 : ∀ {mk}, parseCount mk args = some c' → (∀ k, Request (o :: args) w [k] → Means (o :: args) (mk k none)) →
          (∀ k n, (∃ l, Request (o :: args) w [k, l] ∧ IsInt l n) → Means (o :: args) (mk k (some n))) → Means (o :: args) c' := by
        intro mk h hv hw
        rcases parseCount_iff.1 h with ⟨k, hf, rfl⟩ | ⟨k, d, n, hf, hi, rfl⟩
        · exact hv k ⟨_, hcall, hf⟩
        · exact hw k n ⟨d, ⟨_, hcall, hf⟩, hi⟩
      have v10 : w = b!"mset" → parseMset args = some c' → Means (o :: args) c' := by
        intro e h; obtain ⟨ks, vs, hl, hf, rfl⟩ := parseMset_iff.1 h; exact ⟨hl, _, e ▸ hcall, hf⟩
      have v11 : w = b!"hset" → parseHset args = some c' → Means (o :: args) c' := by
        intro e h; obtain ⟨k, ks, vs, hl, hf, rfl⟩ := parseHset_iff.1 h; exact ⟨hl, _, e ▸ hcall, hf⟩
      have v12 : w = b!"lindex" → parseLindex args = some c' → Means (o :: args) c' := by
        intro e h; obtain ⟨k, l, i, hf, hi, rfl⟩ := parseLindex_iff.1 h; exact ⟨l, ⟨_, e ▸ hcall, hf⟩, hi⟩
      have v13 : w = b!"linsert" → parseLinsert args = some c' → Means (o :: args) c' := by
        intro e h
        obtain ⟨k, w', p, v, hf, ⟨hw, rfl⟩ | ⟨hw, rfl⟩⟩ := parseLinsert_iff.1 h
        · exact ⟨w', ⟨_, e ▸ hcall, hf⟩, (folds_iff (by decide)).1 hw⟩
        · exact ⟨w', ⟨_, e ▸ hcall, hf⟩, (folds_iff (by decide)).1 hw⟩
      clear hname hcall
      repeat' (rcases hm with ⟨hw, hm⟩ | hm)
      all_goals try (obtain ⟨hw, hm⟩ := hm)
      all_goals try subst hm
      all_goals try subst hw
      all_goals try subst_vars
      all_goals first
        | exact v10 rfl hc | exact v11 rfl hc | exact v12 rfl hc | exact v13 rfl hc
        | exact v1 hc (fun _ h => h) | exact v2 hc (fun _ _ h => h) | exact v3 hc (fun _ h => h)
        | exact v4 hc (fun _ _ h => h) | exact v5 hc (fun _ _ _ h => h) | exact v6 hc (fun _ _ _ h => h)
        | exact v7 hc (fun _ h => .inr ⟨rfl, .inl h⟩) (fun _ _ h => .inl h)
        | exact v8 hc (fun _ h => .inr ⟨rfl, .inr h⟩)
        | exact v9 hc (fun _ h => h) (fun _ _ h => h)

/-- Argument parsing implements the documented syntax (other direction). -/
theorem means_command {objs : List Resp} {c : Command} (h : Means objs c) : requestCommand objs = .ok c := by
  have p1 : ∀ {w mk k}, Request objs w [k] → keyMap.get w = some (parseKey mk) → requestCommand objs = .ok (mk k) :=
    fun ⟨os, hc, hf⟩ hp => call_command hc hp (parseKey_iff.2 ⟨_, hf, rfl⟩)
  have p2 : ∀ {w mk k v}, Request objs w [k, v] → keyMap.get w = some (parseKeyArg mk) → requestCommand objs = .ok (mk k v) :=
    fun ⟨os, hc, hf⟩ hp => call_command hc hp (parseKeyArg_iff.2 ⟨_, _, hf, rfl⟩)
  have p3 : ∀ {w mk ks}, ks ≠ [] ∧ Request objs w ks → keyMap.get w = some (parseKeys mk) → requestCommand objs = .ok (mk ks) :=
    fun ⟨hn, os, hc, hf⟩ hp => call_command hc hp (parseKeys_iff.2 ⟨_, hn, hf, rfl⟩)
  have p4 : ∀ {w mk k vs}, vs ≠ [] ∧ Request objs w (k :: vs) → keyMap.get w = some (parseKeyArgs mk) →
      requestCommand objs = .ok (mk k vs) :=
    fun ⟨hn, os, hc, hf⟩ hp => call_command hc hp (parseKeyArgs_iff.2 ⟨_, _, hn, hf, rfl⟩)
  have p5 : ∀ {w mk k i j}, (∃ l r, Request objs w [k, l, r] ∧ IsInt l i ∧ IsInt r j) → keyMap.get w = some (parseKeyInts mk) →
      requestCommand objs = .ok (mk k i j) :=
    fun ⟨l, r, ⟨os, hc, hf⟩, hi, hj⟩ hp => call_command hc hp (parseKeyInts_iff.2 ⟨_, _, _, _, _, hf, hi, hj, rfl⟩)
  have p6 : ∀ {w mk k i v}, (∃ l, Request objs w [k, l, v] ∧ IsInt l i) → keyMap.get w = some (parseKeyIntArg mk) →
      requestCommand objs = .ok (mk k i v) :=
    fun ⟨l, ⟨os, hc, hf⟩, hi⟩ hp => call_command hc hp (parseKeyIntArg_iff.2 ⟨_, _, _, _, hf, hi, rfl⟩)
  have p7 : ∀ {w mk k d}, Request objs w [k, d] → keyMap.get w = some (parseIncr mk) → requestCommand objs = .ok (mk k d) :=
    fun ⟨os, hc, hf⟩ hp => call_command hc hp (parseIncr_iff.2 (.inr ⟨_, _, hf, rfl⟩))
  have p8 : ∀ {w mk k}, Request objs w [k] → keyMap.get w = some (parseIncr mk) → requestCommand objs = .ok (mk k b!"1") :=
    fun ⟨os, hc, hf⟩ hp => call_command hc hp (parseIncr_iff.2 (.inl ⟨_, hf, rfl⟩))
  have p9 : ∀ {w mk k}, (∃ o os, Calls objs w (o :: os) ∧ IsText o k) → keyMap.get w = some (parseIncrOne mk) →
      requestCommand objs = .ok (mk k b!"1") :=
    fun ⟨o, os, hc, hf⟩ hp => call_command hc hp (parseIncrOne_iff.2 ⟨o, os, _, rfl, hf, rfl⟩)
  have p10 : ∀ {w mk k}, Request objs w [k] → keyMap.get w = some (parseCount mk) → requestCommand objs = .ok (mk k none) :=
    fun ⟨os, hc, hf⟩ hp => call_command hc hp (parseCount_iff.2 (.inl ⟨_, hf, rfl⟩))
  have p11 : ∀ {w mk k n}, (∃ l, Request objs w [k, l] ∧ IsInt l n) → keyMap.get w = some (parseCount mk) →
      requestCommand objs = .ok (mk k (some n)) :=
    fun ⟨l, ⟨os, hc, hf⟩, hi⟩ hp => call_command hc hp (parseCount_iff.2 (.inr ⟨_, _, _, hf, hi, rfl⟩))
  cases c with
  | mset ks vs => obtain ⟨hl, os, hc, hf⟩ := h; exact call_command hc rfl (parseMset_iff.2 ⟨_, _, hl, hf, rfl⟩)
  | hset k fs vs => obtain ⟨hl, os, hc, hf⟩ := h; exact call_command hc rfl (parseHset_iff.2 ⟨_, _, _, hl, hf, rfl⟩)
  | lindex k i => obtain ⟨l, ⟨os, hc, hf⟩, hi⟩ := h; exact call_command hc rfl (parseLindex_iff.2 ⟨_, _, _, hf, hi, rfl⟩)
  | linsert k after p v =>
    obtain ⟨w, ⟨os, hc, hf⟩, hw⟩ := h
    refine call_command hc rfl (parseLinsert_iff.2 ⟨_, w, _, _, hf, ?_⟩)
    cases after with
    | false => exact .inl ⟨folds_toLower hw, rfl⟩
    | true => exact .inr ⟨folds_toLower hw, rfl⟩
  | incr k d =>
    rcases h with h | ⟨rfl, h | h⟩
    · exact p7 h rfl
    · exact p8 h rfl
    · exact p9 h rfl
  | decr k d =>
    rcases h with h | ⟨rfl, h | h⟩
    · exact p7 h rfl
    · exact p8 h rfl
    · exact p9 h rfl
  | srandmember k n => cases n with
    | none => exact p10 h rfl
    | some n => exact p11 h rfl
  | spop k n => cases n with
    | none => exact p10 h rfl
    | some n => exact p11 h rfl
  | _ => first
    | exact p1 h rfl | exact p2 h rfl | exact p3 h rfl | exact p4 h rfl | exact p5 h rfl | exact p6 h rfl

theorem means_iff {objs : List Resp} {c : Command} : requestCommand objs = .ok c ↔ Means objs c := ⟨command_means, means_command⟩

theorem requestCommand_valid {objs : List Resp} {c : Command} (h : requestCommand objs = .ok c) : Valid c := by
  unfold requestCommand at h
  split at h
  · simp at h
  · split at h
    · simp at h
    · exact newCommand_valid h

theorem errorReply (env : Env) (objs : List Resp) (c : Command) (e : CmdErr) : ErrorReply e (.error (errorText (wrapExec env objs c e))) := by
  cases e <;> first | rfl | exact ⟨_, rfl⟩

theorem errorReply' (e : CmdErr) : ErrorReply e (.error (errorText e)) := by
  cases e <;> first | rfl | exact ⟨_, rfl⟩

theorem handle_refines {env : Env} {st : State} {a : DB} {objs : List Resp} {c : Command} (h : Abs st a) (ho : env.ord.Fair)
    (hc : Means objs c) : ∃ out, Step a c out ∧ Observes env st objs out := by
  replace hc := means_command hc
  obtain ⟨out, hs, hm⟩ := exec_refines h ho (requestCommand_valid hc)
  refine ⟨out, hs, ?_⟩
  unfold Sim at hm
  have hh : handle env st objs = match execute env st c with
    | .ok (st', .ok r) => .ok (st', r)
    | .ok (st', .error e) => .ok (st', .error (errorText (wrapExec env objs c e)))
    | .panic => .panic
    | .diverge => .diverge := by unfold handle; rw [hc]; rfl
  cases out with
  | none =>
    cases he : execute env st c <;> rw [he] at hm hh <;> simp at hm
    exact hh
  | some p =>
    obtain ⟨a', v⟩ := p
    cases he : execute env st c with
    | panic => rw [he] at hm; simp at hm
    | diverge => rw [he] at hm; simp at hm
    | ok q =>
      obtain ⟨st', v'⟩ := q
      rw [he] at hm hh
      simp only at hm
      obtain ⟨rfl, ha⟩ := hm
      cases v' with
      | ok r => exact ⟨st', hh, ha⟩
      | error e => exact ⟨_, errorReply env objs c e, st', hh, ha⟩

theorem handle_bad {env : Env} {st : State} {objs : List Resp} (h : ¬ ∃ c, Means objs c) :
    ∃ e, requestCommand objs = .error e ∧ handle env st objs = .ok (st, .error (errorText e)) := by
  cases hc : requestCommand objs with
  | ok c => exact absurd ⟨c, command_means hc⟩ h
  | error e => exact ⟨e, rfl, by unfold handle; rw [hc]⟩

/-- One request: an abstract step, or an error without effect. -/
theorem handle_cases {env : Env} {st : State} {a : DB} (objs : List Resp) (h : Abs st a) (ho : env.ord.Fair) :
    (∃ c, Means objs c ∧ ((Step a c none ∧ handle env st objs = .panic) ∨
      (∃ a' r st', Step a c (done a' r) ∧ handle env st objs = .ok (st', r) ∧ Abs st' a') ∨
      (∃ a' e r st', Step a c (fails a' e) ∧ ErrorReply e r ∧ handle env st objs = .ok (st', r) ∧ Abs st' a'))) ∨
    ((¬ ∃ c, Means objs c) ∧ ∃ t, handle env st objs = .ok (st, .error t)) := by
  by_cases hm : ∃ c, Means objs c
  · obtain ⟨c, hc⟩ := hm
    refine .inl ⟨c, hc, ?_⟩
    obtain ⟨out, hs, hob⟩ := handle_refines h ho hc
    rcases out with _ | ⟨a', e | r⟩
    · exact .inl ⟨hs, hob⟩
    · obtain ⟨r, he, st', h1, h2⟩ := hob
      exact .inr (.inr ⟨a', e, r, st', hs, he, h1, h2⟩)
    · obtain ⟨st', h1, h2⟩ := hob
      exact .inr (.inl ⟨a', r, st', hs, h1, h2⟩)
  · obtain ⟨e, -, he⟩ := handle_bad (env := env) (st := st) hm
    exact .inr ⟨hm, _, he⟩

theorem serve_trace {reqs : List (Env × List Resp)} {st st' : State} {a : DB} {rs : List Resp} (h : Abs st a)
    (ho : ∀ q ∈ reqs, q.1.ord.Fair) (hs : serve st reqs = .ok (st', rs)) :
    ∃ a', Trace a (reqs.map Prod.snd) rs a' ∧ Abs st' a' := by
  induction reqs generalizing st a rs with
  | nil => simp [serve] at hs; obtain ⟨rfl, rfl⟩ := hs; exact ⟨a, .nil a, h⟩
  | cons q reqs ih =>
    obtain ⟨env, objs⟩ := q
    simp only [serve] at hs
    split at hs
    · rename_i st1 r hh
      split at hs
      · rename_i st2 rs2 hh2
        simp at hs; obtain ⟨rfl, rfl⟩ := hs
        have ho' : ∀ q ∈ reqs, q.1.ord.Fair := fun q hq => ho q (by simp [hq])
        rcases handle_cases objs h (ho (env, objs) (by simp)) with ⟨c, hc, ⟨-, e⟩ | ⟨a', r', st'', hst, e, ha⟩ | ⟨a', e', r', st'', hst, her, e, ha⟩⟩ | ⟨hb, t, e⟩
        · rw [e] at hh; simp at hh
        · rw [e] at hh; simp at hh; obtain ⟨rfl, rfl⟩ := hh
          obtain ⟨a2, ht, h2⟩ := ih ha ho' hh2
          exact ⟨a2, .ok hc hst ht, h2⟩
        · rw [e] at hh; simp at hh; obtain ⟨rfl, rfl⟩ := hh
          obtain ⟨a2, ht, h2⟩ := ih ha ho' hh2
          exact ⟨a2, .err hc hst her ht, h2⟩
        · rw [e] at hh; simp at hh; obtain ⟨rfl, rfl⟩ := hh
          obtain ⟨a2, ht, h2⟩ := ih h ho' hh2
          exact ⟨a2, .bad hb ht, h2⟩
      · simp at hs
      · simp at hs
    · simp at hs
    · simp at hs

theorem reachable_abs {st : State} (h : Reachable st) : ∃ a, Abs st a := by
  obtain ⟨reqs, rs, ho, hs⟩ := h
  obtain ⟨a, -, ha⟩ := serve_trace abs_empty ho hs
  exact ⟨a, ha⟩

theorem serve_append {st st' : State} {reqs reqs' : List (Env × List Resp)} {rs : List Resp} (h : serve st reqs = .ok (st', rs)) :
    serve st (reqs ++ reqs') = match serve st' reqs' with
      | .ok (st'', rs') => .ok (st'', rs ++ rs')
      | .panic => .panic
      | .diverge => .diverge := by
  induction reqs generalizing st rs with
  | nil =>
    simp [serve] at h; obtain ⟨rfl, rfl⟩ := h
    simp only [List.nil_append]
    cases serve st reqs' <;> rfl
  | cons q reqs ih =>
    obtain ⟨env, objs⟩ := q
    simp only [serve, List.cons_append] at h ⊢
    cases hh : handle env st objs with
    | panic => rw [hh] at h; simp at h
    | diverge => rw [hh] at h; simp at h
    | ok p =>
      obtain ⟨st1, r⟩ := p
      rw [hh] at h
      simp only at h ⊢
      cases hs : serve st1 reqs with
      | panic => rw [hs] at h; simp at h
      | diverge => rw [hs] at h; simp at h
      | ok p =>
        obtain ⟨st2, rs2⟩ := p
        rw [hs] at h; simp at h
        obtain ⟨rfl, rfl⟩ := h
        rw [ih hs]
        cases serve st2 reqs' <;> rfl

theorem reachable_empty : Reachable State.empty := ⟨[], [], by simp, rfl⟩

theorem reachable_step {env : Env} {st st' : State} {objs : List Resp} {r : Resp} (h : Reachable st) (ho : env.ord.Fair)
    (hh : handle env st objs = .ok (st', r)) : Reachable st' := by
  obtain ⟨reqs, rs, hr, hs⟩ := h
  refine ⟨reqs ++ [(env, objs)], rs ++ [r], ?_, ?_⟩
  · intro q hq
    rcases List.mem_append.1 hq with hq | hq
    · exact hr q hq
    · simp at hq; subst hq; exact ho
  · rw [serve_append hs]; simp [serve, hh]

end Verif
