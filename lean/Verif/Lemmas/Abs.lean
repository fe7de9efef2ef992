import Verif.Spec.Abs
import Verif.Lemmas.LinkedList4
import Mathlib.Data.Finset.Lattice.Basic

/-! Basic facts on the abstraction relation, and refinement of the hash and set containers. -/

namespace Verif

open Spec

namespace LList

/-- A list stores only one sequence. -/
theorem rep_unique {l : LList} {xs ys : List Bytes} (h : Rep l xs) (h' : Rep l ys) : xs = ys := by
  have hl : xs.length = ys.length := by
    obtain ⟨as, h⟩ := h
    obtain ⟨bs, h'⟩ := h'
    have := h.size; have := h'.size; omega
  have whole : ∀ {zs : List Bytes} (n : Nat), zs.length = n + 1 → ListWindow 0 (-1) zs.length (0 : Nat) (n : Nat) ∧ slice zs (0:Nat) n = zs := by
    intro zs n hn
    constructor
    · rw [hn]; unfold ListWindow Window Denotes
      rw [if_neg (by omega)]
      omega
    · unfold slice
      rw [show ((n:Int) + 1 - (0:Nat)).toNat = zs.length by omega]
      simp
  rcases hn : xs.length with _ | n
  · rw [List.length_eq_zero_iff.1 hn, List.length_eq_zero_iff.1 (hl.symm.trans hn)]
  · obtain ⟨w1, s1⟩ := whole n hn
    obtain ⟨w2, s2⟩ := whole n (hl.symm.trans hn)
    have e1 := (range_rep h 0 (-1)).1 _ _ w1
    have e2 := (range_rep h' 0 (-1)).1 _ _ w2
    rw [s1] at e1; rw [s2] at e2
    rw [e1] at e2
    injection e2 with e2; injection e2 with e2
    exact List.map_injective_iff.2 (fun _ _ h => Str.new_inj h) e2

end LList

namespace HashC

theorem rep_new : HashRep HashC.new ∅ := ⟨GoMap.wf_nil, fun f => by simp [HashC.new]⟩

theorem rep_unique {h : HashC} {m m' : Hash} (a : HashRep h m) (b : HashRep h m') : m = m' := by
  apply Finmap.ext_lookup
  intro f
  have := (a.2 f).symm.trans (b.2 f)
  cases h1 : m.lookup f <;> cases h2 : m'.lookup f <;> simp_all
  exact Str.new_inj this

theorem keys_rep {h : HashC} {m : Hash} (a : HashRep h m) : (GoMap.keys h).toFinset = m.keys := by
  ext f
  rw [List.mem_toFinset, GoMap.mem_keys_isSome, a.2 f, Finmap.mem_keys, Finmap.mem_iff]
  cases m.lookup f <;> simp

theorem len_rep {h : HashC} {m : Hash} (a : HashRep h m) : HashC.len h = m.keys.card := by
  unfold HashC.len
  rw [← keys_rep a, List.toFinset_card_of_nodup a.1, GoMap.length_keys]

theorem setLoop_rep {h : HashC} {m : Hash} (a : HashRep h m) (fs vs : List Bytes) :
    HashRep (setLoop h (fs.map Str.new) (vs.map Str.new)) ((fs.zip vs).foldl (fun m p => m.insert p.1 p.2) m) := by
  induction fs generalizing vs h m with
  | nil => simpa [setLoop] using a
  | cons f fs ih =>
    cases vs with
    | nil => simpa [setLoop] using a
    | cons v vs =>
      have key : HashRep (GoMap.set h f ⟨Str.new f, Str.new v⟩) (m.insert f v) := by
        refine ⟨GoMap.wf_set a.1 _ _, fun g => ?_⟩
        rw [GoMap.get_set]
        by_cases e : f = g
        · subst e; simp
        · rw [if_neg e, a.2 g, Finmap.lookup_insert_of_ne _ (fun h => e h.symm)]
      have : setLoop h ((f :: fs).map Str.new) ((v :: vs).map Str.new) =
          setLoop (GoMap.set h f ⟨Str.new f, Str.new v⟩) (fs.map Str.new) (vs.map Str.new) := by
        simp only [List.map_cons, setLoop, Str.new_data]
        have := a.2 f
        rw [this]
        cases m.lookup f <;> rfl
      rw [this]
      exact ih key vs

theorem foldl_insert_keys (fs vs : List Bytes) (hl : fs.length = vs.length) (m : Hash) :
    ((fs.zip vs).foldl (fun m p => m.insert p.1 p.2) m).keys = m.keys ∪ fs.toFinset := by
  induction fs generalizing vs m with
  | nil => simp
  | cons f fs ih =>
    cases vs with
    | nil => simp at hl
    | cons v vs =>
      simp only [List.zip_cons_cons, List.foldl_cons]
      rw [ih vs (by simpa using hl)]
      ext x
      simp only [Finset.mem_union, Finmap.mem_keys, Finmap.mem_insert, List.mem_toFinset, List.mem_cons]
      tauto

theorem setAll_rep {h : HashC} {m : Hash} (a : HashRep h m) (fs vs : List Bytes) (hl : fs.length = vs.length) :
    ∃ h', setAll h (fs.map Str.new) (vs.map Str.new) = (h', some ((fs.toFinset \ m.keys).card : Int)) ∧
      HashRep h' ((fs.zip vs).foldl (fun m p => m.insert p.1 p.2) m) := by
  have hr := setLoop_rep a fs vs
  refine ⟨_, ?_, hr⟩
  unfold setAll
  rw [if_neg (by simp [hl])]
  simp only [len_rep hr, len_rep a, foldl_insert_keys fs vs hl]
  congr 2
  have := Finset.card_sdiff_add_card fs.toFinset m.keys
  rw [Finset.union_comm] at this
  omega

theorem getAll_rep {h : HashC} {m : Hash} (a : HashRep h m) (fs : List Bytes) :
    getAll h (fs.map Str.new) = fs.map fun f => (m.lookup f).map Str.new := by
  unfold getAll
  simp only [List.map_map, Function.comp_def, Str.new_data]
  apply List.map_congr_left
  intro f _
  rw [a.2 f]; cases m.lookup f <;> rfl

theorem existsKey_rep {h : HashC} {m : Hash} (a : HashRep h m) (f : Bytes) :
    existsKey h (Str.new f) = decide (f ∈ m) := by
  unfold existsKey
  rw [Str.new_data, a.2 f]
  have := @Finmap.mem_iff Bytes _ _ f m
  cases h : m.lookup f <;> simp_all

theorem erase_rep {h : HashC} {m : Hash} (a : HashRep h m) (f : Bytes) : HashRep (GoMap.erase h f) (m.erase f) := by
  refine ⟨GoMap.wf_erase a.1 _, fun g => ?_⟩
  rw [GoMap.get_erase]
  by_cases e : f = g
  · subst e; simp
  · rw [if_neg e, a.2 g, Finmap.lookup_erase_ne (fun h => e h.symm)]

theorem delLoop_rep {h : HashC} {m : Hash} (a : HashRep h m) (n : Int) (fs : List Bytes) :
    ∃ h', delLoop h n (fs.map Str.new) = (h', n + (fs.toFinset ∩ m.keys).card) ∧ HashRep h' (fs.foldl (fun m f => m.erase f) m) := by
  induction fs generalizing h m n with
  | nil => exact ⟨h, by simp [delLoop], a⟩
  | cons f fs ih =>
    simp only [List.map_cons, delLoop, Str.new_data, List.foldl_cons]
    rw [a.2 f]
    by_cases hf : f ∈ m
    · obtain ⟨v, hv⟩ := Finmap.mem_iff.1 hf
      rw [hv]
      obtain ⟨h', e, r⟩ := ih (erase_rep a f) (n + 1)
      refine ⟨h', ?_, r⟩
      simp only [Option.map_some]
      rw [e]
      congr 1
      have : (f :: fs).toFinset ∩ m.keys = insert f (fs.toFinset ∩ (m.erase f).keys) := by
        ext x
        simp only [Finset.mem_inter, List.mem_toFinset, List.mem_cons, Finset.mem_insert, Finmap.mem_keys, Finmap.mem_erase]
        by_cases hx : x = f
        · subst hx; simp [hf]
        · simp [hx]
      rw [this, Finset.card_insert_of_notMem (by simp [Finmap.mem_keys, Finmap.mem_erase])]
      push_cast; omega
    · have hv : m.lookup f = none := Finmap.lookup_eq_none.2 hf
      rw [hv]
      have he : m.erase f = m := by
        apply Finmap.ext_lookup; intro g
        by_cases e : g = f
        · subst e; simp [hv]
        · rw [Finmap.lookup_erase_ne e]
      rw [he]
      obtain ⟨h', e, r⟩ := ih a n
      refine ⟨h', ?_, r⟩
      simp only [Option.map_none]
      rw [e]
      have : (f :: fs).toFinset ∩ m.keys = fs.toFinset ∩ m.keys := by
        ext x
        simp only [Finset.mem_inter, List.mem_toFinset, List.mem_cons, Finmap.mem_keys]
        by_cases hx : x = f
        · subst hx; simp [hf]
        · simp [hx]
      rw [this]

theorem entries_rep {h : HashC} {m : Hash} (a : HashRep h m) {ord : List Bytes} (ho : ord.Perm (GoMap.keys h)) :
    ∃ ps, HashEntries ps m ∧ GoMap.inOrder h ord = ps.map fun p => (p.1, ⟨Str.new p.1, Str.new p.2⟩) := by
  refine ⟨(GoMap.inOrder h ord).map fun e => (e.1, e.2.value.data), ⟨?_, ?_⟩, ?_⟩
  · rw [List.map_map]
    have : (GoMap.inOrder h ord).map Prod.fst = ord := GoMap.inOrder_eq_map (fun k hk => ho.subset hk)
    show ((GoMap.inOrder h ord).map Prod.fst).Nodup
    rw [this]
    exact ho.nodup_iff.2 a.1
  · intro f v
    have hp := GoMap.inOrder_perm a.1 ho
    simp only [List.mem_map, Prod.mk.injEq]
    constructor
    · rintro ⟨⟨k, e⟩, hm, rfl, rfl⟩
      have := GoMap.get_of_mem a.1 (hp.subset hm)
      rw [a.2 k] at this
      cases hl : m.lookup k with
      | none => rw [hl] at this; simp at this
      | some w => rw [hl] at this; simp at this; subst this; simp
    · intro hl
      refine ⟨(f, ⟨Str.new f, Str.new v⟩), hp.symm.subset (GoMap.mem_of_get ?_), rfl, rfl⟩
      rw [a.2 f, hl]; rfl
  · rw [List.map_map]
    symm
    refine (List.map_congr_left ?_).trans (List.map_id _)
    rintro ⟨k, e⟩ hm
    have := GoMap.get_of_mem a.1 ((GoMap.inOrder_perm a.1 ho).subset hm)
    rw [a.2 k] at this
    cases hl : m.lookup k with
    | none => rw [hl] at this; simp at this
    | some w => rw [hl] at this; simp at this; subst this; rfl

end HashC

namespace SetC

theorem rep_new : SetRep SetC.new ∅ := ⟨GoMap.wf_nil, fun f => by simp [SetC.new]⟩

theorem rep_unique {c : SetC} {s s' : Finset Bytes} (a : SetRep c s) (b : SetRep c s') : s = s' := by
  ext x
  have := (a.2 x).symm.trans (b.2 x)
  by_cases h1 : x ∈ s <;> by_cases h2 : x ∈ s' <;> simp_all

theorem keys_rep {c : SetC} {s : Finset Bytes} (a : SetRep c s) : (GoMap.keys c).toFinset = s := by
  ext f
  rw [List.mem_toFinset, GoMap.mem_keys_isSome, a.2 f]
  by_cases h : f ∈ s <;> simp [h]

theorem len_rep {c : SetC} {s : Finset Bytes} (a : SetRep c s) : SetC.len c = s.card := by
  unfold SetC.len
  rw [← keys_rep a, List.toFinset_card_of_nodup a.1, GoMap.length_keys]

theorem isMember_rep {c : SetC} {s : Finset Bytes} (a : SetRep c s) (x : Bytes) : isMember c (Str.new x) = decide (x ∈ s) := by
  unfold isMember
  rw [Str.new_data, a.2 x]
  by_cases h : x ∈ s <;> simp [h]

theorem addLoop_rep {c : SetC} {s : Finset Bytes} (a : SetRep c s) (n : Int) (xs : List Bytes) :
    ∃ c', addLoop c n (xs.map Str.new) = (c', n + (xs.toFinset \ s).card) ∧ SetRep c' (s ∪ xs.toFinset) := by
  induction xs generalizing c s n with
  | nil => exact ⟨c, by simp [addLoop], by simpa using a⟩
  | cons x xs ih =>
    simp only [List.map_cons, addLoop, Str.new_data]
    rw [a.2 x]
    by_cases hx : x ∈ s
    · rw [if_pos hx]
      obtain ⟨c', e, r⟩ := ih a n
      refine ⟨c', ?_, ?_⟩
      · simp only [e]
        have : (x :: xs).toFinset \ s = xs.toFinset \ s := by
          ext y; simp only [Finset.mem_sdiff, List.mem_toFinset, List.mem_cons]
          by_cases h : y = x
          · subst h; simp [hx]
          · simp [h]
        rw [this]
      · have : s ∪ (x :: xs).toFinset = s ∪ xs.toFinset := by
          ext y; simp only [Finset.mem_union, List.mem_toFinset, List.mem_cons]
          by_cases h : y = x
          · subst h; simp [hx]
          · simp [h]
        rw [this]; exact r
    · rw [if_neg hx]
      have a' : SetRep (GoMap.set c x (Str.new x)) (insert x s) := by
        refine ⟨GoMap.wf_set a.1 _ _, fun y => ?_⟩
        rw [GoMap.get_set, a.2 y]
        by_cases h : x = y
        · subst h; simp
        · simp [h, Finset.mem_insert, show ¬ y = x from fun e => h e.symm]
      obtain ⟨c', e, r⟩ := ih a' (n + 1)
      refine ⟨c', ?_, ?_⟩
      · simp only [e]
        have : (x :: xs).toFinset \ s = insert x (xs.toFinset \ insert x s) := by
          ext y; simp only [Finset.mem_sdiff, List.mem_toFinset, List.mem_cons, Finset.mem_insert]
          by_cases h : y = x
          · subst h; simp [hx]
          · simp [h]
        rw [this, Finset.card_insert_of_notMem (by simp)]
        congr 1
        push_cast; omega
      · have : s ∪ (x :: xs).toFinset = insert x s ∪ xs.toFinset := by
          ext y; simp only [Finset.mem_union, List.mem_toFinset, List.mem_cons, Finset.mem_insert]
          tauto
        rw [this]; exact r

theorem add_rep {c : SetC} {s : Finset Bytes} (a : SetRep c s) (xs : List Bytes) :
    ∃ c', add c (xs.map Str.new) = (c', ((xs.toFinset \ s).card : Int)) ∧ SetRep c' (s ∪ xs.toFinset) := by
  obtain ⟨c', e, r⟩ := addLoop_rep a 0 xs
  exact ⟨c', by simpa [add] using e, r⟩

theorem deleteLoop_rep {c : SetC} {s : Finset Bytes} (a : SetRep c s) (n : Int) (xs : List Bytes) :
    ∃ c', deleteLoop c n (xs.map Str.new) = (c', n + (xs.toFinset ∩ s).card) ∧ SetRep c' (s \ xs.toFinset) := by
  induction xs generalizing c s n with
  | nil => exact ⟨c, by simp [deleteLoop], by simpa using a⟩
  | cons x xs ih =>
    simp only [List.map_cons, deleteLoop, Str.new_data]
    rw [a.2 x]
    by_cases hx : x ∈ s
    · rw [if_pos hx]
      have a' : SetRep (GoMap.erase c x) (s.erase x) := by
        refine ⟨GoMap.wf_erase a.1 _, fun y => ?_⟩
        rw [GoMap.get_erase, a.2 y]
        by_cases h : x = y
        · subst h; simp
        · simp [h, Finset.mem_erase, show ¬ y = x from fun e => h e.symm]
      obtain ⟨c', e, r⟩ := ih a' (n + 1)
      refine ⟨c', ?_, ?_⟩
      · simp only [e]
        have : (x :: xs).toFinset ∩ s = insert x (xs.toFinset ∩ s.erase x) := by
          ext y; simp only [Finset.mem_inter, List.mem_toFinset, List.mem_cons, Finset.mem_insert, Finset.mem_erase]
          by_cases h : y = x
          · subst h; simp [hx]
          · simp [h]
        rw [this, Finset.card_insert_of_notMem (by simp)]
        congr 1
        push_cast; omega
      · have : s \ (x :: xs).toFinset = s.erase x \ xs.toFinset := by
          ext y; simp only [Finset.mem_sdiff, List.mem_toFinset, List.mem_cons, Finset.mem_erase]
          tauto
        rw [this]; exact r
    · rw [if_neg hx]
      obtain ⟨c', e, r⟩ := ih a n
      refine ⟨c', ?_, ?_⟩
      · simp only [e]
        have : (x :: xs).toFinset ∩ s = xs.toFinset ∩ s := by
          ext y; simp only [Finset.mem_inter, List.mem_toFinset, List.mem_cons]
          by_cases h : y = x
          · subst h; simp [hx]
          · simp [h]
        rw [this]
      · have : s \ (x :: xs).toFinset = s \ xs.toFinset := by
          ext y; simp only [Finset.mem_sdiff, List.mem_toFinset, List.mem_cons]
          by_cases h : y = x
          · subst h; simp [hx]
          · simp [h]
        rw [this]; exact r

theorem delete_rep {c : SetC} {s : Finset Bytes} (a : SetRep c s) (xs : List Bytes) :
    ∃ c', delete c (xs.map Str.new) = (c', ((xs.toFinset ∩ s).card : Int)) ∧ SetRep c' (s \ xs.toFinset) := by
  obtain ⟨c', e, r⟩ := deleteLoop_rep a 0 xs
  exact ⟨c', by simpa [delete] using e, r⟩

theorem members_rep {c : SetC} {s : Finset Bytes} (a : SetRep c s) {ord : IterOrder} (ho : ord.Fair) (i : Nat) :
    ∃ ms : List Bytes, members ord i c = ms.map Str.new ∧ Enumerates ms (· ∈ s) := by
  have hp := ho i (GoMap.keys c)
  refine ⟨ord i (GoMap.keys c), ?_, hp.nodup_iff.2 a.1, fun x => ?_⟩
  · unfold members
    have : ∀ l : List Bytes, (∀ x ∈ l, x ∈ s) → (GoMap.inOrder c l).map Prod.snd = l.map Str.new := by
      intro l hl
      induction l with
      | nil => rfl
      | cons x l ih =>
        have hx := a.2 x
        rw [if_pos (hl x (by simp))] at hx
        simp only [GoMap.inOrder, List.filterMap_cons, hx, Option.map_some, List.map_cons] at ih ⊢
        rw [ih (fun y hy => hl y (by simp [hy]))]
    apply this
    intro x hx
    have := hp.subset hx
    rw [← keys_rep a, List.mem_toFinset]; exact this
  · show _ ↔ x ∈ s
    rw [hp.mem_iff, ← keys_rep a, List.mem_toFinset]

theorem enumerates_length {ms : List Bytes} {s : Finset Bytes} (h : Enumerates ms (· ∈ s)) : ms.length = s.card := by
  have : ms.toFinset = s := by ext x; rw [List.mem_toFinset, h.2]
  rw [← this, List.toFinset_card_of_nodup h.1]

theorem randomLoop_eq (n : Nat) (xs : List Str) : randomLoop n xs = xs.take n := by
  induction xs generalizing n with
  | nil => simp [randomLoop]
  | cons x xs ih =>
    simp only [randomLoop]
    rw [if_neg (show ¬ (n : Int) = minInt64 by unfold minInt64; omega)]
    cases n with
    | zero => simp
    | succ n =>
      rw [if_neg (by omega), show ((n + 1 : Nat) : Int) - 1 = (n : Nat) by omega, ih n]
      simp

/-- The number of members taken is `|n|`, also for the smallest integer, whose absolute value is not representable: the counter stays
negative, wraps around to 2^63 - 1 in the first round, and 2^63 rounds pass before it is negative again. -/
theorem randomLoop_abs {n : Int} (hn : InInt64 n) (xs : List Str) :
    randomLoop (if n < 0 then wrap64 (-n) else n) xs = xs.take n.natAbs := by
  by_cases hm : n = minInt64
  · subst hm
    cases xs with
    | nil => simp [randomLoop]
    | cons x xs =>
      rw [show (if minInt64 < 0 then wrap64 (-minInt64) else minInt64) = minInt64 from by decide]
      simp only [randomLoop]
      rw [if_pos trivial, show maxInt64 = ((9223372036854775807 : Nat) : Int) from by decide,
        show minInt64.natAbs = 9223372036854775807 + 1 from by decide]
      rw [if_neg (by omega), randomLoop_eq, List.take_succ_cons]
  · have : (if n < 0 then wrap64 (-n) else n) = (n.natAbs : Int) := by
      unfold InInt64 minInt64 maxInt64 at hn
      unfold minInt64 at hm
      split
      · rw [wrap64_of_in (by unfold InInt64 minInt64 maxInt64; omega)]; omega
      · omega
    rw [this, randomLoop_eq]

theorem randomMember_rep {c : SetC} {s : Finset Bytes} (a : SetRep c s) {ord : IterOrder} (ho : ord.Fair) (i : Nat) {n : Int}
    (hn : InInt64 n) :
    ∃ ms : List Bytes, randomMember ord i c n = ms.map Str.new ∧ ms.Nodup ∧ ms.toFinset ⊆ s ∧ ms.length = min n.natAbs s.card := by
  obtain ⟨ms, e, en⟩ := members_rep a ho i
  have hl := enumerates_length en
  refine ⟨ms.take n.natAbs, ?_, en.1.sublist (List.take_sublist _ _), ?_, ?_⟩
  · unfold randomMember
    rw [e]
    show randomLoop (if n < 0 then wrap64 (-n) else n) _ = _
    rw [randomLoop_abs hn, List.map_take]
  · intro x hx
    rw [List.mem_toFinset] at hx
    exact (en.2 x).1 (List.mem_of_mem_take hx)
  · rw [List.length_take, hl]

/-- Members of `c` that are also in `ret`, the candidates of the loops below. -/
theorem candidates_rep {c ret : SetC} {s t : Finset Bytes} (a : SetRep c s) (b : SetRep ret t) {ord : IterOrder} (ho : ord.Fair) (i : Nat) :
    ∃ ms : List Bytes, (members ord i c).filter (fun item => isMember ret item) = ms.map Str.new ∧ ms.toFinset = s ∩ t := by
  obtain ⟨ms, e, en⟩ := members_rep a ho i
  refine ⟨ms.filter fun x => decide (x ∈ t), ?_, ?_⟩
  · rw [e, List.filter_map]
    congr 2
    funext x
    exact isMember_rep b x
  · ext x
    simp only [List.mem_toFinset, List.mem_filter, Finset.mem_inter, en.2 x, decide_eq_true_eq]

theorem diffLoop_rep {ord : IterOrder} (ho : ord.Fair) (cs : List SetC) :
    ∀ (i : Nat) {ret : SetC} {t : Finset Bytes} (ss : List (Finset Bytes)), SetRep ret t → List.Forall₂ SetRep cs ss →
      ∃ t', SetRep (diffLoop ord i ret cs) t' ∧ ∀ x, x ∈ t' ↔ x ∈ t ∧ ∀ s ∈ ss, x ∉ s := by
  induction cs with
  | nil =>
    intro i ret t ss b hss
    cases hss
    exact ⟨t, b, by simp⟩
  | cons c cs ih =>
    intro i ret t ss b hss
    cases hss with
    | cons hc hcs =>
      rename_i s ss
      simp only [diffLoop]
      obtain ⟨ms, e, hm⟩ := candidates_rep hc b ho i
      rw [e]
      obtain ⟨c', e', r⟩ := delete_rep b ms
      rw [e']
      obtain ⟨t', r', h'⟩ := ih (i + 1) ss r hcs
      refine ⟨t', r', fun x => ?_⟩
      rw [h' x, hm]
      simp only [Finset.mem_sdiff, Finset.mem_inter, List.forall_mem_cons]
      tauto

theorem diff_rep {ord : IterOrder} (ho : ord.Fair) {c : SetC} {s : Finset Bytes} (a : SetRep c s) {cs : List SetC}
    {ss : List (Finset Bytes)} (h : List.Forall₂ SetRep cs ss) :
    ∃ t, SetRep (diff ord c cs) t ∧ ∀ x, x ∈ t ↔ x ∈ s ∧ ∀ s' ∈ ss, x ∉ s' := by
  unfold diff
  obtain ⟨ms, e, en⟩ := members_rep a ho 1
  rw [e]
  obtain ⟨c', e', r⟩ := add_rep rep_new ms
  rw [e']
  obtain ⟨t, r', ht⟩ := diffLoop_rep ho cs 2 ss r h
  refine ⟨t, r', fun x => ?_⟩
  rw [ht x]
  simp [List.mem_toFinset, en.2 x]

/-- `Pop(Len())` empties a set. -/
theorem pop_all_rep {c : SetC} {s : Finset Bytes} (a : SetRep c s) {ord : IterOrder} (ho : ord.Fair) (i : Nat) :
    SetRep (pop ord i c (len c)).1 ∅ := by
  unfold pop
  obtain ⟨ms, e, en⟩ := members_rep a ho i
  have e1 : randomMember ord i c (len c) = ms.map Str.new := by
    unfold randomMember
    rw [e, len_rep a]
    show randomLoop (if (s.card : Int) < 0 then wrap64 (-(s.card : Int)) else s.card) _ = _
    rw [if_neg (by omega), randomLoop_eq, List.take_of_length_le (by simp [enumerates_length en])]
  simp only [e1]
  obtain ⟨c', e', r⟩ := delete_rep a ms
  rw [e']
  have : s \ ms.toFinset = ∅ := by
    ext x; simp [List.mem_toFinset, en.2 x]
  rw [this] at r
  exact r

theorem intersectLoop_rep {ord : IterOrder} (ho : ord.Fair) (cs : List SetC) :
    ∀ (i : Nat) {ret : SetC} {t : Finset Bytes} (ss : List (Finset Bytes)), SetRep ret t → List.Forall₂ SetRep cs ss →
      ∃ t', SetRep (intersectLoop ord i ret cs) t' ∧ ∀ x, x ∈ t' ↔ x ∈ t ∧ ∀ s ∈ ss, x ∈ s := by
  induction cs with
  | nil =>
    intro i ret t ss b hss
    cases hss
    exact ⟨t, b, by simp⟩
  | cons c cs ih =>
    intro i ret t ss b hss
    cases hss with
    | cons hc hcs =>
      rename_i s ss
      simp only [intersectLoop]
      obtain ⟨ms, e, hm⟩ := candidates_rep hc b ho i
      rw [e]
      obtain ⟨c', e', r⟩ := add_rep (pop_all_rep b ho (i + 1)) ms
      rw [e']
      obtain ⟨t', r', h'⟩ := ih (i + 2) ss r hcs
      refine ⟨t', r', fun x => ?_⟩
      rw [h' x, hm]
      simp only [Finset.empty_union, Finset.mem_inter, List.forall_mem_cons]
      tauto

theorem intersect_rep {ord : IterOrder} (ho : ord.Fair) {c : SetC} {s : Finset Bytes} (a : SetRep c s) {cs : List SetC}
    {ss : List (Finset Bytes)} (h : List.Forall₂ SetRep cs ss) :
    ∃ t, SetRep (intersect ord c cs) t ∧ ∀ x, x ∈ t ↔ x ∈ s ∧ ∀ s' ∈ ss, x ∈ s' := by
  unfold intersect
  obtain ⟨ms, e, en⟩ := members_rep a ho 1
  rw [e]
  obtain ⟨c', e', r⟩ := add_rep rep_new ms
  rw [e']
  obtain ⟨t, r', ht⟩ := intersectLoop_rep ho cs 2 ss r h
  refine ⟨t, r', fun x => ?_⟩
  rw [ht x]
  simp [List.mem_toFinset, en.2 x]

theorem unionLoop_rep {ord : IterOrder} (ho : ord.Fair) (cs : List SetC) :
    ∀ (i : Nat) {ret : SetC} {t : Finset Bytes} (ss : List (Finset Bytes)), SetRep ret t → List.Forall₂ SetRep cs ss →
      ∃ t', SetRep (unionLoop ord i ret cs) t' ∧ ∀ x, x ∈ t' ↔ x ∈ t ∨ ∃ s ∈ ss, x ∈ s := by
  induction cs with
  | nil =>
    intro i ret t ss b hss
    cases hss
    exact ⟨t, b, by simp⟩
  | cons c cs ih =>
    intro i ret t ss b hss
    cases hss with
    | cons hc hcs =>
      rename_i s ss
      simp only [unionLoop]
      obtain ⟨ms, e, en⟩ := members_rep hc ho i
      rw [e]
      obtain ⟨c', e', r⟩ := add_rep b ms
      rw [e']
      obtain ⟨t', r', h'⟩ := ih (i + 1) ss r hcs
      refine ⟨t', r', fun x => ?_⟩
      rw [h' x]
      simp only [Finset.mem_union, List.mem_toFinset, en.2 x, List.exists_mem_cons_iff]
      tauto

theorem union_rep {ord : IterOrder} (ho : ord.Fair) {c : SetC} {s : Finset Bytes} (a : SetRep c s) {cs : List SetC}
    {ss : List (Finset Bytes)} (h : List.Forall₂ SetRep cs ss) :
    ∃ t, SetRep (union ord c cs) t ∧ ∀ x, x ∈ t ↔ x ∈ s ∨ ∃ s' ∈ ss, x ∈ s' := by
  unfold union
  obtain ⟨ms, e, en⟩ := members_rep a ho 1
  obtain ⟨t, r', ht⟩ := unionLoop_rep ho cs 2 ss rep_new h
  rw [e]
  obtain ⟨c', e', r⟩ := add_rep r' ms
  rw [e']
  refine ⟨_, r, fun x => ?_⟩
  simp only [Finset.mem_union, List.mem_toFinset, en.2 x, ht x, Finset.notMem_empty, false_or]
  exact Or.comm

end SetC

namespace StrMap

theorem setLoop_abs {m : StrMap} {f : Bytes → Option Bytes} (hw : GoMap.WF m) (h : ∀ k, GoMap.get m k = (f k).map Str.new)
    (ks vs : List Bytes) :
    let f' := (ks.zip vs).foldl (fun (f : Bytes → Option Bytes) p => Function.update f p.1 (some p.2)) f
    GoMap.WF (setLoop m (ks.map Str.new) (vs.map Str.new)) ∧
      ∀ k, GoMap.get (setLoop m (ks.map Str.new) (vs.map Str.new)) k = (f' k).map Str.new := by
  induction ks generalizing vs m f with
  | nil => simpa [setLoop] using ⟨hw, h⟩
  | cons k ks ih =>
    cases vs with
    | nil => simpa [setLoop] using ⟨hw, h⟩
    | cons v vs =>
      simp only [List.map_cons, setLoop, Str.new_data, List.zip_cons_cons, List.foldl_cons]
      refine ih (f := Function.update f k (some v)) (GoMap.wf_set hw _ _) (fun x => ?_) vs
      rw [GoMap.get_set]
      by_cases e : k = x
      · subst e; simp
      · rw [if_neg e, h x, Function.update_of_ne (fun h => e h.symm)]

theorem existsLoop_eq {m : StrMap} {f : Bytes → Option Bytes} (h : ∀ k, GoMap.get m k = (f k).map Str.new) (n : Int) (ks : List Bytes) :
    existsLoop m n (ks.map Str.new) = n + ks.countP fun k => (f k).isSome := by
  induction ks generalizing n with
  | nil => simp [existsLoop]
  | cons k ks ih =>
    simp only [List.map_cons, existsLoop, Str.new_data, h k, List.countP_cons]
    cases f k with
    | none => simp [ih]
    | some v => simp only [Option.map_some, ih, Option.isSome_some, if_true]; push_cast; omega

end StrMap

end Verif
