import Verif.Lemmas.LinkedList2
import Verif.Lemmas.Str
import Mathlib.Data.List.Perm.Subperm

/-! `Remove`, `Insert`, `Set`, `Index`, `Range` of the linked list refine operations on sequences. -/

namespace Verif

open List

namespace LList

theorem RepA.fuel {l : LList} {as xs} (h : RepA l as xs) : as.length + 2 ≤ l.fresh := by
  have hs : (l.head :: (as ++ [l.tail])) ⊆ List.range l.fresh := fun a ha => List.mem_range.2 (h.alloc a ha)
  have := (List.Nodup.subperm h.path.1 hs).length_le
  simpa using this

/-- The data stored in a node. -/
theorem RepA.data_at {l : LList} {as1 as2 : List Nat} {c : Nat} {xs1 xs2 : List Bytes} {d : Bytes}
    (h : RepA l (as1 ++ c :: as2) (xs1 ++ d :: xs2)) (hlen : as1.length = xs1.length) : (l.heap c).data = Str.new d := by
  have hd := h.data
  rw [map_append, map_append, map_cons, map_cons] at hd
  exact (cons.inj (append_inj hd (by simpa using hlen)).2).1

theorem RepA.next_at {l : LList} {as1 as2 : List Nat} {c : Nat} {xs : List Bytes}
    (h : RepA l (as1 ++ c :: as2) xs) : (l.heap c).next = (as2 ++ [l.tail]).head? := by
  obtain ⟨y, B, hB⟩ : ∃ y B, as2 ++ [l.tail] = y :: B := by
    cases as2 with
    | nil => exact ⟨_, _, rfl⟩
    | cons b t => exact ⟨_, _, rfl⟩
  have hp : l.head :: (as1 ++ c :: as2 ++ [l.tail]) = (l.head :: as1) ++ c :: y :: B := by
    rw [← hB]; simp
  rw [hB]
  exact (path_neighbours (hp ▸ h.path)).1

theorem RepA.prev_at {l : LList} {as1 as2 : List Nat} {c : Nat} {xs : List Bytes}
    (h : RepA l (as1 ++ c :: as2) xs) : (l.heap c).prev = (l.head :: as1).getLast? := by
  obtain ⟨A, x, hA⟩ : ∃ A x, l.head :: as1 = A ++ [x] :=
    ⟨(l.head :: as1).dropLast, (l.head :: as1).getLast (by simp), (dropLast_append_getLast _).symm⟩
  have hp : l.head :: (as1 ++ c :: as2 ++ [l.tail]) = A ++ x :: c :: (as2 ++ [l.tail]) := by
    have : l.head :: (as1 ++ c :: as2 ++ [l.tail]) = (l.head :: as1) ++ c :: (as2 ++ [l.tail]) := by simp
    rw [this, hA]; simp
  rw [hA, getLast?_append]
  exact (path_neighbours (hp ▸ h.path)).2.1

theorem RepA.ne_tail {l : LList} {as1 as2 : List Nat} {c : Nat} {xs : List Bytes}
    (h : RepA l (as1 ++ c :: as2) xs) : c ≠ l.tail := by
  rintro rfl; exact h.tail_notMem (by simp)

theorem RepA.ne_head {l : LList} {as1 as2 : List Nat} {c : Nat} {xs : List Bytes}
    (h : RepA l (as1 ++ c :: as2) xs) : c ≠ l.head := by
  rintro rfl; exact h.head_notMem (by simp)

theorem RepA.head_ne_tail {l : LList} {as xs} (h : RepA l as xs) : l.head ≠ l.tail := by
  intro e; exact h.head_notMem (by simp [e])

/-! ### Remove -/

open Spec in
theorem deleteFromHeadLoop_rep {count : Int} {k : Bytes} {as2 : List Nat} :
    ∀ {l : LList} {as1 : List Nat} {xs1 xs2 : List Bytes} {r : Int} {f : Nat},
    RepA l (as1 ++ as2) (xs1 ++ xs2) → as1.length = xs1.length → as2.length < f →
    ∃ m r' as', deleteFromHeadLoop l.tail count (Str.new k) f l.heap (as2 ++ [l.tail]).head? r = .ok (m, r') ∧
      r' = r + (min (count - r).toNat (xs2.count k) : Nat) ∧
      RepA { l with heap := m, size := l.size - (r' - r) } as' (xs1 ++ removeFirst (count - r).toNat k xs2) := by
  induction as2 with
  | nil =>
    intro l as1 xs1 xs2 r f h hl hf
    cases f with
    | zero => simp at hf
    | succ f =>
      have hx : xs2 = [] := by
        have := h.length; simp at this; exact eq_nil_of_length_eq_zero (by omega)
      subst hx
      refine ⟨l.heap, r, as1, ?_, ?_, ?_⟩
      · simp [deleteFromHeadLoop]
      · simp
      · simpa using h
  | cons c as2 ih =>
    intro l as1 xs1 xs2 r f h hl hf
    cases f with
    | zero => simp at hf
    | succ f =>
      cases xs2 with
      | nil => have := h.length; simp at this; omega
      | cons d xs2 =>
        by_cases hc : r < count
        · have hne : some c ≠ some l.tail := by simpa using h.ne_tail
          have hnx := h.next_at
          have hda := h.data_at hl
          simp only [cons_append, head?_cons, deleteFromHeadLoop, hne, hc, ne_eq, not_false_eq_true, and_self, if_true,
            deref, Outcome.bind_ok, hda, Str.equals_new, decide_eq_true_eq]
          by_cases hdk : d = k
          · subst hdk
            obtain ⟨m, e, -, h'⟩ := h.unlink hl
            simp only [if_true, e, Outcome.bind_ok, hnx]
            obtain ⟨m', r', as', e', hr', hrep⟩ := ih (l := { l with heap := m, size := l.size - 1 }) (r := r + 1) h' hl (by simpa using hf)
            refine ⟨m', r', as', e', ?_, ?_⟩
            · rw [hr', count_cons_self]
              omega
            · obtain ⟨n, hn⟩ : ∃ n, (count - r).toNat = n + 1 := ⟨(count - r).toNat - 1, by omega⟩
              have hn' : (count - (r + 1)).toNat = n := by omega
              rw [hn, removeFirst_cons_eq]
              rw [hn'] at hrep
              have : l.size - 1 - (r' - (r + 1)) = l.size - (r' - r) := by omega
              simpa only [this] using hrep
          · simp only [hdk, if_false, hnx]
            have h2 : RepA l ((as1 ++ [c]) ++ as2) ((xs1 ++ [d]) ++ xs2) := by simpa using h
            obtain ⟨m', r', as', e', hr', hrep⟩ := ih (l := l) (r := r) h2 (by simp [hl]) (by simpa using hf)
            refine ⟨m', r', as', e', ?_, ?_⟩
            · rw [hr', count_cons_of_ne hdk]
            · rw [removeFirst_cons_ne _ hdk]; simpa using hrep
        · refine ⟨l.heap, r, as1 ++ c :: as2, ?_, ?_, ?_⟩
          · simp [deleteFromHeadLoop, hc]
          · have : (count - r).toNat = 0 := by omega
            simp [this]
          · have : (count - r).toNat = 0 := by omega
            rw [this]; simpa [removeFirst] using h

/-- Starting at the head sentinel. -/
theorem deleteFromHeadLoop_start {l : LList} {as : List Nat} {xs : List Bytes} (h : RepA l as xs) (count : Int) (k : Bytes) :
    (0 < count → k = b!"dummy string" →
      deleteFromHeadLoop l.tail count (Str.new k) (l.fresh + 1) l.heap (some l.head) 0 = .panic) ∧
    ((count ≤ 0 ∨ k ≠ b!"dummy string") → ∃ m as',
      deleteFromHeadLoop l.tail count (Str.new k) (l.fresh + 1) l.heap (some l.head) 0 =
        .ok (m, (min count.toNat (xs.count k) : Nat)) ∧
      RepA { l with heap := m, size := l.size - (min count.toNat (xs.count k) : Nat) } as'
        (Spec.removeFirst count.toNat k xs)) := by
  have hne : some l.head ≠ some l.tail := by simpa using h.head_ne_tail
  constructor
  · intro hc hk
    subst hk
    have : deleteNode l.heap l.head = .panic := by simp [deleteNode, h.headPrev, deref]
    simp only [deleteFromHeadLoop, hne, hc, ne_eq, not_false_eq_true, and_self, if_true, deref, Outcome.bind_ok, h.headData,
      Str.dummy, Str.equals_new, decide_true, this, Outcome.bind_panic]
  · intro hk
    by_cases hc : 0 < count
    · have hk : ¬ (b!"dummy string" = k) := by
        rcases hk with hk | hk
        · omega
        · exact fun e => hk e.symm
      simp only [deleteFromHeadLoop, hne, hc, ne_eq, not_false_eq_true, and_self, if_true, deref, Outcome.bind_ok, h.headData,
        Str.dummy, Str.equals_new, hk, decide_false, Bool.false_eq_true, if_false, h.head_next]
      obtain ⟨m, r', as', e, hr, hrep⟩ := deleteFromHeadLoop_rep (count := count) (k := k) (as1 := []) (xs1 := []) (r := 0)
        (f := l.fresh) h rfl (by have := h.fuel; omega)
      simp only [Int.sub_zero, Int.zero_add, nil_append] at hr hrep
      rw [hr] at e hrep
      exact ⟨m, as', e, hrep⟩
    · have : count.toNat = 0 := by omega
      refine ⟨l.heap, as, ?_, ?_⟩
      · simp [deleteFromHeadLoop, hc, this]
      · simpa [this, Spec.removeFirst] using h

theorem _root_.Verif.Spec.removeLast_snoc_ne {α : Type} [DecidableEq α] (n : Nat) {x y : α} (h : y ≠ x) (ys : List α) :
    Spec.removeLast n x (ys ++ [y]) = Spec.removeLast n x ys ++ [y] := by
  simp [Spec.removeLast, Spec.removeFirst_cons_ne _ h]

theorem _root_.Verif.Spec.removeLast_snoc_eq {α : Type} [DecidableEq α] (n : Nat) (x : α) (ys : List α) :
    Spec.removeLast (n + 1) x (ys ++ [x]) = Spec.removeLast n x ys := by
  simp [Spec.removeLast, Spec.removeFirst_cons_eq]

theorem _root_.Verif.Spec.removeLast_zero {α : Type} [DecidableEq α] (x : α) (ys : List α) :
    Spec.removeLast 0 x ys = ys := by
  simp [Spec.removeLast, Spec.removeFirst]

theorem _root_.Verif.Spec.removeLast_nil {α : Type} [DecidableEq α] (n : Nat) (x : α) : Spec.removeLast n x [] = [] := by
  simp [Spec.removeLast]

open Spec in
theorem deleteFromTailLoop_rep {count : Int} {k : Bytes} (n : Nat) :
    ∀ {l : LList} {as1 as2 : List Nat} {xs1 xs2 : List Bytes} {r : Int} {f : Nat},
    RepA l (as1 ++ as2) (xs1 ++ xs2) → as1.length = n → as1.length = xs1.length → n < f →
    ∃ m r' as', deleteFromTailLoop l.head count (Str.new k) f l.heap (l.head :: as1).getLast? r = .ok (m, r') ∧
      r' = r + (min (count - r).toNat (xs1.count k) : Nat) ∧
      RepA { l with heap := m, size := l.size - (r' - r) } as' (removeLast (count - r).toNat k xs1 ++ xs2) := by
  induction n with
  | zero =>
    intro l as1 as2 xs1 xs2 r f h hn hl hf
    cases f with
    | zero => simp at hf
    | succ f =>
      have ha : as1 = [] := eq_nil_of_length_eq_zero hn
      have hx : xs1 = [] := eq_nil_of_length_eq_zero (by omega)
      subst ha; subst hx
      refine ⟨l.heap, r, as2, ?_, ?_, ?_⟩
      · simp [deleteFromTailLoop]
      · simp
      · simpa [removeLast_nil] using h
  | succ n ih =>
    intro l as1 as2 xs1 xs2 r f h hn hl hf
    cases f with
    | zero => simp at hf
    | succ f =>
      rcases eq_nil_or_concat as1 with rfl | ⟨as1, c, rfl⟩
      · simp at hn
      rcases eq_nil_or_concat xs1 with rfl | ⟨xs1, d, rfl⟩
      · simp at hl
      rw [concat_eq_append] at *
      rw [concat_eq_append] at *
      have hl' : as1.length = xs1.length := by simpa using hl
      have hn' : as1.length = n := by simpa using hn
      have h0 : RepA l (as1 ++ c :: as2) (xs1 ++ d :: xs2) := by simpa using h
      have hlast : (l.head :: (as1 ++ [c])).getLast? = some c := by
        rw [← cons_append, getLast?_append]; rfl
      rw [hlast]
      by_cases hc : r < count
      · have hne : some c ≠ some l.head := by simpa using h0.ne_head
        have hpv := h0.prev_at
        have hda := h0.data_at hl'
        simp only [deleteFromTailLoop, hne, hc, ne_eq, not_false_eq_true, and_self, if_true,
          deref, Outcome.bind_ok, hda, Str.equals_new, decide_eq_true_eq]
        by_cases hdk : d = k
        · subst hdk
          obtain ⟨m, e, -, h'⟩ := h0.unlink hl'
          simp only [if_true, e, Outcome.bind_ok, hpv]
          obtain ⟨m', r', as', e', hr', hrep⟩ :=
            ih (l := { l with heap := m, size := l.size - 1 }) (r := r + 1) h' hn' hl' (by simpa using hf)
          refine ⟨m', r', as', e', ?_, ?_⟩
          · rw [hr', count_append]
            simp
            omega
          · obtain ⟨n, hn⟩ : ∃ n, (count - r).toNat = n + 1 := ⟨(count - r).toNat - 1, by omega⟩
            have hn' : (count - (r + 1)).toNat = n := by omega
            rw [hn, removeLast_snoc_eq]
            rw [hn'] at hrep
            have : l.size - 1 - (r' - (r + 1)) = l.size - (r' - r) := by omega
            simpa only [this] using hrep
        · simp only [hdk, if_false, hpv]
          obtain ⟨m', r', as', e', hr', hrep⟩ := ih (l := l) (r := r) h0 hn' hl' (by simpa using hf)
          refine ⟨m', r', as', e', ?_, ?_⟩
          · rw [hr', count_append]; simp [hdk]
          · rw [removeLast_snoc_ne _ hdk]; simpa using hrep
      · have hz : (count - r).toNat = 0 := by omega
        refine ⟨l.heap, r, as1 ++ c :: as2, ?_, ?_, ?_⟩
        · simp [deleteFromTailLoop, hc]
        · simp [hz]
        · rw [hz, removeLast_zero]; simpa using h

theorem deleteFromTailLoop_start {l : LList} {as : List Nat} {xs : List Bytes} (h : RepA l as xs) (count : Int) (k : Bytes) :
    (0 < count → k = b!"dummy string" →
      deleteFromTailLoop l.head count (Str.new k) (l.fresh + 1) l.heap (some l.tail) 0 = .panic) ∧
    ((count ≤ 0 ∨ k ≠ b!"dummy string") → ∃ m as',
      deleteFromTailLoop l.head count (Str.new k) (l.fresh + 1) l.heap (some l.tail) 0 =
        .ok (m, (min count.toNat (xs.count k) : Nat)) ∧
      RepA { l with heap := m, size := l.size - (min count.toNat (xs.count k) : Nat) } as'
        (Spec.removeLast count.toNat k xs)) := by
  have hne : some l.tail ≠ some l.head := by simpa using h.head_ne_tail.symm
  constructor
  · intro hc hk
    subst hk
    obtain ⟨x, hx⟩ : ∃ x, (l.heap l.tail).prev = some x := by
      rw [h.tail_prev]; exact ⟨_, getLast?_eq_some_getLast (by simp)⟩
    have : deleteNode l.heap l.tail = .panic := by
      simp only [deleteNode, hx, deref, Outcome.bind_ok, h.tailNext]
      have : (l.heap.setNext x none l.tail).next = none := by
        unfold Heap.setNext Heap.upd
        split
        · rfl
        · exact h.tailNext
      rw [this]; rfl
    simp only [deleteFromTailLoop, hne, hc, ne_eq, not_false_eq_true, and_self, if_true, deref, Outcome.bind_ok, h.tailData,
      Str.dummy, Str.equals_new, decide_true, this, Outcome.bind_panic]
  · intro hk
    by_cases hc : 0 < count
    · have hk : ¬ (b!"dummy string" = k) := by
        rcases hk with hk | hk
        · omega
        · exact fun e => hk e.symm
      simp only [deleteFromTailLoop, hne, hc, ne_eq, not_false_eq_true, and_self, if_true, deref, Outcome.bind_ok, h.tailData,
        Str.dummy, Str.equals_new, hk, decide_false, Bool.false_eq_true, if_false, h.tail_prev]
      have h2 : RepA l (as ++ []) (xs ++ []) := by simpa using h
      obtain ⟨m, r', as', e, hr, hrep⟩ := deleteFromTailLoop_rep (count := count) (k := k) as.length (r := 0)
        (f := l.fresh) h2 rfl h.length (by have := h.fuel; omega)
      simp only [Int.sub_zero, Int.zero_add, append_nil] at hr hrep
      rw [hr] at e hrep
      exact ⟨m, as', e, hrep⟩
    · have : count.toNat = 0 := by omega
      refine ⟨l.heap, as, ?_, ?_⟩
      · simp [deleteFromTailLoop, hc, this]
      · simpa [this, Spec.removeLast_zero] using h

/-! ### Insert -/

theorem insertAt {l : LList} {as1 as2 : List Nat} {c : Nat} {xs1 xs2 : List Bytes} {d : Bytes}
    (h : RepA l (as1 ++ c :: as2) (xs1 ++ d :: xs2)) (hlen : as1.length = xs1.length) (v : Bytes) (after : Bool) :
    ∃ l1, (if after then insertAfter l c (Str.new v) else insertBefore l c (Str.new v)) = .ok l1 ∧ l1.size = l.size ∧
      Rep { l1 with size := l1.size + 1 } (if after then xs1 ++ d :: v :: xs2 else xs1 ++ v :: d :: xs2) := by
  cases after with
  | true =>
    obtain ⟨y, B, hB⟩ : ∃ y B, as2 ++ [l.tail] = y :: B := by
      cases as2 with
      | nil => exact ⟨_, _, rfl⟩
      | cons b t => exact ⟨_, _, rfl⟩
    have hp : l.head :: (as1 ++ c :: as2 ++ [l.tail]) = (l.head :: as1) ++ c :: y :: B := by rw [← hB]; simp
    have hx : c ≠ l.fresh := by have := h.alloc c (by simp); omega
    have hy : y ≠ l.fresh := by have := h.alloc y (by rw [hp]; simp); omega
    refine ⟨_, insertAfter_eq (hp ▸ h.path) hx hy, rfl, ?_⟩
    have h' : RepA l ((as1 ++ [c]) ++ as2) ((xs1 ++ [d]) ++ xs2) := by simpa using h
    have := RepA.splice (A := l.head :: as1) (x := c) h' (by simpa using hlen) (by simp) hB v
    exact ⟨_, by simpa using this⟩
  | false =>
    obtain ⟨A, x, hA⟩ : ∃ A x, l.head :: as1 = A ++ [x] :=
      ⟨(l.head :: as1).dropLast, (l.head :: as1).getLast (by simp), (dropLast_append_getLast _).symm⟩
    have hp : l.head :: (as1 ++ c :: as2 ++ [l.tail]) = A ++ x :: c :: (as2 ++ [l.tail]) := by
      have : l.head :: (as1 ++ c :: as2 ++ [l.tail]) = (l.head :: as1) ++ c :: (as2 ++ [l.tail]) := by simp
      rw [this, hA]; simp
    have hy : c ≠ l.fresh := by have := h.alloc c (by simp); omega
    have hx : x ≠ l.fresh := by have := h.alloc x (by rw [hp]; simp); omega
    refine ⟨_, insertBefore_eq (hp ▸ h.path) hx hy, rfl, ?_⟩
    have := RepA.splice h hlen hA (cons_append) v
    exact ⟨_, by simpa using this⟩

theorem insertLoop_rep {p v : Bytes} {after : Bool} {l : LList} {as2 : List Nat} :
    ∀ {as1 : List Nat} {xs1 xs2 : List Bytes} {f : Nat},
    RepA l (as1 ++ as2) (xs1 ++ xs2) → as1.length = xs1.length → as2.length < f →
    (p ∉ xs2 → insertLoop l (Str.new p) (Str.new v) after f (as2 ++ [l.tail]).head? = .ok (l, .error .noSuchPivot)) ∧
    (∀ pre post, Spec.FirstAt p pre post xs2 →
      ∃ l', insertLoop l (Str.new p) (Str.new v) after f (as2 ++ [l.tail]).head? =
          .ok (l', .ok (((xs1 ++ xs2).length + 1 : Nat) : Int)) ∧
        Rep l' (if after then xs1 ++ pre ++ p :: v :: post else xs1 ++ pre ++ v :: p :: post)) := by
  induction as2 with
  | nil =>
    intro as1 xs1 xs2 f h hl hf
    have hx : xs2 = [] := by
      have := h.length; simp at this; exact eq_nil_of_length_eq_zero (by omega)
    subst hx
    cases f with
    | zero => simp at hf
    | succ f =>
      refine ⟨fun _ => by simp [insertLoop], ?_⟩
      rintro pre post ⟨h1, -⟩
      simp at h1
  | cons c as2 ih =>
    intro as1 xs1 xs2 f h hl hf
    cases f with
    | zero => simp at hf
    | succ f =>
      cases xs2 with
      | nil => have := h.length; simp at this; omega
      | cons d xs2 =>
        have hne : some c ≠ some l.tail := by simpa using h.ne_tail
        have hnx := h.next_at
        have hda := h.data_at hl
        simp only [cons_append, head?_cons, insertLoop, hne, ne_eq, not_false_eq_true, if_true,
            deref, Outcome.bind_ok, hda, Str.equals_new, decide_eq_true_eq]
        by_cases hdp : d = p
        · subst hdp
          refine ⟨fun hn => by simp at hn, ?_⟩
          rintro pre post ⟨h1, h2⟩
          have hpre : pre = [] := by
            cases pre with
            | nil => rfl
            | cons a t => simp at h1; simp [h1.1] at h2
          subst hpre
          simp at h1; subst h1
          obtain ⟨l1, e, hs, hr⟩ := insertAt h hl v after
          refine ⟨{ l1 with size := l1.size + 1 }, ?_, by simpa using hr⟩
          have hs' : l1.size + 1 = (((xs1 ++ d :: xs2).length + 1 : Nat) : Int) := by rw [hs, h.size]; simp
          cases after <;> simp only [if_true, if_false, Bool.false_eq_true] at e ⊢ <;> simp only [e, Outcome.bind_ok, hs']
        · have h2 : RepA l ((as1 ++ [c]) ++ as2) ((xs1 ++ [d]) ++ xs2) := by simpa using h
          obtain ⟨i1, i2⟩ := ih h2 (by simp [hl]) (show as2.length < f by simpa using hf)
          simp only [hdp, if_false, hnx]
          refine ⟨fun hn => i1 (by simp at hn; exact hn.2), ?_⟩
          rintro pre post ⟨h1, h3⟩
          cases pre with
          | nil => simp at h1; exact absurd h1.1 hdp
          | cons a t =>
            simp at h1
            obtain ⟨rfl, h1⟩ := h1
            obtain ⟨l', e, hr⟩ := i2 t post ⟨h1, by simp at h3; exact h3.2⟩
            exact ⟨l', by simpa using e, by simpa using hr⟩

theorem insert_start {p v : Bytes} {after : Bool} {l : LList} {as : List Nat} {xs : List Bytes} (h : RepA l as xs)
    (hp : p ≠ b!"dummy string") :
    insert l (Str.new p) (Str.new v) after =
      insertLoop l (Str.new p) (Str.new v) after l.fresh (as ++ [l.tail]).head? := by
  have hne : some l.head ≠ some l.tail := by simpa using h.head_ne_tail
  have hk : ¬ (b!"dummy string" = p) := fun e => hp e.symm
  simp only [insert, insertLoop, hne, ne_eq, not_false_eq_true, if_true, deref, Outcome.bind_ok, h.headData,
        Str.dummy, Str.equals_new, hk, decide_false, Bool.false_eq_true, if_false, h.head_next]

/-- `Insert` on a represented list: nothing happens without the pivot, otherwise the value goes next to the first pivot. A pivot equal
to the text of the sentinels either panics (before) or inserts at the front (after). -/
theorem insert_rep {l : LList} {xs : List Bytes} (h : Rep l xs) (p v : Bytes) (after : Bool) :
    (p ≠ b!"dummy string" → p ∉ xs → insert l (Str.new p) (Str.new v) after = .ok (l, .error .noSuchPivot)) ∧
    (p ≠ b!"dummy string" → ∀ pre post, Spec.FirstAt p pre post xs →
      ∃ l', insert l (Str.new p) (Str.new v) after = .ok (l', .ok ((xs.length + 1 : Nat) : Int)) ∧
        Rep l' (if after then pre ++ p :: v :: post else pre ++ v :: p :: post)) ∧
    (p = b!"dummy string" → after = false → insert l (Str.new p) (Str.new v) after = .panic) ∧
    (p = b!"dummy string" → after = true →
      ∃ l', insert l (Str.new p) (Str.new v) after = .ok (l', .ok ((xs.length + 1 : Nat) : Int)) ∧ Rep l' (v :: xs)) := by
  obtain ⟨as, h⟩ := h
  have hne : some l.head ≠ some l.tail := by simpa using h.head_ne_tail
  refine ⟨?_, ?_, ?_, ?_⟩
  · intro hp hn
    rw [insert_start h hp]
    exact (insertLoop_rep (as1 := []) (xs1 := []) (f := l.fresh) h rfl (by have := h.fuel; omega)).1 hn
  · intro hp pre post hf
    rw [insert_start h hp]
    have := (insertLoop_rep (v := v) (after := after) (as1 := []) (xs1 := []) (f := l.fresh) h rfl
      (by have := h.fuel; omega)).2 pre post hf
    simpa using this
  · rintro rfl rfl
    have hh : l.head ≠ l.fresh := by have := h.alloc l.head (by simp); omega
    have : insertBefore l l.head (Str.new v) = .panic := by
      simp [insertBefore, Heap.upd, hh, h.headPrev, deref]
    simp only [insert, insertLoop, hne, ne_eq, not_false_eq_true, if_true, deref, Outcome.bind_ok, h.headData,
        Str.dummy, Str.equals_new, decide_true, Bool.false_eq_true, if_false, this, Outcome.bind_panic]
  · rintro rfl rfl
    obtain ⟨l1, e, hs, -, -, hr⟩ := insertAfter_head h v
    simp only [insert, insertLoop, hne, ne_eq, not_false_eq_true, if_true, deref, Outcome.bind_ok, h.headData,
        Str.dummy, Str.equals_new, decide_true, e]
    exact ⟨_, by rw [hs, h.size]; simp, _, hr⟩

end LList

end Verif
