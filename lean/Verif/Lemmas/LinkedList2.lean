import Verif.Lemmas.LinkedList
import Verif.Lemmas.Seq

/-! Representation invariant of a linked list and its refinement to sequences. -/

namespace Verif

open List

theorem spliced_data {m : Heap} {x y n a : Nat} {d : Str} (h : a ≠ n) : (spliced m x y n d a).data = (m a).data := by
  simp only [spliced, h, if_false]
  split
  · next e => subst e; rfl
  · split
    · next e => subst e; rfl
    · rfl

theorem spliced_prev {m : Heap} {x y n a : Nat} {d : Str} (h : a ≠ n) (hy : a ≠ y) :
    (spliced m x y n d a).prev = (m a).prev := by
  simp only [spliced, h, hy, if_false]
  split
  · next e => subst e; rfl
  · rfl

theorem spliced_next {m : Heap} {x y n a : Nat} {d : Str} (h : a ≠ n) (hx : a ≠ x) :
    (spliced m x y n d a).next = (m a).next := by
  simp only [spliced, h, hx, if_false]
  split
  · next e => subst e; rfl
  · rfl

theorem unlinked_prev {m : Heap} {x y c a : Nat} (h : a ≠ c) (hy : a ≠ y) :
    (unlinked m x c y a).prev = (m a).prev := by
  simp only [unlinked, h, hy, if_false]
  split
  · next e => subst e; rfl
  · rfl

theorem unlinked_next {m : Heap} {x y c a : Nat} (h : a ≠ c) (hx : a ≠ x) :
    (unlinked m x c y a).next = (m a).next := by
  simp only [unlinked, h, hx, if_false]
  split
  · next e => subst e; rfl
  · rfl

namespace LList

/-- The nodes at addresses `as`, in this order between the two sentinels, hold the sequence `xs`. -/
structure RepA (l : LList) (as : List Nat) (xs : List Bytes) : Prop where
  path : Path l.heap (l.head :: (as ++ [l.tail]))
  alloc : ∀ a ∈ l.head :: (as ++ [l.tail]), a < l.fresh
  headPrev : (l.heap l.head).prev = none
  tailNext : (l.heap l.tail).next = none
  headData : (l.heap l.head).data = Str.dummy
  tailData : (l.heap l.tail).data = Str.dummy
  data : as.map (fun a => (l.heap a).data) = xs.map Str.new
  size : l.size = xs.length

/-- The list represents the sequence `xs`. -/
def Rep (l : LList) (xs : List Bytes) : Prop := ∃ as, RepA l as xs

theorem RepA.length {l : LList} {as xs} (h : RepA l as xs) : as.length = xs.length := by
  have := congrArg List.length h.data; simpa using this

theorem rep_new : Rep new [] := by
  refine ⟨[], ?_, ?_, rfl, rfl, rfl, rfl, rfl, rfl⟩
  · refine ⟨by simp [new], ?_⟩
    simp only [new, nil_append, isChain_pair]
    constructor <;> rfl
  · intro a ha
    simp [new] at ha ⊢
    omega

theorem map_congr_new {as : List Nat} {f g : Nat → Str} (h : ∀ a ∈ as, f a = g a) : as.map f = as.map g :=
  map_congr_left h

theorem RepA.splice {l : LList} {as1 as2 : List Nat} {xs1 xs2 : List Bytes} (h : RepA l (as1 ++ as2) (xs1 ++ xs2))
    (hlen : as1.length = xs1.length) {A B : List Nat} {x y : Nat} (hA : l.head :: as1 = A ++ [x])
    (hB : as2 ++ [l.tail] = y :: B) (d : Bytes) :
    RepA { l with heap := spliced l.heap x y l.fresh (Str.new d), fresh := l.fresh + 1, size := l.size + 1 }
      (as1 ++ l.fresh :: as2) (xs1 ++ d :: xs2) := by
  have hp : l.head :: (as1 ++ as2 ++ [l.tail]) = A ++ x :: y :: B := by
    have : l.head :: (as1 ++ as2 ++ [l.tail]) = (l.head :: as1) ++ (as2 ++ [l.tail]) := by simp
    rw [this, hA, hB]; simp
  have path := h.path
  have alloc := h.alloc
  rw [hp] at path
  have hfr : l.fresh ∉ A ++ x :: y :: B := by
    intro hm; have := alloc l.fresh (by rw [hp]; exact hm); omega
  have hnd := h.path.1
  have head_ne : l.head ≠ l.fresh := by have := alloc l.head (by simp); omega
  have tail_ne : l.tail ≠ l.fresh := by have := alloc l.tail (by simp); omega
  have hy : l.head ≠ y := by
    have : y ∈ as2 ++ [l.tail] := by rw [hB]; simp
    rintro rfl
    rw [nodup_cons] at hnd
    exact hnd.1 (by simp only [mem_append] at this ⊢; tauto)
  have hx : l.tail ≠ x := by
    have hmem : x ∈ l.head :: as1 := by rw [hA]; simp
    rintro rfl
    have h2 : (l.head :: as1 ++ as2 ++ [l.tail]).Nodup := by simpa using hnd
    rw [nodup_append] at h2
    exact h2.2.2 l.tail (mem_append_left _ hmem) l.tail (by simp) rfl
  have hd := h.data
  rw [map_append, map_append] at hd
  obtain ⟨d1, d2⟩ := append_inj hd (by simpa using hlen)
  refine ⟨?_, ?_, ?_, ?_, ?_, ?_, ?_, ?_⟩
  · have := path_spliced (d := Str.new d) path hfr
    have e : l.head :: (as1 ++ l.fresh :: as2 ++ [l.tail]) = A ++ x :: l.fresh :: y :: B := by
      have : l.head :: (as1 ++ l.fresh :: as2 ++ [l.tail]) = (l.head :: as1) ++ l.fresh :: (as2 ++ [l.tail]) := by simp
      rw [this, hA, hB]; simp
    simp only
    rw [e]; exact this
  · intro a ha
    simp only at ha ⊢
    by_cases e : a = l.fresh
    · omega
    · have := alloc a (by simp only [mem_cons, mem_append] at ha ⊢; tauto)
      omega
  · simp only; rw [spliced_prev head_ne hy]; exact h.headPrev
  · simp only; rw [spliced_next tail_ne hx]; exact h.tailNext
  · simp only; rw [spliced_data head_ne]; exact h.headData
  · simp only; rw [spliced_data tail_ne]; exact h.tailData
  · simp only [map_append, map_cons]
    have hne : ∀ a ∈ as1 ++ as2, a ≠ l.fresh := by
      intro a ha e
      have := alloc a (by simp only [mem_cons, mem_append] at ha ⊢; tauto)
      omega
    have e1 : as1.map (fun a => (spliced l.heap x y l.fresh (Str.new d) a).data) = as1.map (fun a => (l.heap a).data) :=
      map_congr_left fun a ha => spliced_data (hne a (mem_append_left _ ha))
    have e2 : as2.map (fun a => (spliced l.heap x y l.fresh (Str.new d) a).data) = as2.map (fun a => (l.heap a).data) :=
      map_congr_left fun a ha => spliced_data (hne a (mem_append_right _ ha))
    rw [e1, e2, d1, d2]
    simp [spliced]
  · have := h.size; simp at this ⊢; omega

theorem RepA.unlink {l : LList} {as1 as2 : List Nat} {c : Nat} {xs1 xs2 : List Bytes} {d : Bytes}
    (h : RepA l (as1 ++ c :: as2) (xs1 ++ d :: xs2)) (hlen : as1.length = xs1.length) :
    ∃ m, deleteNode l.heap c = .ok (m, Str.new d) ∧
      (∀ a, (m a).data = (l.heap a).data) ∧
      RepA { l with heap := m, size := l.size - 1 } (as1 ++ as2) (xs1 ++ xs2) := by
  obtain ⟨A, x, hA⟩ : ∃ A x, l.head :: as1 = A ++ [x] :=
    ⟨(l.head :: as1).dropLast, (l.head :: as1).getLast (by simp), (dropLast_append_getLast _).symm⟩
  obtain ⟨y, B, hB⟩ : ∃ y B, as2 ++ [l.tail] = y :: B := by
    cases as2 with
    | nil => exact ⟨_, _, rfl⟩
    | cons b t => exact ⟨_, _, rfl⟩
  have hp : l.head :: (as1 ++ c :: as2 ++ [l.tail]) = A ++ x :: c :: y :: B := by
    have : l.head :: (as1 ++ c :: as2 ++ [l.tail]) = (l.head :: as1) ++ c :: (as2 ++ [l.tail]) := by simp
    rw [this, hA, hB]; simp
  have path := h.path
  rw [hp] at path
  have hnd := h.path.1
  have hd := h.data
  rw [map_append, map_append, map_cons, map_cons] at hd
  obtain ⟨d1, d2⟩ := append_inj hd (by simpa using hlen)
  obtain ⟨d3, d4⟩ := cons.inj d2
  have hc1 : l.head ≠ c := by
    rintro e; rw [nodup_cons] at hnd; exact hnd.1 (by simp [e])
  have h2 : ((l.head :: as1 ++ c :: as2) ++ [l.tail]).Nodup := by simpa using hnd
  have hdis := (nodup_append.1 h2).2.2
  have hc2 : l.tail ≠ c := fun e => hdis l.tail (by simp [e]) l.tail (by simp) rfl
  have hx : l.tail ≠ x := by
    intro e
    have hmem : x ∈ l.head :: as1 := by rw [hA]; simp
    exact hdis x (mem_append_left _ hmem) l.tail (by simp) e.symm
  have hy : l.head ≠ y := by
    have hmem : y ∈ as2 ++ [l.tail] := by rw [hB]; simp
    rintro rfl
    rw [nodup_cons] at hnd
    exact hnd.1 (by simp only [mem_append, mem_cons] at hmem ⊢; tauto)
  refine ⟨_, ?_, unlinked_data l.heap x c y, ?_⟩
  · rw [deleteNode_eq path, d3]
  refine ⟨?_, ?_, ?_, ?_, ?_, ?_, ?_, ?_⟩
  · have := path_unlinked path
    have e : l.head :: (as1 ++ as2 ++ [l.tail]) = A ++ x :: y :: B := by
      have : l.head :: (as1 ++ as2 ++ [l.tail]) = (l.head :: as1) ++ (as2 ++ [l.tail]) := by simp
      rw [this, hA, hB]; simp
    simp only
    rw [e]; exact this
  · intro a ha
    exact h.alloc a (by simp only [mem_cons, mem_append] at ha ⊢; tauto)
  · simp only; rw [unlinked_prev hc1 hy]; exact h.headPrev
  · simp only; rw [unlinked_next hc2 hx]; exact h.tailNext
  · simp only [unlinked_data]; exact h.headData
  · simp only [unlinked_data]; exact h.tailData
  · simp only [unlinked_data, map_append, d1, d4]
  · have := h.size; simp at this ⊢; omega

/-! ### pushing -/

theorem insertAfter_head {l : LList} {as xs} (h : RepA l as xs) (d : Bytes) :
    ∃ l1, insertAfter l l.head (Str.new d) = .ok l1 ∧ l1.size = l.size ∧ l1.head = l.head ∧ l1.tail = l.tail ∧
      RepA { l1 with size := l1.size + 1 } (l.fresh :: as) (d :: xs) := by
  obtain ⟨y, B, hB⟩ : ∃ y B, as ++ [l.tail] = y :: B := by
    cases as with
    | nil => exact ⟨_, _, rfl⟩
    | cons b t => exact ⟨_, _, rfl⟩
  have hpath : Path l.heap ([] ++ l.head :: y :: B) := by rw [← hB]; exact h.path
  have hx : l.head ≠ l.fresh := by have := h.alloc l.head (by simp); omega
  have hy : y ≠ l.fresh := by have := h.alloc y (by rw [hB]; simp); omega
  refine ⟨_, insertAfter_eq hpath hx hy, rfl, rfl, rfl, ?_⟩
  exact RepA.splice (as1 := []) (xs1 := []) (A := []) h rfl rfl hB d

theorem insertBefore_tail {l : LList} {as xs} (h : RepA l as xs) (d : Bytes) :
    ∃ l1, insertBefore l l.tail (Str.new d) = .ok l1 ∧ l1.size = l.size ∧ l1.head = l.head ∧ l1.tail = l.tail ∧
      RepA { l1 with size := l1.size + 1 } (as ++ [l.fresh]) (xs ++ [d]) := by
  obtain ⟨A, x, hA⟩ : ∃ A x, l.head :: as = A ++ [x] :=
    ⟨(l.head :: as).dropLast, (l.head :: as).getLast (by simp), (dropLast_append_getLast _).symm⟩
  have hp : l.head :: (as ++ [l.tail]) = A ++ x :: l.tail :: [] := by
    have : l.head :: (as ++ [l.tail]) = (l.head :: as) ++ [l.tail] := by simp
    rw [this, hA]; simp
  have hpath : Path l.heap (A ++ x :: l.tail :: []) := by rw [← hp]; exact h.path
  have hy : l.tail ≠ l.fresh := by have := h.alloc l.tail (by simp); omega
  have hx : x ≠ l.fresh := by have := h.alloc x (by rw [hp]; simp); omega
  refine ⟨_, insertBefore_eq hpath hx hy, rfl, rfl, rfl, ?_⟩
  have h' : RepA l (as ++ []) (xs ++ []) := by simpa using h
  exact RepA.splice (as1 := as) (as2 := []) (xs1 := xs) (xs2 := []) (B := []) h' h.length hA rfl d

theorem pushHead_rep {l : LList} {xs : List Bytes} (h : Rep l xs) (vs : List Bytes) :
    ∃ l', pushHead l (vs.map Str.new) = .ok (l', ((vs.length + xs.length : Nat) : Int)) ∧ Rep l' (vs.reverse ++ xs) := by
  induction vs generalizing l xs with
  | nil =>
    obtain ⟨as, h⟩ := h
    exact ⟨l, by simp [pushHead, h.size], as, h⟩
  | cons v vs ih =>
    obtain ⟨as, h⟩ := h
    obtain ⟨l1, e, -, -, -, h1⟩ := insertAfter_head h v
    obtain ⟨l', e', h'⟩ := ih ⟨_, h1⟩
    refine ⟨l', ?_, by simpa using h'⟩
    simp only [map_cons, pushHead, e, Outcome.bind_ok]
    rw [e']; simp; omega

theorem pushTail_rep {l : LList} {xs : List Bytes} (h : Rep l xs) (vs : List Bytes) :
    ∃ l', pushTail l (vs.map Str.new) = .ok (l', ((xs.length + vs.length : Nat) : Int)) ∧ Rep l' (xs ++ vs) := by
  induction vs generalizing l xs with
  | nil =>
    obtain ⟨as, h⟩ := h
    exact ⟨l, by simp [pushTail, h.size], as, by simpa using h⟩
  | cons v vs ih =>
    obtain ⟨as, h⟩ := h
    obtain ⟨l1, e, -, -, -, h1⟩ := insertBefore_tail h v
    obtain ⟨l', e', h'⟩ := ih ⟨_, h1⟩
    refine ⟨l', ?_, by simpa using h'⟩
    simp only [map_cons, pushTail, e, Outcome.bind_ok]
    rw [e']; simp; omega

/-! ### popping -/

theorem RepA.head_next {l : LList} {as xs} (h : RepA l as xs) :
    (l.heap l.head).next = (as ++ [l.tail]).head? := by
  cases as with
  | nil => exact (path_neighbours (A := []) h.path).1
  | cons a t => exact (path_neighbours (A := []) h.path).1

theorem RepA.tail_prev {l : LList} {as xs} (h : RepA l as xs) :
    (l.heap l.tail).prev = (l.head :: as).getLast? := by
  obtain ⟨A, x, hA⟩ : ∃ A x, l.head :: as = A ++ [x] :=
    ⟨(l.head :: as).dropLast, (l.head :: as).getLast (by simp), (dropLast_append_getLast _).symm⟩
  have hp : l.head :: (as ++ [l.tail]) = A ++ x :: l.tail :: [] := by
    have : l.head :: (as ++ [l.tail]) = (l.head :: as) ++ [l.tail] := by simp
    rw [this, hA]; simp
  have := path_neighbours (hp ▸ h.path)
  rw [this.2.1, hA]; simp

theorem RepA.tail_notMem {l : LList} {as xs} (h : RepA l as xs) : l.tail ∉ l.head :: as := by
  have h2 : ((l.head :: as) ++ [l.tail]).Nodup := by simpa using h.path.1
  intro hm
  exact (nodup_append.1 h2).2.2 _ hm l.tail (by simp) rfl

theorem RepA.head_notMem {l : LList} {as xs} (h : RepA l as xs) : l.head ∉ as ++ [l.tail] :=
  (nodup_cons.1 h.path.1).1

theorem popHead_rep_nil {l : LList} (h : Rep l []) : popHead l = .ok (l, .error .emptyList) := by
  obtain ⟨as, h⟩ := h
  have : as = [] := by have := h.length; simpa using this
  subst this
  unfold popHead
  rw [if_pos (by rw [h.head_next]; rfl)]

theorem popHead_rep_cons {l : LList} {x : Bytes} {xs : List Bytes} (h : Rep l (x :: xs)) :
    ∃ l', popHead l = .ok (l', .ok (Str.new x)) ∧ Rep l' xs := by
  obtain ⟨as, h⟩ := h
  cases as with
  | nil => have := h.length; simp at this
  | cons a as =>
    obtain ⟨m, e, -, h'⟩ := RepA.unlink (as1 := []) (xs1 := []) h rfl
    have hn : (l.heap l.head).next = some a := by rw [h.head_next]; rfl
    have hne : a ≠ l.tail := by
      rintro rfl; exact h.tail_notMem (by simp)
    unfold popHead
    rw [hn, if_neg (by simpa using hne)]
    simp only [deref, Outcome.bind_ok, e]
    exact ⟨_, rfl, as, h'⟩

theorem popTail_rep_nil {l : LList} (h : Rep l []) : popTail l = .ok (l, .error .emptyList) := by
  obtain ⟨as, h⟩ := h
  have : as = [] := by have := h.length; simpa using this
  subst this
  unfold popTail
  rw [if_pos (by rw [h.tail_prev]; rfl)]

theorem popTail_rep_snoc {l : LList} {x : Bytes} {xs : List Bytes} (h : Rep l (xs ++ [x])) :
    ∃ l', popTail l = .ok (l', .ok (Str.new x)) ∧ Rep l' xs := by
  obtain ⟨as, h⟩ := h
  rcases eq_nil_or_concat as with rfl | ⟨as, a, rfl⟩
  · have := h.length; simp at this
  · have hl : as.length = xs.length := by have := h.length; simpa using this
    obtain ⟨m, e, -, h'⟩ := RepA.unlink (as1 := as) (as2 := []) (xs1 := xs) (xs2 := []) (by simpa using h) hl
    have hn : (l.heap l.tail).prev = some a := by
      rw [h.tail_prev, concat_eq_append, ← cons_append, getLast?_append]; rfl
    have hne : a ≠ l.head := by
      rintro rfl; exact h.head_notMem (by simp)
    unfold popTail
    rw [hn, if_neg (by simpa using hne)]
    simp only [deref, Outcome.bind_ok, e]
    exact ⟨_, rfl, as, by simpa using h'⟩

end LList

end Verif
