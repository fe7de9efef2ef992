import Verif.Model.LinkedList
import Verif.Lemmas.Str
import Mathlib.Data.List.Chain
import Mathlib.Data.List.Nodup

/-! Pointer surgery on doubly linked lists. -/

namespace Verif

open List

/-- `a` and `b` are neighbours: forward and backward pointers agree. -/
def Link (m : Heap) (a b : Nat) : Prop := (m a).next = some b ∧ (m b).prev = some a

/-- `p` is a doubly linked path without repetition. -/
def Path (m : Heap) (p : List Nat) : Prop := p.Nodup ∧ p.IsChain (Link m)

theorem chain_congr {m m' : Heap} {p : List Nat} (h : p.IsChain (Link m))
    (hn : ∀ a ∈ p.dropLast, (m' a).next = (m a).next) (hp : ∀ b ∈ p.tail, (m' b).prev = (m b).prev) :
    p.IsChain (Link m') := by
  induction p with
  | nil => exact .nil
  | cons a p ih =>
    cases p with
    | nil => exact .singleton a
    | cons b r =>
      rw [isChain_cons_cons] at h ⊢
      refine ⟨⟨?_, ?_⟩, ih h.2 ?_ ?_⟩
      · rw [hn a (by simp)]; exact h.1.1
      · rw [hp b (by simp)]; exact h.1.2
      · intro x hx; exact hn x (by simp only [dropLast_cons₂]; exact mem_cons_of_mem _ hx)
      · intro x hx; exact hp x (by simp only [tail_cons] at *; exact mem_cons_of_mem _ hx)

/-- Heap after linking the fresh node `n` between the neighbours `x` and `y`. -/
def spliced (m : Heap) (x y n : Nat) (d : Str) : Heap := fun a =>
  if a = n then ⟨d, some y, some x⟩
  else if a = x then { m x with next := some n }
  else if a = y then { m y with prev := some n }
  else m a

theorem path_spliced {m : Heap} {A B : List Nat} {x y n : Nat} {d : Str} (h : Path m (A ++ x :: y :: B))
    (hn : n ∉ A ++ x :: y :: B) : Path (spliced m x y n d) (A ++ x :: n :: y :: B) := by
  obtain ⟨hnd, hc⟩ := h
  have hn' := hn
  simp only [mem_append, mem_cons, not_or] at hn
  obtain ⟨hnA, hnx, hny, hnB⟩ := hn
  have hnd' := hnd
  rw [nodup_append] at hnd'
  simp only [nodup_cons, mem_cons, not_or] at hnd'
  obtain ⟨hA, ⟨⟨hxy, hxB⟩, hyB, hB⟩, hd⟩ := hnd'
  have hxA : x ∉ A := fun h => hd x h x (Or.inl rfl) rfl
  have hyA : y ∉ A := fun h => hd y h y (Or.inr (Or.inl rfl)) rfl
  refine ⟨?_, ?_⟩
  · rw [nodup_append]
    simp only [nodup_cons, mem_cons, not_or]
    refine ⟨hA, ⟨⟨fun e => hnx e.symm, hxy, hxB⟩, ⟨hny, hnB⟩, hyB, hB⟩, ?_⟩
    rintro a ha b (rfl | rfl | rfl | hb) rfl
    · exact hxA ha
    · exact hnA ha
    · exact hyA ha
    · exact hd a ha a (Or.inr (Or.inr hb)) rfl
  · rw [isChain_split] at hc ⊢
    obtain ⟨h1, h2⟩ := hc
    rw [isChain_cons_cons] at h2
    refine ⟨chain_congr h1 ?_ ?_, ?_⟩
    · intro a ha
      simp only [dropLast_concat] at ha
      have e1 : a ≠ n := fun e => hnA (e ▸ ha)
      have e2 : a ≠ x := fun e => hxA (e ▸ ha)
      have e3 : a ≠ y := fun e => hyA (e ▸ ha)
      simp [spliced, e1, e2, e3]
    · intro a ha
      have ha := mem_of_mem_tail ha
      simp only [mem_append, mem_singleton] at ha
      have e1 : a ≠ n := by rintro rfl; rcases ha with h | h; exact hnA h; exact hnx h
      have e3 : a ≠ y := by rintro rfl; rcases ha with h | h; exact hyA h; exact hxy h.symm
      simp only [spliced, e1, e3, if_false]
      split
      · next e => subst e; rfl
      · rfl
    · rw [isChain_cons_cons, isChain_cons_cons]
      refine ⟨⟨?_, ?_⟩, ⟨?_, ?_⟩, chain_congr h2.2 ?_ ?_⟩
      · simp [spliced, Ne.symm hnx]
      · simp [spliced]
      · simp [spliced]
      · simp [spliced, Ne.symm hny, Ne.symm hxy]
      · intro a ha
        have ha := (dropLast_sublist _).subset ha
        have e1 : a ≠ n := by rintro rfl; rcases mem_cons.1 ha with h | h; exact hny h; exact hnB h
        have e2 : a ≠ x := by rintro rfl; rcases mem_cons.1 ha with h | h; exact hxy h; exact hxB h
        simp only [spliced, e1, e2, if_false]
        split
        · next e => subst e; rfl
        · rfl
      · intro a ha
        simp only [tail_cons] at ha
        have e1 : a ≠ n := by rintro rfl; exact hnB ha
        have e2 : a ≠ x := by rintro rfl; exact hxB ha
        have e3 : a ≠ y := by rintro rfl; exact hyB ha
        simp [spliced, e1, e2, e3]

/-- Heap after unlinking `c` from between its neighbours `x` and `y`. -/
def unlinked (m : Heap) (x c y : Nat) : Heap := fun a =>
  if a = c then { m c with next := none, prev := none }
  else if a = x then { m x with next := some y }
  else if a = y then { m y with prev := some x }
  else m a

@[simp] theorem unlinked_data (m : Heap) (x c y a : Nat) : (unlinked m x c y a).data = (m a).data := by
  unfold unlinked; split
  · next e => subst e; rfl
  · split
    · next e => subst e; rfl
    · split
      · next e => subst e; rfl
      · rfl

theorem path_unlinked {m : Heap} {A B : List Nat} {x c y : Nat} (h : Path m (A ++ x :: c :: y :: B)) :
    Path (unlinked m x c y) (A ++ x :: y :: B) := by
  obtain ⟨hnd, hc⟩ := h
  have hnd' := hnd
  rw [nodup_append] at hnd'
  simp only [nodup_cons, mem_cons, not_or] at hnd'
  obtain ⟨hA, ⟨⟨hxc, hxy, hxB⟩, ⟨hcy, hcB⟩, hyB, hB⟩, hd⟩ := hnd'
  have hxA : x ∉ A := fun h => hd x h x (Or.inl rfl) rfl
  have hcA : c ∉ A := fun h => hd c h c (Or.inr (Or.inl rfl)) rfl
  have hyA : y ∉ A := fun h => hd y h y (Or.inr (Or.inr (Or.inl rfl))) rfl
  refine ⟨?_, ?_⟩
  · rw [nodup_append]
    simp only [nodup_cons, mem_cons, not_or]
    refine ⟨hA, ⟨⟨hxy, hxB⟩, hyB, hB⟩, ?_⟩
    rintro a ha b (rfl | rfl | hb) rfl
    · exact hxA ha
    · exact hyA ha
    · exact hd a ha a (Or.inr (Or.inr (Or.inr hb))) rfl
  · rw [isChain_split] at hc ⊢
    obtain ⟨h1, h2⟩ := hc
    rw [isChain_cons_cons, isChain_cons_cons] at h2
    refine ⟨chain_congr h1 ?_ ?_, ?_⟩
    · intro a ha
      simp only [dropLast_concat] at ha
      have e1 : a ≠ c := fun e => hcA (e ▸ ha)
      have e2 : a ≠ x := fun e => hxA (e ▸ ha)
      have e3 : a ≠ y := fun e => hyA (e ▸ ha)
      simp [unlinked, e1, e2, e3]
    · intro a ha
      have ha := mem_of_mem_tail ha
      simp only [mem_append, mem_singleton] at ha
      have e1 : a ≠ c := by rintro rfl; rcases ha with h | h; exact hcA h; exact hxc h.symm
      have e3 : a ≠ y := by rintro rfl; rcases ha with h | h; exact hyA h; exact hxy h.symm
      simp only [unlinked, e1, e3, if_false]
      split
      · next e => subst e; rfl
      · rfl
    · rw [isChain_cons_cons]
      refine ⟨⟨?_, ?_⟩, chain_congr h2.2.2 ?_ ?_⟩
      · simp [unlinked, hxc]
      · simp [unlinked, Ne.symm hcy, Ne.symm hxy]
      · intro a ha
        have ha := (dropLast_sublist _).subset ha
        have e1 : a ≠ c := by rintro rfl; rcases mem_cons.1 ha with h | h; exact hcy h; exact hcB h
        have e2 : a ≠ x := by rintro rfl; rcases mem_cons.1 ha with h | h; exact hxy h; exact hxB h
        simp only [unlinked, e1, e2, if_false]
        split
        · next e => subst e; rfl
        · rfl
      · intro a ha
        simp only [tail_cons] at ha
        have e1 : a ≠ c := by rintro rfl; exact hcB ha
        have e2 : a ≠ x := by rintro rfl; exact hxB ha
        have e3 : a ≠ y := by rintro rfl; exact hyB ha
        simp [unlinked, e1, e2, e3]

theorem path_neighbours {m : Heap} {A B : List Nat} {x y : Nat} (h : Path m (A ++ x :: y :: B)) :
    (m x).next = some y ∧ (m y).prev = some x ∧ x ≠ y := by
  obtain ⟨hnd, hc⟩ := h
  rw [isChain_append_cons_cons] at hc
  refine ⟨hc.2.1.1, hc.2.1.2, ?_⟩
  rw [nodup_append] at hnd
  have := hnd.2.1
  simp only [nodup_cons, mem_cons, not_or] at this
  exact this.1.1

namespace LList

theorem deleteNode_eq {m : Heap} {A B : List Nat} {x c y : Nat} (h : Path m (A ++ x :: c :: y :: B)) :
    deleteNode m c = .ok (unlinked m x c y, (m c).data) := by
  obtain ⟨h1, h2, h3⟩ := path_neighbours h
  have h' : Path m ((A ++ [x]) ++ c :: y :: B) := by simpa using h
  obtain ⟨h4, h5, h6⟩ := path_neighbours h'
  have hxy : x ≠ y := by
    have := h.1
    rw [nodup_append] at this
    have := this.2.1
    simp only [nodup_cons, mem_cons, not_or] at this
    exact this.1.2.1
  unfold deleteNode
  simp only [h2, deref, Outcome.bind_ok]
  have e : (m.setNext x (m c).next c).next = some y := by
    simp [Heap.setNext, Heap.upd, Ne.symm h3, h4]
  have e' : (m.setNext x (m c).next c).prev = some x := by
    simp [Heap.setNext, Heap.upd, Ne.symm h3, h2]
  simp only [e, Outcome.bind_ok, e']
  congr 2
  funext a
  by_cases hac : a = c
  · subst hac
    simp [unlinked, Heap.setNext, Heap.setPrev, Heap.upd, h6, Ne.symm h3]
  · by_cases hax : a = x
    · subst hax
      simp [unlinked, Heap.setNext, Heap.setPrev, Heap.upd, h3, hxy, h4]
    · by_cases hay : a = y
      · subst hay
        simp [unlinked, Heap.setNext, Heap.setPrev, Heap.upd, hac, hax]
      · simp [unlinked, Heap.setNext, Heap.setPrev, Heap.upd, hac, hax, hay]

theorem insertAfter_eq {l : LList} {A B : List Nat} {x y : Nat} {d : Str} (h : Path l.heap (A ++ x :: y :: B))
    (hx : x ≠ l.fresh) (hy : y ≠ l.fresh) :
    insertAfter l x d = .ok { l with heap := spliced l.heap x y l.fresh d, fresh := l.fresh + 1 } := by
  obtain ⟨h1, h2, h3⟩ := path_neighbours h
  unfold insertAfter
  have e : (l.heap.upd l.fresh { data := d, prev := some x, next := (l.heap x).next } x).next = some y := by
    simp [Heap.upd, hx, h1]
  simp only [e, deref, Outcome.bind_ok]
  congr 2
  funext a
  by_cases ha : a = l.fresh
  · subst ha; simp [spliced, Heap.setNext, Heap.setPrev, Heap.upd, Ne.symm hx, Ne.symm hy, h1]
  · by_cases hax : a = x
    · subst hax; simp [spliced, Heap.setNext, Heap.setPrev, Heap.upd, h3, hx]
    · by_cases hay : a = y
      · subst hay; simp [spliced, Heap.setNext, Heap.setPrev, Heap.upd, hy, hax]
      · simp [spliced, Heap.setNext, Heap.setPrev, Heap.upd, ha, hax, hay]

theorem insertBefore_eq {l : LList} {A B : List Nat} {x y : Nat} {d : Str} (h : Path l.heap (A ++ x :: y :: B))
    (hx : x ≠ l.fresh) (hy : y ≠ l.fresh) :
    insertBefore l y d = .ok { l with heap := spliced l.heap x y l.fresh d, fresh := l.fresh + 1 } := by
  obtain ⟨h1, h2, h3⟩ := path_neighbours h
  unfold insertBefore
  have e : (l.heap.upd l.fresh { data := d, prev := (l.heap y).prev, next := some y } y).prev = some x := by
    simp [Heap.upd, hy, h2]
  simp only [e, deref, Outcome.bind_ok]
  congr 2
  funext a
  by_cases ha : a = l.fresh
  · subst ha; simp [spliced, Heap.setNext, Heap.setPrev, Heap.upd, Ne.symm hx, Ne.symm hy, h2]
  · by_cases hax : a = x
    · subst hax; simp [spliced, Heap.setNext, Heap.setPrev, Heap.upd, h3, hx]
    · by_cases hay : a = y
      · subst hay; simp [spliced, Heap.setNext, Heap.setPrev, Heap.upd, hy, hax]
      · simp [spliced, Heap.setNext, Heap.setPrev, Heap.upd, ha, hax, hay]

end LList

end Verif
