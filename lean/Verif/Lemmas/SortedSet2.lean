import Verif.Lemmas.SortedSet
import Mathlib.Data.List.Range
import Mathlib.Data.List.Perm.Subperm

/-! The representation invariant of the skip list and what its operations do to it. -/

namespace Verif.Skip

open SkipList

/-- The skip list `s` consists of the nodes `ns`, in this order. Nodes without a string are left-overs of failed deletions. -/
structure Rep (s : SkipList) (ns : List Nat) : Prop where
  nodup : (s.tail :: s.head :: ns).Nodup
  below : ∀ a ∈ s.tail :: s.head :: ns, a < s.fresh
  lev : 1 ≤ s.level ∧ s.level ≤ 32
  hht : ht s.heap s.head = 32
  tht : ht s.heap s.tail = 0
  hts : ∀ a ∈ ns, 1 ≤ ht s.heap a ∧ ht s.heap a ≤ s.level
  linked : ∀ l < 32, Linked s.heap l (s.head :: on s.heap l ns ++ [s.tail])
  prev : ∃ p, (s.heap s.tail).prev = some p ∧ p < s.fresh ∧ p ≠ s.tail ∧ (p = lastOr s.head ns ∨ (s.heap p).data = none)
  hdata : (s.heap s.head).data = none
  wf : s.set.WF
  set : ∀ k a, s.set.get k = some a ↔ a ∈ ns ∧ ∃ d, (s.heap a).data = some d ∧ d.data = k

namespace Rep

variable {s : SkipList} {ns : List Nat}

theorem tail_notin (h : Rep s ns) : s.tail ∉ ns := fun hm => (List.nodup_cons.1 h.nodup).1 (List.mem_cons_of_mem _ hm)
theorem head_notin (h : Rep s ns) : s.head ∉ ns := (List.nodup_cons.1 (List.nodup_cons.1 h.nodup).2).1
theorem head_ne_tail (h : Rep s ns) : s.head ≠ s.tail := fun e => (List.nodup_cons.1 h.nodup).1 (by simp [e])
theorem nodup' (h : Rep s ns) : (s.head :: ns).Nodup := (List.nodup_cons.1 h.nodup).2

theorem count (h : Rep s ns) : ns.length < s.fresh := by
  have : (s.tail :: s.head :: ns) ⊆ List.range s.fresh := fun a ha => List.mem_range.2 (h.below a ha)
  have := (List.Nodup.subperm h.nodup this).length_le
  simp at this
  omega

theorem fresh_notin (h : Rep s ns) : s.fresh ∉ s.tail :: s.head :: ns := fun hm => Nat.lt_irrefl _ (h.below _ hm)

theorem on_zero (h : Rep s ns) : on s.heap 0 ns = ns := by
  unfold on
  rw [List.filter_eq_self]
  intro a ha
  simpa using Nat.lt_of_lt_of_le Nat.zero_lt_one (h.hts a ha).1

end Rep

theorem on_zero_sub {m : SHeap} {A : List Nat} (h : ∀ a ∈ A, 1 ≤ ht m a) : on m 0 A = A := by
  unfold on
  rw [List.filter_eq_self]
  intro a ha
  simpa using Nat.lt_of_lt_of_le Nat.zero_lt_one (h a ha)

theorem goesBefore_ne_diverge (m : SHeap) (sc : F64) (e : Str) (a : Nat) : goesBefore m sc e a ≠ .diverge := by
  unfold goesBefore; split
  · simp
  · split
    · split <;> simp
    · simp

theorem goesBefore_panic {m : SHeap} {sc : F64} {e : Str} {a : Nat} (h : goesBefore m sc e a = .panic) :
    (m a).data = none ∧ F64.eq (m a).score sc = true := by
  unfold goesBefore at h
  split at h
  · simp at h
  · split at h
    · rename_i h1
      split at h
      · simp at h
      · rename_i h2; exact ⟨h2, h1⟩
    · simp at h

/-- A search from the head over all levels. -/
theorem search_rep {s : SkipList} {ns : List Nat} (h : Rep s ns) {cond : Nat → Outcome Bool} (hd : ∀ a, cond a ≠ .diverge) :
    (search s.heap s.tail cond s.fresh s.level s.head 0 = .panic ∧ ∃ w ∈ ns, cond w = .panic) ∨
    ∃ us C D, ns = C ++ D ∧ search s.heap s.tail cond s.fresh s.level s.head 0 = .ok us ∧ us.length = s.level ∧
      (∀ l < s.level, ∃ r, us[l]? = some (lastOr s.head (on s.heap l C), r)) ∧
      (∀ w ∈ C, s.level ≤ ht s.heap w → cond w = .ok true) ∧
      (∀ w ∈ C.getLast?, cond w = .ok true) ∧ ∀ w ∈ D.head?, cond w = .ok false := by
  have := search_spec (m := s.heap) (h := s.head) (t := s.tail) (fuel := s.fresh) hd s.level [] ns 0
    (fun l hl => by simpa using h.linked l (by have := h.lev.2; omega)) h.tail_notin h.count (.inl rfl)
  simp only [lastOr_nil, List.nil_append] at this
  rcases this with h1 | ⟨us, C, D, h1, h2, h3, h4, h5, -, h7⟩
  · exact .inl h1
  · refine .inr ⟨us, C, D, h1, h2, h3, h4, h5, (h7 (by have := h.lev.1; omega)).1, ?_⟩
    have := (h7 (by have := h.lev.1; omega)).2
    rwa [on_zero_sub (fun a ha => (h.hts a (by simp [h1, ha])).1)] at this

/-- The search ends at the node `p` on the lowest level. -/
def Stops (s : SkipList) (cond : Nat → Outcome Bool) (p : Nat) : Prop :=
  ∃ us r, search s.heap s.tail cond s.fresh s.level s.head 0 = .ok us ∧ us[0]? = some (p, r)

theorem mem_lastOr_on {m : SHeap} {h l : Nat} {C : List Nat} (hh : l < ht m h) : l < ht m (lastOr h (on m l C)) := by
  have := lastOr_mem h (on m l C)
  rcases List.mem_cons.1 this with e | e
  · rw [e]; exact hh
  · simpa using (List.mem_filter.1 e).2

theorem lower_spec {m : SHeap} {h t : Nat} {ns : List Nat} (hl : ∀ l < 32, Linked m l (h :: on m l ns ++ [t])) (ht' : t ∉ ns)
    (hh : ht m h = 32) : ∀ n, 1 ≤ n → n ≤ 32 → (∀ a ∈ ns, ht m a ≤ n) →
    ∃ n', lower m h t n = .ok n' ∧ 1 ≤ n' ∧ n' ≤ n ∧ (∀ a ∈ ns, ht m a ≤ n') ∧ (n' = 1 ∨ ∃ a ∈ ns, ht m a = n') := by
  intro n
  induction n with
  | zero => intro h; omega
  | succ n ih =>
    intro _ h32 hle
    cases n with
    | zero => exact ⟨1, rfl, by omega, by omega, by simpa using hle, .inl rfl⟩
    | succ n =>
      obtain ⟨v, h1, -, h3⟩ := level_of_ht (m := m) (l := n + 1) (x := h) (by omega)
      have h4 : nxt m (n + 1) h = some ((on m (n + 1) ns).head?.getD t) := by
        have := linked_next (A := []) (B := on m (n + 1) ns) (by simpa using hl (n + 1) (by omega))
        simpa using this
      rw [h3] at h4
      by_cases hv : v.node = t
      · have hon : on m (n + 1) ns = [] := by
          cases e : on m (n + 1) ns with
          | nil => rfl
          | cons a as =>
            rw [e] at h4; simp at h4
            have : a ∈ on m (n + 1) ns := by rw [e]; simp
            rw [← h4, hv] at this
            exact absurd (List.mem_of_mem_filter this) ht'
        obtain ⟨n', g1, g2, g3, g4, g5⟩ := ih (by omega) (by omega) (by
          intro a ha
          have := List.filter_eq_nil_iff.1 hon a ha
          simp at this; exact this)
        exact ⟨n', by simp [lower, h1, hv, g1], g2, by omega, g4, g5⟩
      · refine ⟨n + 2, by simp [lower, h1, hv], by omega, by omega, hle, .inr ?_⟩
        cases e : on m (n + 1) ns with
        | nil => rw [e] at h4; simp at h4; exact absurd h4 hv
        | cons a as =>
          have ha : a ∈ on m (n + 1) ns := by rw [e]; simp
          have h5 := List.mem_filter.1 ha
          have h6 := hle a h5.1
          have h7 := h5.2
          simp at h7
          exact ⟨a, h5.1, by omega⟩

/-- What `deleteNode` does up to the point where it needs the node's string. -/
theorem deleteCore {s : SkipList} {ns : List Nat} (h : Rep s ns) {node : Nat} (hnt : node ≠ s.tail) :
    ∃ us m' level', search s.heap s.tail (fun a => .ok (decide (a ≠ node))) s.fresh s.level s.head 0 = .ok us ∧
      unlink node s.heap 0 us = .ok m' ∧ lower m' s.head s.tail s.level = .ok level' ∧ SameNodes s.heap m' ∧
      (∀ x, ht m' x = ht s.heap x) ∧ 1 ≤ level' ∧ level' ≤ s.level ∧
      ∃ ns', ((∃ C D, ns = C ++ node :: D ∧ ns' = C ++ D ∧ Stops s (fun a => .ok (decide (a ≠ node))) (lastOr s.head C)) ∨
          ns' = ns ∧ (node ∈ ns → ht s.heap node < s.level) ∧ Stops s (fun a => .ok (decide (a ≠ node))) (lastOr s.head ns)) ∧
        (∀ l < 32, Linked m' l (s.head :: on m' l ns' ++ [s.tail])) ∧ (∀ a ∈ ns', ht m' a ≤ level') ∧
        (level' = 1 ∨ ∃ a ∈ ns', ht m' a = level') := by
  rcases search_rep h (cond := fun a => .ok (decide (a ≠ node))) (by simp) with ⟨-, w, -, hw⟩ | ⟨us, C, D, rfl, h2, h3, h4, h5, h6, h7⟩
  · simp at hw
  · -- the pointers at the place found
    have hnext : ∀ l < 32, nxt s.heap l (lastOr s.head (on s.heap l C)) = some ((on s.heap l D).head?.getD s.tail) := by
      intro l hl
      have := h.linked l hl
      rw [on_append] at this
      exact linked_next this
    have hn0 : s.head ≠ node → lastOr s.head (on s.heap 0 C) ≠ node := by
      intro hne
      rw [on_zero_sub (fun a ha => (h.hts a (by simp [ha])).1)]
      rcases nil_or_snoc C with rfl | ⟨C', x, rfl⟩
      · simpa using hne
      · simpa using h6
    have hfst : ∀ k x, (us.map Prod.fst)[k]? = some x ↔ k < s.level ∧ x = lastOr s.head (on s.heap k C) := by
      intro k x
      rw [List.getElem?_map]
      constructor
      · intro hx
        obtain ⟨p, hp1, hp2⟩ := Option.map_eq_some_iff.1 hx
        have hk : k < us.length := (List.getElem?_eq_some_iff.1 hp1).1
        obtain ⟨r, hr⟩ := h4 k (by omega)
        rw [hp1] at hr; cases hr
        exact ⟨by omega, hp2.symm⟩
      · rintro ⟨hk, rfl⟩
        obtain ⟨r, hr⟩ := h4 k hk
        simp [hr]
    -- is the node where it was looked for?
    have hD : D = [] ∧ node ∉ D ∨ ∃ D', D = node :: D' := by
      cases D with
      | nil => exact .inl ⟨rfl, by simp⟩
      | cons d D' => have := h7 d (by simp); simp at this; exact .inr ⟨D', by rw [this]⟩
    have hlevel : s.level ≤ 32 := h.lev.2
    obtain ⟨m', g1, g2, g3, g4⟩ := unlink_spec (node := node) us 0 s.heap (by
      intro i u r hi
      have hk : i < us.length := (List.getElem?_eq_some_iff.1 hi).1
      obtain ⟨r', hr⟩ := h4 i (by omega)
      rw [hi] at hr; cases hr
      rw [Nat.zero_add]
      refine ⟨mem_lastOr_on (by rw [h.hht]; omega), ?_⟩
      intro hx
      rw [hnext i (by omega)] at hx
      have hx' : node ∈ on s.heap i D := by
        cases e : on s.heap i D with
        | nil => rw [e] at hx; simp at hx; exact absurd hx.symm hnt
        | cons y ys => rw [e] at hx; simp at hx; simp [hx]
      refine ⟨?_, by simpa using (List.mem_filter.1 hx').2⟩
      have hnD := List.mem_of_mem_filter hx'
      intro e
      have := lastOr_mem s.head (on s.heap i C)
      rw [e] at this
      rcases List.mem_cons.1 this with e' | e'
      · exact h.head_notin (by rw [← e']; simp [hnD])
      · have := (List.nodup_append.1 (List.nodup_cons.1 h.nodup').2).2.2 node (List.mem_of_mem_filter e') node hnD
        exact this rfl)
    have hon : ∀ l A, on m' l A = on s.heap l A := by intro l A; unfold on; simp only [g3]
    have hsub : ∀ (D' : List Nat), (D = node :: D' ∨ D = D') → ∀ x ∈ C ++ D', x ∈ C ++ D := by
      rintro D' (rfl | rfl) x hx
      · rcases List.mem_append.1 hx with hx | hx <;> simp [hx]
      · exact hx
    have hstop : Stops s (fun a => .ok (decide (a ≠ node))) (lastOr s.head C) := by
      obtain ⟨r, hr⟩ := h4 0 (by have := h.lev.1; omega)
      rw [on_zero_sub (fun a ha => (h.hts a (by simp [ha])).1)] at hr
      exact ⟨us, r, h2, hr⟩
    -- the chains afterwards
    have key : ∃ ns', ((∃ C' D', C ++ D = C' ++ node :: D' ∧ ns' = C' ++ D' ∧ Stops s (fun a => .ok (decide (a ≠ node))) (lastOr s.head C')) ∨
          ns' = C ++ D ∧ (node ∈ C ++ D → ht s.heap node < s.level) ∧ Stops s (fun a => .ok (decide (a ≠ node))) (lastOr s.head (C ++ D))) ∧
        (∀ l < 32, Linked m' l (s.head :: on m' l ns' ++ [s.tail])) ∧ (∀ a ∈ ns', a ∈ C ++ D) := by
      rcases hD with ⟨rfl, -⟩ | ⟨D', rfl⟩
      · refine ⟨C ++ [], .inr ⟨rfl, ?_, by simpa using hstop⟩, ?_, fun _ h => h⟩
        · intro hm
          by_contra hge
          have := h5 node (by simpa using hm) (by omega)
          simp at this
        · intro l hl
          rw [hon]
          refine follows_congr (fun x hx => ?_) (h.linked l hl)
          rw [g4]
          split
          · rename_i hc
            obtain ⟨-, hc2, hc3⟩ := hc
            rw [Nat.sub_zero, hfst] at hc2
            rw [hc2.2, hnext l hl] at hc3
            simp [on] at hc3
            exact absurd hc3.symm hnt
          · rfl
      · refine ⟨C ++ D', .inl ⟨C, D', rfl, rfl, hstop⟩, ?_, hsub D' (.inl rfl)⟩
        intro l hl
        rw [hon]
        have hlk := h.linked l hl
        have hnd := h.nodup'
        by_cases hln : l < ht s.heap node
        · have e1 : on s.heap l (C ++ node :: D') = on s.heap l C ++ node :: on s.heap l D' := by
            rw [on_append]; simp [on, hln]
          rw [e1] at hlk
          rw [on_append]
          have hnext' : nxt s.heap l (lastOr s.head (on s.heap l C)) = some node := by
            rw [hnext l hl]; simp [on, hln]
          refine follows_delete (f := nxt s.heap l) ?_ ?_ ?_ hlk
          · have hs : (s.head :: (on s.heap l C ++ on s.heap l D')).Sublist (s.head :: (C ++ node :: D')) := by
              refine List.Sublist.cons_cons _ (List.Sublist.append List.filter_sublist ?_)
              exact (List.filter_sublist).trans (List.sublist_cons_self _ _)
            exact hs.nodup hnd
          · intro x hx hne
            rw [g4, if_neg]
            rintro ⟨-, hc2, -⟩
            rw [Nat.sub_zero, hfst] at hc2
            exact hne hc2.2
          · rw [g4, if_pos]
            refine ⟨Nat.zero_le _, ?_, hnext'⟩
            rw [Nat.sub_zero, hfst]
            exact ⟨by have := (h.hts node (by simp)).2; omega, rfl⟩
        · have e1 : on s.heap l (C ++ node :: D') = on s.heap l (C ++ D') := by
            rw [on_append, on_append]; simp [on, hln]
          rw [e1] at hlk
          refine follows_congr (fun x hx => ?_) hlk
          rw [g4]
          split
          · rename_i hc
            obtain ⟨-, hc2, hc3⟩ := hc
            rw [Nat.sub_zero, hfst] at hc2
            rw [hc2.2, hnext l hl] at hc3
            exfalso
            have hx' : node ∈ on s.heap l (node :: D') := by
              cases e : on s.heap l (node :: D') with
              | nil => rw [e] at hc3; simp at hc3; exact absurd hc3.symm hnt
              | cons y ys => rw [e] at hc3; simp at hc3; simp [hc3]
            exact hln (by simpa using (List.mem_filter.1 hx').2)
          · rfl
    obtain ⟨ns', k1, k2, k3⟩ := key
    obtain ⟨level', l1, l2, l3, l4, l5⟩ := lower_spec (m := m') (h := s.head) (t := s.tail) (ns := ns') k2
      (fun hm => h.tail_notin (k3 _ hm)) (by rw [g3]; exact h.hht) s.level h.lev.1 h.lev.2 (fun a ha => by
        rw [g3]; exact (h.hts a (k3 a ha)).2)
    exact ⟨us, m', level', h2, g1, l1, g2, g3, l2, l3, ns', k1, k2, l4, l5⟩

/-- Deleting a node that has lost its string panics. -/
theorem deleteNode_panic {s : SkipList} {ns : List Nat} (h : Rep s ns) {node : Nat} (hnt : node ≠ s.tail)
    (hn : (s.heap node).data = none) : deleteNode s node = .panic := by
  obtain ⟨us, m', level', h1, h2, h3, h4, -⟩ := deleteCore h hnt
  simp only [deleteNode, delete, h1, h2, h3, h4.data, hn, Outcome.bind_ok]

theorem release_ht (m : SHeap) (a x : Nat) : ht (release m a) x = ht m x := by
  simp only [ht, release, SHeap.upd]; split <;> simp_all
theorem release_nxt (m : SHeap) (a l x : Nat) : nxt (release m a) l x = nxt m l x := by
  simp only [nxt, release, SHeap.upd]; split <;> simp_all
theorem release_score (m : SHeap) (a x : Nat) : (release m a x).score = (m x).score := by
  simp only [release, SHeap.upd]; split <;> simp_all
theorem release_data (m : SHeap) (a x : Nat) : (release m a x).data = if x = a then none else (m x).data := by
  simp only [release, SHeap.upd]; split <;> simp_all
theorem release_prev (m : SHeap) {a x : Nat} (h : x ≠ a) : (release m a x).prev = (m x).prev := by
  simp only [release, SHeap.upd]; simp [h]

theorem lastOr_remove {h x : Nat} {C D : List Nat} (hne : lastOr h (C ++ x :: D) ≠ x) :
    lastOr h (C ++ D) = lastOr h (C ++ x :: D) := by
  rcases nil_or_snoc D with rfl | ⟨D', y, rfl⟩
  · simp at hne
  · have e1 : C ++ (D' ++ [y]) = (C ++ D') ++ [y] := by simp
    have e2 : C ++ x :: (D' ++ [y]) = (C ++ x :: D') ++ [y] := by simp
    rw [e1, e2, lastOr_concat, lastOr_concat]

/-- Deleting a node that has its string: the entry is gone, the node is taken out of the chains or stays without its string. -/
theorem deleteNode_spec {s : SkipList} {ns : List Nat} (h : Rep s ns) {node : Nat} {d : Str} (hm : node ∈ ns)
    (hd : (s.heap node).data = some d) :
    ∃ s' ns', deleteNode s node = .ok s' ∧ Rep s' ns' ∧ s'.set = s.set.erase d.data ∧ s'.head = s.head ∧ s'.tail = s.tail ∧
      s'.fresh = s.fresh ∧ s'.level ≤ s.level ∧
      (∀ x, (s'.heap x).score = (s.heap x).score) ∧ (∀ x, (s'.heap x).data = if x = node then none else (s.heap x).data) ∧
      (∀ x, ht s'.heap x = ht s.heap x) ∧
      ((∃ C D, ns = C ++ node :: D ∧ ns' = C ++ D ∧ Stops s (fun a => .ok (decide (a ≠ node))) (lastOr s.head C)) ∨
        ns' = ns ∧ ht s.heap node < s.level ∧ Stops s (fun a => .ok (decide (a ≠ node))) (lastOr s.head ns)) ∧
      (s'.heap s.tail).prev = (s.heap s.tail).prev ∧ (s'.level = 1 ∨ ∃ a ∈ ns', ht s'.heap a = s'.level) := by
  have hnt : node ≠ s.tail := by rintro rfl; exact h.tail_notin hm
  have hnh : node ≠ s.head := by rintro rfl; exact h.head_notin hm
  obtain ⟨us, m', level', h1, h2, h3, h4, h5, h6, h7, ns', h8, h9, h10, h11⟩ := deleteCore h hnt
  have hsub : ∀ a ∈ ns', a ∈ ns := by
    rcases h8 with ⟨C, D, rfl, rfl, -⟩ | ⟨rfl, -⟩
    · intro a ha; rcases List.mem_append.1 ha with ha | ha <;> simp [ha]
    · exact fun _ h => h
  have hsl : ns'.Sublist ns := by
    rcases h8 with ⟨C, D, rfl, rfl, -⟩ | ⟨rfl, -⟩
    · exact List.Sublist.append (.refl _) (List.sublist_cons_self _ _)
    · exact .refl _
  have hon : ∀ l A, on (release m' node) l A = on m' l A := by intro l A; unfold on; simp only [release_ht]
  refine ⟨{ s with heap := release m' node, level := level', set := s.set.erase d.data }, ns', ?_, ?_, rfl, rfl, rfl, rfl, h7, ?_, ?_, ?_, ?_, ?_, ?_⟩
  · simp only [deleteNode, delete, h1, h2, h3, h4.data, hd, Outcome.bind_ok]
  · constructor
    · exact ((hsl.cons_cons _).cons_cons _).nodup h.nodup
    · intro a ha
      refine h.below a ?_
      rcases List.mem_cons.1 ha with rfl | ha
      · simp
      · rcases List.mem_cons.1 ha with rfl | ha
        · simp
        · simp [hsub a ha]
    · exact ⟨h6, by have := h.lev.2; simp only; omega⟩
    · simp only; rw [release_ht, h5]; exact h.hht
    · simp only; rw [release_ht, h5]; exact h.tht
    · intro a ha
      simp only
      have := h10 a ha
      rw [release_ht]
      exact ⟨by rw [h5]; exact (h.hts a (hsub a ha)).1, this⟩
    · intro l hl
      simp only
      rw [hon]
      exact follows_congr (fun x _ => release_nxt m' node l x) (h9 l hl)
    · obtain ⟨p, p1, p2, p3, p4⟩ := h.prev
      refine ⟨p, by simp only; rw [release_prev _ (Ne.symm hnt), h4.prev]; exact p1, p2, p3, ?_⟩
      simp only [release_data, h4.data]
      by_cases hpn : p = node
      · simp [hpn]
      · rcases p4 with p4 | p4
        · left
          rcases h8 with ⟨C, D, rfl, rfl, -⟩ | ⟨rfl, -⟩
          · rw [p4]; exact (lastOr_remove (by rw [← p4]; exact hpn)).symm
          · exact p4
        · right; simp [p4]
    · simp only; rw [release_data, if_neg (Ne.symm hnh), h4.data]; exact h.hdata
    · exact GoMap.wf_erase h.wf _
    · intro k a
      simp only [GoMap.get_erase, release_data, h4.data]
      have hnode : s.set.get d.data = some node := (h.set d.data node).2 ⟨hm, d, hd, rfl⟩
      by_cases hk : d.data = k
      · subst hk
        simp only [if_true, reduceCtorEq, false_iff, not_and, not_exists]
        intro ha d' hd' hdk
        split at hd'
        · simp at hd'
        · rename_i hne
          have := (h.set d.data a).2 ⟨hsub a ha, d', hd', hdk⟩
          rw [hnode] at this; cases this; exact hne rfl
      · rw [if_neg hk, h.set]
        constructor
        · rintro ⟨ha, d', hd', rfl⟩
          have hne : a ≠ node := by rintro rfl; rw [hd] at hd'; cases hd'; exact hk rfl
          refine ⟨?_, d', by rw [if_neg hne]; exact hd', rfl⟩
          rcases h8 with ⟨C, D, rfl, rfl, -⟩ | ⟨rfl, -⟩
          · simp [hne] at ha ⊢; exact ha
          · exact ha
        · rintro ⟨ha, d', hd', rfl⟩
          have hne : a ≠ node := by rintro rfl; simp at hd'
          rw [if_neg hne] at hd'
          exact ⟨hsub a ha, d', hd', rfl⟩
  · intro x; simp only; rw [release_score, h4.score]
  · intro x; simp only; rw [release_data, h4.data]
  · intro x; simp only; rw [release_ht, h5]
  · rcases h8 with h8 | ⟨h8, h8'⟩
    · exact .inl h8
    · exact .inr ⟨h8, h8'.1 hm, h8'.2⟩
  · simp only; rw [release_prev _ (Ne.symm hnt), h4.prev]
  · simp only [release_ht]; exact h11

theorem setPrev_ht (m : SHeap) (a x : Nat) (p : Option Nat) : ht (setPrev m a p) x = ht m x := by
  simp only [ht, setPrev, SHeap.upd]; split <;> simp_all
theorem setPrev_nxt (m : SHeap) (a l x : Nat) (p : Option Nat) : nxt (setPrev m a p) l x = nxt m l x := by
  simp only [nxt, setPrev, SHeap.upd]; split <;> simp_all
theorem setPrev_score (m : SHeap) (a x : Nat) (p : Option Nat) : (setPrev m a p x).score = (m x).score := by
  simp only [setPrev, SHeap.upd]; split <;> simp_all
theorem setPrev_data (m : SHeap) (a x : Nat) (p : Option Nat) : (setPrev m a p x).data = (m x).data := by
  simp only [setPrev, SHeap.upd]; split <;> simp_all
theorem setPrev_prev (m : SHeap) (a x : Nat) (p : Option Nat) : (setPrev m a p x).prev = if x = a then p else (m x).prev := by
  simp only [setPrev, SHeap.upd]; split <;> simp_all

theorem getRandomLevel_bounds (k : Nat) : 1 ≤ getRandomLevel k ∧ getRandomLevel k ≤ 32 := by
  unfold getRandomLevel maxLevel; split <;> omega

/-- Inserting a new entry: a panic on a node without its string, or one more node, at a place where the order of the search turns. -/
theorem insert_spec {s : SkipList} {ns : List Nat} (h : Rep s ns) {sc : F64} {e : Str} (k : Nat) (hne : s.set.get e.data = none) :
    (insert s sc e k = .panic ∧ (∃ w ∈ ns, (s.heap w).data = none) ∧
      search s.heap s.tail (goesBefore s.heap sc e) s.fresh s.level s.head 0 = .panic) ∨
    ∃ s' C D, ns = C ++ D ∧ insert s sc e k = .ok s' ∧ Rep s' (C ++ s.fresh :: D) ∧ s'.set = s.set.set e.data s.fresh ∧
      s'.head = s.head ∧ s'.tail = s.tail ∧ s'.fresh = s.fresh + 1 ∧ s'.level = max s.level (getRandomLevel k) ∧
      (∀ x, x ≠ s.fresh → (s'.heap x).score = (s.heap x).score ∧ (s'.heap x).data = (s.heap x).data) ∧
      (s'.heap s.fresh).score = sc ∧ (s'.heap s.fresh).data = some e ∧
      (∀ x, x ≠ s.fresh → ht s'.heap x = ht s.heap x) ∧ ht s'.heap s.fresh = s'.level ∧
      (s'.heap s.tail).prev = (if D = [] then some s.fresh else (s.heap s.tail).prev) ∧
      (∀ w ∈ C.getLast?, goesBefore s.heap sc e w = .ok true) ∧ (∀ w ∈ D.head?, goesBefore s.heap sc e w = .ok false) ∧
      Stops s (goesBefore s.heap sc e) (lastOr s.head C) := by
  rcases search_rep h (goesBefore_ne_diverge s.heap sc e) with ⟨h1, w, h2, h3⟩ | ⟨us, C, D, rfl, h2, h3, h4, -, h6, h7⟩
  · exact .inl ⟨by simp [SkipList.insert, hne, h1], ⟨w, h2, (goesBefore_panic h3).1⟩, h1⟩
  · right
    have hL := getRandomLevel_bounds k
    have hlev := h.lev
    have hf := h.fresh_notin
    have hft : s.fresh ≠ s.tail := fun e => hf (by simp [e])
    have hfh : s.fresh ≠ s.head := fun e => hf (by simp [e])
    have hfn : s.fresh ∉ C ++ D := fun e => hf (by simp only [List.mem_cons]; exact .inr (.inr e))
    -- the heap with raised levels
    obtain ⟨m1, e1, q1⟩ : ∃ m1, (if getRandomLevel k > s.level then raise s.heap s.head s.len s.level (getRandomLevel k - s.level)
        else .ok s.heap) = .ok m1 ∧ SpanEq s.heap m1 := by
      split
      · exact raise_spec _ _ _ (by rw [h.hht]; omega)
      · exact ⟨s.heap, rfl, .refl _⟩
    let us' := us ++ List.replicate (getRandomLevel k - s.level) (s.head, (0 : Int))
    let L := max s.level (getRandomLevel k)
    have hL' : (if getRandomLevel k > s.level then getRandomLevel k else s.level) = L := by
      simp only [L]; split <;> omega
    have hlen : us'.length = L := by simp [us', h3, L]; omega
    have hon0 : ∀ l, s.level ≤ l → ∀ A, (∀ a ∈ A, a ∈ C ++ D) → on s.heap l A = [] := by
      intro l hl A hA
      unfold on
      rw [List.filter_eq_nil_iff]
      intro a ha
      have := (h.hts a (hA a ha)).2
      simp; omega
    have hus : ∀ l < L, ∃ r, us'[l]? = some (lastOr s.head (on s.heap l C), r) := by
      intro l hl
      by_cases hl' : l < s.level
      · obtain ⟨r, hr⟩ := h4 l hl'
        exact ⟨r, by simp only [us']; rw [List.getElem?_append_left (by omega)]; exact hr⟩
      · refine ⟨0, ?_⟩
        simp only [us']
        rw [List.getElem?_append_right (by omega), hon0 l (by omega) C (fun a ha => by simp [ha])]
        simp [List.getElem?_replicate, L] at hl ⊢; omega
    obtain ⟨r0, hr0⟩ := hus 0 (by simp only [L]; omega)
    obtain ⟨u0, us1, hcons⟩ : ∃ p q, us' = p :: q := by
      cases e : us' with
      | nil => rw [e] at hr0; simp at hr0
      | cons p q => exact ⟨p, q, rfl⟩
    have hu0 : u0 = (lastOr s.head (on s.heap 0 C), r0) := by rw [hcons] at hr0; simpa using hr0
    -- the new node
    let m2 : SHeap := m1.upd s.fresh { score := sc, data := some e, next := [], prev := none }
    have m2ne : ∀ x, x ≠ s.fresh → m2 x = m1 x := fun x hx => by simp [m2, SHeap.upd, hx]
    have m2eq : m2 s.fresh = { score := sc, data := some e, next := [], prev := none } := by simp [m2, SHeap.upd]
    have hht2 : ∀ x, x ≠ s.fresh → ht m2 x = ht s.heap x := fun x hx => by
      have : ht m2 x = ht m1 x := by unfold ht; rw [m2ne x hx]
      rw [this, q1.ht]
    have hnx2 : ∀ l x, x ≠ s.fresh → nxt m2 l x = nxt s.heap l x := fun l x hx => by
      have : nxt m2 l x = nxt m1 l x := by unfold nxt; rw [m2ne x hx]
      rw [this, q1.nxt]
    have hlast_ne : ∀ l, lastOr s.head (on s.heap l C) ≠ s.fresh := by
      intro l e
      have := lastOr_mem s.head (on s.heap l C)
      rw [e] at this
      rcases List.mem_cons.1 this with e' | e'
      · exact hfh e'
      · exact hfn (by simp [List.mem_of_mem_filter e'])
    have hget : ∀ i u r, us'[i]? = some (u, r) → i < L ∧ u = lastOr s.head (on s.heap i C) := by
      intro i u r hi
      have hlt : i < L := by rw [← hlen]; exact (List.getElem?_eq_some_iff.1 hi).1
      obtain ⟨r', hr'⟩ := hus i hlt
      rw [hi] at hr'; cases hr'; exact ⟨hlt, rfl⟩
    have hfst : ∀ i x, (us'.map Prod.fst)[i]? = some x ↔ i < L ∧ x = lastOr s.head (on s.heap i C) := by
      intro i x
      rw [List.getElem?_map]
      constructor
      · intro hx
        obtain ⟨p, hp1, hp2⟩ := Option.map_eq_some_iff.1 hx
        have := hget i p.1 p.2 hp1
        exact ⟨this.1, by rw [← hp2]; exact this.2⟩
      · rintro ⟨hi, rfl⟩
        obtain ⟨r, hr⟩ := hus i hi
        simp [hr]
    have hL32 : L ≤ 32 := by simp only [L]; omega
    have hlt : ∀ i < L, i < ht s.heap (lastOr s.head (on s.heap i C)) := fun i hi => mem_lastOr_on (by rw [h.hht]; omega)
    obtain ⟨m3, g1, g2, g3, g4, g5, -, g7⟩ := link_spec (cur := s.fresh) (rank0 := r0) us' 0 m2 (by
      intro i u r hi
      obtain ⟨hi1, rfl⟩ := hget i u r hi
      exact ⟨hlast_ne i, by rw [hht2 _ (hlast_ne i), Nat.zero_add]; exact hlt i hi1⟩) (by simp [ht, m2eq])
    obtain ⟨m4, w1, w2⟩ := widen_spec (us'.drop (getRandomLevel k)) (getRandomLevel k) m3 (by
      intro i u r hi
      rw [List.getElem?_drop] at hi
      obtain ⟨hi1, rfl⟩ := hget _ u r hi
      rw [g3 _ (hlast_ne _), hht2 _ (hlast_ne _)]; exact hlt _ hi1)
    -- the previous-pointers
    have hnext0 : nxt s.heap 0 (lastOr s.head C) = some (D.head?.getD s.tail) := by
      have := h.linked 0 (by omega)
      rw [h.on_zero] at this
      exact linked_next this
    have hC0 : on s.heap 0 C = C := on_zero_sub (fun a ha => (h.hts a (by simp [ha])).1)
    have hcur0 : nxt m4 0 s.fresh = some (D.head?.getD s.tail) := by
      rw [w2.nxt, show (0 : Nat) = 0 + 0 from rfl, g7 0 _ ((hfst 0 _).2 ⟨by simp only [L]; omega, rfl⟩), hnx2 _ _ (hlast_ne 0), hC0]
      exact hnext0
    let m5 := setPrev m4 s.fresh (some u0.1)
    obtain ⟨sp, hx⟩ := level_of_nxt (m := m5) (l := 0) (x := s.fresh) (by rw [setPrev_nxt]; exact hcur0)
    let m6 := setPrev m5 (D.head?.getD s.tail) (some s.fresh)
    have hht6 : ∀ x, x ≠ s.fresh → ht m6 x = ht s.heap x := fun x hx => by
      simp only [m6, m5]; rw [setPrev_ht, setPrev_ht, w2.ht, g3 x hx, hht2 x hx]
    have hht6f : ht m6 s.fresh = L := by
      simp only [m6, m5]; rw [setPrev_ht, setPrev_ht, w2.ht, g4, hlen]; omega
    have hnx6 : ∀ l x, x ≠ s.fresh → nxt m6 l x = if l < L ∧ x = lastOr s.head (on s.heap l C) then some s.fresh else nxt s.heap l x := by
      intro l x hx
      simp only [m6, m5]; rw [setPrev_nxt, setPrev_nxt, w2.nxt, g5 l x hx, hnx2 l x hx]
      simp only [Nat.zero_le, true_and, Nat.sub_zero, hfst]
    have hnx6f : ∀ l < L, nxt m6 l s.fresh = nxt s.heap l (lastOr s.head (on s.heap l C)) := by
      intro l hl
      simp only [m6, m5]
      have := g7 l _ ((hfst l _).2 ⟨hl, rfl⟩)
      rw [Nat.zero_add] at this
      rw [setPrev_nxt, setPrev_nxt, w2.nxt, this, hnx2 _ _ (hlast_ne l)]
    have hsc6 : ∀ x, (m6 x).score = (m2 x).score := fun x => by
      simp only [m6, m5]; rw [setPrev_score, setPrev_score, w2.score, g2.score]
    have hda6 : ∀ x, (m6 x).data = (m2 x).data := fun x => by
      simp only [m6, m5]; rw [setPrev_data, setPrev_data, w2.data, g2.data]
    have hsame : ∀ x, x ≠ s.fresh → (m6 x).score = (s.heap x).score ∧ (m6 x).data = (s.heap x).data := fun x hx => by
      rw [hsc6, hda6, m2ne x hx, q1.score, q1.data]; exact ⟨rfl, rfl⟩
    have hda6f : (m6 s.fresh).data = some e := by rw [hda6, m2eq]
    have hon6 : ∀ l, on m6 l (C ++ s.fresh :: D) = if l < L then on s.heap l C ++ s.fresh :: on s.heap l D else on s.heap l (C ++ D) := by
      intro l
      have hA : ∀ A, (∀ a ∈ A, a ∈ C ++ D) → on m6 l A = on s.heap l A := by
        intro A hA
        unfold on
        apply List.filter_congr
        intro a ha
        rw [hht6 a (by rintro rfl; exact hfn (hA _ ha))]
      have : on m6 l (C ++ s.fresh :: D) = on m6 l C ++ (if l < L then s.fresh :: on m6 l D else on m6 l D) := by
        rw [on_append]; congr 1
        unfold on
        rw [List.filter_cons, hht6f]; simp
      rw [this, hA C (fun a ha => by simp [ha]), hA D (fun a ha => by simp [ha]), on_append]
      split <;> rfl
    have hprev : (m6 s.tail).prev = if D = [] then some s.fresh else (s.heap s.tail).prev := by
      split
      · rename_i hD
        subst hD
        simp only [m6]; rw [setPrev_prev, if_pos (by simp)]
      · rename_i hD
        have hht : D.head?.getD s.tail ≠ s.tail := by
          cases D with
          | nil => exact absurd rfl hD
          | cons d D' => simp; rintro rfl; exact h.tail_notin (by simp)
        simp only [m6, m5]
        rw [setPrev_prev, if_neg (Ne.symm hht), setPrev_prev, if_neg (Ne.symm hft), w2.prev, g2.prev, m2ne _ (Ne.symm hft), q1.prev]
    refine ⟨{ s with heap := m6, fresh := s.fresh + 1, level := L, set := s.set.set e.data s.fresh }, C, D, rfl, ?_, ?_, rfl, rfl, rfl, rfl, rfl,
      hsame, by simp only; rw [hsc6, m2eq], hda6f, hht6, hht6f, hprev, h6, h7, ?_⟩
    · have hc2 : us ++ List.replicate (getRandomLevel k - s.level) (s.head, (0 : Int)) = (u0.1, r0) :: us1 := by
        have : u0 = (u0.1, r0) := by rw [hu0]
        rw [← this]; exact hcons
      have hc3 : us' = (u0.1, r0) :: us1 := hc2
      have g1' : link s.fresh r0 (m1.upd s.fresh { score := sc, data := some e, next := [], prev := none }) 0 ((u0.1, r0) :: us1) = .ok m3 := by
        rw [← hc3]; exact g1
      have w1' : widen m3 (getRandomLevel k) (((u0.1, r0) :: us1).drop (getRandomLevel k)) = .ok m4 := by rw [← hc3]; exact w1
      have hx' : (setPrev m4 s.fresh (some u0.1)).level s.fresh 0 = .ok ⟨D.head?.getD s.tail, sp⟩ := hx
      by_cases hgt : getRandomLevel k > s.level
      · rw [if_pos hgt] at e1 hL'
        simp only [SkipList.insert, hne, h2, hgt, if_true, e1, Outcome.bind_ok, hc2, g1', w1', hx']
        rw [hL']
      · rw [if_neg hgt] at e1 hL'
        cases e1
        simp only [SkipList.insert, hne, h2, hgt, if_false, Outcome.bind_ok, hc2, g1', w1', hx']
        rw [hL']
    · constructor
      · have hnd := h.nodup
        simp only [List.nodup_cons, List.mem_cons, List.mem_append, not_or, List.nodup_append] at hnd hfn ⊢
        refine ⟨⟨hnd.1.1, hnd.1.2.1, Ne.symm hft, hnd.1.2.2⟩, ⟨hnd.2.1.1, Ne.symm hfh, hnd.2.1.2⟩, hnd.2.2.1, ⟨hfn.2, hnd.2.2.2.1⟩, ?_⟩
        intro a ha b hb
        rcases hb with rfl | hb
        · rintro rfl; exact hfn.1 ha
        · exact hnd.2.2.2.2 a ha b hb
      · intro a ha
        have ha' : a = s.fresh ∨ a ∈ s.tail :: s.head :: (C ++ D) := by
          simp only [List.mem_cons, List.mem_append] at ha ⊢
          tauto
        rcases ha' with rfl | ha'
        · exact Nat.lt_succ_self _
        · exact Nat.lt_succ_of_lt (h.below a ha')
      · exact ⟨by simp only [L]; omega, hL32⟩
      · simp only; rw [hht6 _ (Ne.symm hfh)]; exact h.hht
      · simp only; rw [hht6 _ (Ne.symm hft)]; exact h.tht
      · intro a ha
        simp only
        have ha' : a = s.fresh ∨ a ∈ C ++ D := by
          simp only [List.mem_cons, List.mem_append] at ha ⊢
          tauto
        rcases ha' with rfl | ha'
        · rw [hht6f]; simp only [L]; omega
        · rw [hht6 a (by rintro rfl; exact hfn ha')]
          have := h.hts a ha'
          simp only [L]; omega
      · intro l hl
        simp only
        rw [hon6]
        have hlk := h.linked l hl
        have hsubl : ∀ x ∈ s.head :: on s.heap l (C ++ D), x ≠ s.fresh := by
          rintro x hx rfl
          rcases List.mem_cons.1 hx with hx | hx
          · exact hfh hx
          · exact hfn (List.mem_of_mem_filter hx)
        split
        · rename_i hlL
          rw [on_append] at hlk hsubl
          refine follows_insert (f := nxt s.heap l) ?_ ?_ ?_ ?_ hlk
          · have := h.nodup'
            rw [← on_append]
            exact (List.Sublist.cons_cons _ List.filter_sublist).nodup this
          · intro x hx hne'
            rw [hnx6 l x (hsubl x hx), if_neg (by rintro ⟨-, h⟩; exact hne' h)]
          · rw [hnx6 l _ (hlast_ne l), if_pos ⟨hlL, rfl⟩]
          · exact hnx6f l hlL
        · rename_i hlL
          refine follows_congr (fun x hx => ?_) hlk
          rw [hnx6 l x (hsubl x hx), if_neg (by rintro ⟨h, -⟩; exact hlL h)]
      · simp only
        rw [hprev]
        by_cases hD : D = []
        · subst hD
          exact ⟨s.fresh, by simp, Nat.lt_succ_self _, hft, .inl (by simp)⟩
        · rw [if_neg hD]
          obtain ⟨p, p1, p2, p3, p4⟩ := h.prev
          refine ⟨p, p1, Nat.lt_succ_of_lt p2, p3, ?_⟩
          rcases p4 with p4 | p4
          · left
            obtain ⟨D', y, rfl⟩ := (nil_or_snoc D).resolve_left hD
            rw [p4]
            have e1 : C ++ (D' ++ [y]) = (C ++ D') ++ [y] := by simp
            have e2 : C ++ s.fresh :: (D' ++ [y]) = (C ++ s.fresh :: D') ++ [y] := by simp
            rw [e1, e2, lastOr_concat, lastOr_concat]
          · right
            rw [(hsame p (by omega)).2]; exact p4
      · simp only; rw [(hsame _ (Ne.symm hfh)).2]; exact h.hdata
      · exact GoMap.wf_set h.wf _ _
      · intro k' a
        simp only [GoMap.get_set]
        by_cases hk : e.data = k'
        · subst hk
          simp only [if_true, Option.some.injEq]
          constructor
          · rintro rfl; exact ⟨by simp, e, hda6f, rfl⟩
          · rintro ⟨ha, d, hd, hde⟩
            by_contra hne'
            have hne2 : a ≠ s.fresh := fun h => hne' h.symm
            rw [(hsame a hne2).2] at hd
            have := (h.set e.data a).2 ⟨by simp [hne2] at ha ⊢; exact ha, d, hd, hde⟩
            rw [hne] at this; simp at this
        · rw [if_neg hk, h.set]
          constructor
          · rintro ⟨ha, d, hd, rfl⟩
            have hne2 : a ≠ s.fresh := by rintro rfl; exact hfn ha
            exact ⟨by simp at ha ⊢; tauto, d, by rw [(hsame a hne2).2]; exact hd, rfl⟩
          · rintro ⟨ha, d, hd, rfl⟩
            have hne2 : a ≠ s.fresh := by rintro rfl; rw [hda6f] at hd; cases hd; exact hk rfl
            rw [(hsame a hne2).2] at hd
            exact ⟨by simp [hne2] at ha ⊢; exact ha, d, hd, rfl⟩
    · obtain ⟨r, hr⟩ := h4 0 (by omega)
      rw [hC0] at hr
      exact ⟨us, r, h2, hr⟩

theorem rep_new : Rep SkipList.new [] := by
  constructor
  · decide
  · intro a ha; simp [SkipList.new] at ha ⊢; omega
  · decide
  · simp [SkipList.new, ht, maxLevel]
  · simp [SkipList.new, ht]
  · simp
  · intro l hl
    have : (SkipList.new.heap 0).next[l]? = some ⟨1, 0⟩ := by
      show (List.replicate maxLevel (⟨1, 0⟩ : SLevel))[l]? = _
      rw [List.getElem?_replicate, if_pos (by simpa [maxLevel] using hl)]
    have h0 : nxt SkipList.new.heap l 0 = some 1 := by unfold nxt; rw [this]; rfl
    exact List.IsChain.cons_cons h0 (.singleton _)
  · exact ⟨0, by simp [SkipList.new], by simp [SkipList.new], by simp [SkipList.new], .inl (by simp [SkipList.new])⟩
  · rfl
  · simp [SkipList.new, GoMap.WF, GoMap.keys]
  · intro k a; simp [SkipList.new, GoMap.get]

end Verif.Skip
