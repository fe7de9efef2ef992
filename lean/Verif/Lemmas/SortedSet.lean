import Verif.Model.SortedSet
import Verif.Lemmas.GoMap
import Mathlib.Data.List.Chain
import Mathlib.Data.List.Nodup

/-! Lemmas about the skip list: which chains its levels form, what the searches find, what linking and unlinking do to the chains. -/

namespace Verif.Skip

open SkipList

theorem nil_or_snoc (A : List Nat) : A = [] ∨ ∃ A' x, A = A' ++ [x] := by
  rcases List.eq_nil_or_concat A with rfl | ⟨A, x, rfl⟩
  · exact .inl rfl
  · exact .inr ⟨A, x, by simp⟩

/-- `x.next[l].node`, if there is such a level. -/
def nxt (m : SHeap) (l x : Nat) : Option Nat := (m x).next[l]?.map SLevel.node

/-- The number of levels of a node. -/
def ht (m : SHeap) (a : Nat) : Nat := (m a).next.length

/-- The nodes that have level `l`. -/
def on (m : SHeap) (l : Nat) (ns : List Nat) : List Nat := ns.filter fun a => decide (l < ht m a)

/-- The last element, `h` for the empty list. -/
def lastOr (h : Nat) (A : List Nat) : Nat := A.getLast?.getD h

@[simp] theorem lastOr_nil (h : Nat) : lastOr h [] = h := rfl
@[simp] theorem lastOr_concat (h : Nat) (A : List Nat) (x : Nat) : lastOr h (A ++ [x]) = x := by simp [lastOr]
theorem lastOr_cons (h x : Nat) (A : List Nat) : lastOr h (x :: A) = lastOr x A := by
  cases A with
  | nil => rfl
  | cons y A => simp [lastOr, List.getLast?_cons_cons]; rw [List.getLast?_eq_some_getLast (by simp)]; simp
theorem lastOr_append (h : Nat) (A B : List Nat) : lastOr h (A ++ B) = lastOr (lastOr h A) B := by
  induction A generalizing h with
  | nil => rfl
  | cons x A ih => rw [List.cons_append, lastOr_cons, ih, lastOr_cons]
theorem lastOr_mem (h : Nat) (A : List Nat) : lastOr h A ∈ h :: A := by
  rcases nil_or_snoc A with rfl | ⟨A, x, rfl⟩
  · simp
  · simp

/-- The nodes are chained along level `l`. -/
def Linked (m : SHeap) (l : Nat) (xs : List Nat) : Prop := xs.IsChain fun x y => nxt m l x = some y

theorem level_of_nxt {m : SHeap} {l x y : Nat} (h : nxt m l x = some y) : ∃ sp, m.level x l = .ok ⟨y, sp⟩ := by
  unfold nxt at h
  cases e : (m x).next[l]? with
  | none => simp [e] at h
  | some v => simp [e] at h; subst h; exact ⟨v.span, by simp [SHeap.level, e]⟩

theorem linked_append {m : SHeap} {l : Nat} {h t : Nat} {A B : List Nat} (hl : Linked m l (h :: (A ++ B) ++ [t])) :
    Linked m l (lastOr h A :: B ++ [t]) := by
  induction A generalizing h with
  | nil => exact hl
  | cons x A ih => rw [lastOr_cons]; exact ih (List.IsChain.tail hl)

theorem linked_next {m : SHeap} {l : Nat} {h t : Nat} {A B : List Nat} (hl : Linked m l (h :: (A ++ B) ++ [t])) :
    nxt m l (lastOr h A) = some (B.head?.getD t) := by
  have := linked_append hl
  cases B with
  | nil => simpa [Linked] using this
  | cons b B => simp [Linked] at this; exact this.1

theorem walk_spec {m : SHeap} {t l : Nat} {cond : Nat → Outcome Bool} (hd : ∀ a, cond a ≠ .diverge) :
    ∀ (ws : List Nat) (fuel cur : Nat) (rank : Int), Linked m l (cur :: ws ++ [t]) → t ∉ ws → ws.length < fuel →
    (walk m t cond l fuel cur rank = .panic ∧ ∃ w ∈ ws, cond w = .panic) ∨
    ∃ ws1 ws2 r, ws = ws1 ++ ws2 ∧ walk m t cond l fuel cur rank = .ok (lastOr cur ws1, r) ∧ (∀ w ∈ ws1, cond w = .ok true) ∧
      (∀ w ∈ ws2.head?, cond w = .ok false) := by
  intro ws
  induction ws with
  | nil =>
    intro fuel cur rank hl _ hf
    obtain ⟨f, rfl⟩ : ∃ f, fuel = f + 1 := ⟨fuel - 1, by simp at hf; omega⟩
    obtain ⟨sp, hx⟩ := level_of_nxt (by simpa [Linked] using hl : nxt m l cur = some t)
    exact .inr ⟨[], [], rank, rfl, by simp [walk, hx], by simp, by simp⟩
  | cons w ws ih =>
    intro fuel cur rank hl ht hf
    obtain ⟨f, rfl⟩ : ∃ f, fuel = f + 1 := ⟨fuel - 1, by simp at hf; omega⟩
    have hl' : nxt m l cur = some w ∧ Linked m l (w :: ws ++ [t]) := by simpa [Linked] using hl
    obtain ⟨sp, hx⟩ := level_of_nxt hl'.1
    have hwt : w ≠ t := by rintro rfl; simp at ht
    cases hc : cond w with
    | diverge => exact absurd hc (hd w)
    | panic => exact .inl ⟨by simp [walk, hx, hwt, hc], w, by simp, hc⟩
    | ok b =>
      cases b with
      | false => exact .inr ⟨[], w :: ws, rank, rfl, by simp [walk, hx, hwt, hc], by simp, by simp [hc]⟩
      | true =>
        have he : walk m t cond l (f + 1) cur rank = walk m t cond l f w (rank + sp) := by simp [walk, hx, hwt, hc]
        rw [he]
        rcases ih f w (rank + sp) hl'.2 (by simp at ht; exact ht.2) (by simp at hf; omega) with ⟨h1, v, h2, h3⟩ | ⟨ws1, ws2, r, h1, h2, h3, h4⟩
        · exact .inl ⟨h1, v, by simp [h2], h3⟩
        · refine .inr ⟨w :: ws1, ws2, r, by simp [h1], by rw [lastOr_cons]; exact h2, ?_, h4⟩
          intro v hv
          rcases List.mem_cons.1 hv with rfl | hv
          · exact hc
          · exact h3 v hv

theorem filter_split {q : Nat → Bool} : ∀ {B ws1 ws2 : List Nat}, B.filter q = ws1 ++ ws2 →
    ∃ C D, B = C ++ D ∧ C.filter q = ws1 ∧ D.filter q = ws2 ∧ C.getLast? = ws1.getLast? := by
  intro B ws1
  rcases nil_or_snoc ws1 with rfl | ⟨ws1, x, rfl⟩
  · intro ws2 h; exact ⟨[], B, rfl, rfl, h, rfl⟩
  · intro ws2 h
    have h' : B.filter q = ws1 ++ x :: ws2 := by simpa using h
    obtain ⟨l1, l2, rfl, h1, h2⟩ := List.filter_eq_append_iff.1 h'
    obtain ⟨l3, l4, rfl, h3, hx, h4⟩ := List.filter_eq_cons_iff.1 h2
    refine ⟨l1 ++ (l3 ++ [x]), l4, by simp, ?_, h4, by simp⟩
    rw [List.filter_append, List.filter_append, h1]
    have : l3.filter q = [] := by rw [List.filter_eq_nil_iff]; exact h3
    simp [this, hx]

theorem lastOr_eq {h : Nat} {A B : List Nat} (e : A.getLast? = B.getLast?) : lastOr h A = lastOr h B := by simp [lastOr, e]

theorem on_append (m : SHeap) (l : Nat) (A B : List Nat) : on m l (A ++ B) = on m l A ++ on m l B := by simp [on]

/-- What the search of the levels below `n` finds, starting from the last node of `A`: a place in the list such that on every level the
recorded node is the last one before that place. -/
theorem search_spec {m : SHeap} {h t fuel : Nat} {cond : Nat → Outcome Bool} (hd : ∀ a, cond a ≠ .diverge) :
    ∀ (n : Nat) (A B : List Nat) (rank : Int), (∀ l < n, Linked m l (h :: on m l (A ++ B) ++ [t])) → t ∉ B → B.length < fuel →
    (A = [] ∨ n ≤ ht m (lastOr h A)) →
    (search m t cond fuel n (lastOr h A) rank = .panic ∧ ∃ w ∈ B, cond w = .panic) ∨
    ∃ us C D, B = C ++ D ∧ search m t cond fuel n (lastOr h A) rank = .ok us ∧ us.length = n ∧
      (∀ l < n, ∃ r, us[l]? = some (lastOr h (on m l (A ++ C)), r)) ∧ (∀ w ∈ C, n ≤ ht m w → cond w = .ok true) ∧
      (n = 0 → C = []) ∧
      (0 < n → (∀ w ∈ C.getLast?, cond w = .ok true) ∧ ∀ w ∈ (on m 0 D).head?, cond w = .ok false) := by
  intro n
  induction n with
  | zero =>
    intro A B rank _ _ _ _
    exact .inr ⟨[], [], B, rfl, rfl, rfl, by simp, by simp, by simp, by simp⟩
  | succ n ih =>
    intro A B rank hl htB hf hA
    have hcur : lastOr h A = lastOr h (on m n A) := by
      rcases nil_or_snoc A with rfl | ⟨A', x, rfl⟩
      · rfl
      · have : n + 1 ≤ ht m x := by simpa using hA
        have hx : on m n (A' ++ [x]) = on m n A' ++ [x] := by rw [on_append]; simp [on]; omega
        simp [hx]
    have hln := hl n (by omega)
    rw [on_append] at hln
    have hw := linked_append hln
    rw [← hcur] at hw
    have hsub : (on m n B).length ≤ B.length := List.length_filter_le _ _
    have htn : t ∉ on m n B := fun hx => htB (List.mem_of_mem_filter hx)
    rcases walk_spec hd (on m n B) fuel (lastOr h A) rank hw htn (by omega) with ⟨h1, v, h2, h3⟩ | ⟨ws1, ws2, r, h1, h2, h3, h4⟩
    · exact .inl ⟨by simp [search, h1], v, List.mem_of_mem_filter h2, h3⟩
    · obtain ⟨C1, D1, rfl, hC1, hD1, hlast⟩ := filter_split h1
      have hcur1 : lastOr (lastOr h A) ws1 = lastOr h (A ++ C1) := by rw [lastOr_append]; exact lastOr_eq hlast.symm
      have hse : search m t cond fuel (n + 1) (lastOr h A) rank =
          (search m t cond fuel n (lastOr h (A ++ C1)) r >>= fun below => .ok (below ++ [(lastOr h (A ++ C1), r)])) := by
        simp only [search, h2, Outcome.bind_ok, hcur1]
      rw [hse]
      have hA1 : A ++ C1 = [] ∨ n ≤ ht m (lastOr h (A ++ C1)) := by
        rcases nil_or_snoc C1 with rfl | ⟨C1', x, rfl⟩
        · rcases hA with rfl | hA
          · exact .inl rfl
          · exact .inr (by simpa using (by omega : n ≤ ht m (lastOr h A)))
        · right
          have hx : x ∈ ws1 := by
            rw [List.getLast?_concat] at hlast
            exact List.mem_of_getLast? hlast.symm
          rw [← hC1] at hx
          have := (List.mem_filter.1 hx).2
          rw [← List.append_assoc, lastOr_concat]
          simp at this; omega
      rcases ih (A ++ C1) D1 r (fun l hln => by have := hl l (by omega); simpa using this) (fun hx => htB (by simp [hx]))
        (by simp at hf; omega) hA1 with ⟨g1, v, g2, g3⟩ | ⟨us, C2, D, rfl, g2, g3, g4, g5, g6, g7⟩
      · exact .inl ⟨by rw [g1]; rfl, v, by simp [g2], g3⟩
      · -- nothing of `C2` is on level `n`
        have hC2 : on m n C2 = [] := by
          by_contra hne
          obtain ⟨x, hx⟩ := List.exists_mem_of_ne_nil _ hne
          cases e : on m n C2 with
          | nil => exact hne e
          | cons y ys =>
            have hy : y ∈ on m n C2 := by rw [e]; simp
            have hy1 := List.mem_filter.1 hy
            have hhead : ws2.head? = some y := by
              rw [← hD1]
              change (on m n (C2 ++ D)).head? = _
              rw [on_append, e]; rfl
            have hf := h4 y (by rw [hhead]; rfl)
            have ht' := g5 y hy1.1 (by have := hy1.2; simp at this; omega)
            rw [ht'] at hf; simp at hf
        refine .inr ⟨us ++ [(lastOr h (A ++ C1), r)], C1 ++ C2, D, by simp, by rw [g2]; rfl, by simp [g3], ?_, ?_, by simp, ?_⟩
        · intro l hln
          rcases Nat.lt_succ_iff_lt_or_eq.1 hln with hlt | rfl
          · obtain ⟨r', hr'⟩ := g4 l hlt
            exact ⟨r', by rw [List.getElem?_append_left (by omega), hr']; simp⟩
          · refine ⟨r, ?_⟩
            rw [List.getElem?_append_right (by omega)]
            simp only [g3, Nat.sub_self, List.getElem?_cons_zero]
            congr 2
            rw [← List.append_assoc, on_append, hC2, List.append_nil]
            rw [on_append, lastOr_append, lastOr_append, ← hcur]
            exact lastOr_eq (by rw [hlast]; congr 1; exact hC1.symm)
        · intro w hw hge
          rcases List.mem_append.1 hw with hw | hw
          · exact h3 w (by rw [← hC1]; exact List.mem_filter.2 ⟨hw, by simp; omega⟩)
          · exact g5 w hw (by omega)
        · intro _
          rcases Nat.eq_zero_or_pos n with rfl | hn
          · have := g6 rfl
            subst this
            refine ⟨?_, ?_⟩
            · intro w hw
              rw [List.append_nil, hlast] at hw
              exact h3 w (List.mem_of_getLast? hw)
            · intro w hw; apply h4; rw [← hD1]; exact hw
          · refine ⟨?_, (g7 hn).2⟩
            intro w hw
            rw [List.getLast?_append] at hw
            cases e : C2.getLast? with
            | some v => rw [e] at hw; simp at hw; subst hw; exact (g7 hn).1 v (by rw [e]; rfl)
            | none =>
              rw [e] at hw
              simp at hw
              rw [hlast] at hw
              exact h3 w (List.mem_of_getLast? hw)

/-! ### Changing the links -/

/-- The list `xs` follows the partial function `f`. -/
abbrev Follows (f : Nat → Option Nat) (xs : List Nat) : Prop := xs.IsChain fun x y => f x = some y

theorem follows_congr {f f' : Nat → Option Nat} {h t : Nat} {A : List Nat} (hf : ∀ x ∈ h :: A, f' x = f x)
    (hc : Follows f (h :: A ++ [t])) : Follows f' (h :: A ++ [t]) := by
  induction A generalizing h with
  | nil => simp [Follows] at hc ⊢; rw [hf h (by simp)]; exact hc
  | cons a A ih =>
    have hc' : f h = some a ∧ Follows f (a :: A ++ [t]) := by simpa [Follows] using hc
    have := ih (fun x hx => hf x (List.mem_cons_of_mem _ hx)) hc'.2
    simp only [List.cons_append, Follows, List.isChain_cons_cons]
    exact ⟨by rw [hf h (by simp)]; exact hc'.1, this⟩

theorem follows_insert {f f' : Nat → Option Nat} {h t c : Nat} {A B : List Nat} (hn : (h :: (A ++ B)).Nodup)
    (hf : ∀ x ∈ h :: (A ++ B), x ≠ lastOr h A → f' x = f x) (h1 : f' (lastOr h A) = some c) (h2 : f' c = f (lastOr h A))
    (hc : Follows f (h :: (A ++ B) ++ [t])) : Follows f' (h :: (A ++ c :: B) ++ [t]) := by
  induction A generalizing h with
  | nil =>
    simp only [List.nil_append, List.cons_append, lastOr_nil] at *
    have hB : Follows f' (c :: B ++ [t]) := by
      cases B with
      | nil => simp [Follows] at hc ⊢; rw [h2]; exact hc
      | cons b B =>
        have hc' : f h = some b ∧ Follows f (b :: B ++ [t]) := by simpa [Follows] using hc
        have hb := follows_congr (f' := f') (fun x hx => hf x (List.mem_cons_of_mem _ hx) (by
          rintro rfl; exact (List.nodup_cons.1 hn).1 hx)) hc'.2
        simp only [List.cons_append, Follows, List.isChain_cons_cons]
        exact ⟨by rw [h2]; exact hc'.1, hb⟩
    simp only [Follows, List.isChain_cons_cons]
    exact ⟨h1, hB⟩
  | cons a A ih =>
    have hc' : f h = some a ∧ Follows f (a :: (A ++ B) ++ [t]) := by simpa [Follows] using hc
    rw [lastOr_cons] at *
    have hne : h ≠ lastOr a A := by
      rintro e
      have := lastOr_mem a A
      rw [← e] at this
      refine (List.nodup_cons.1 hn).1 ?_
      rcases List.mem_cons.1 this with rfl | h'
      · simp
      · simp [h']
    have := ih (List.nodup_cons.1 hn).2 (fun x hx hxe => hf x (List.mem_cons_of_mem _ hx) hxe) h1 h2 hc'.2
    simp only [List.cons_append, Follows, List.isChain_cons_cons] at this ⊢
    exact ⟨by rw [hf h (by simp) hne]; exact hc'.1, this⟩

theorem follows_delete {f f' : Nat → Option Nat} {h t c : Nat} {A B : List Nat} (hn : (h :: (A ++ B)).Nodup)
    (hf : ∀ x ∈ h :: (A ++ B), x ≠ lastOr h A → f' x = f x) (h1 : f' (lastOr h A) = f c)
    (hc : Follows f (h :: (A ++ c :: B) ++ [t])) : Follows f' (h :: (A ++ B) ++ [t]) := by
  induction A generalizing h with
  | nil =>
    simp only [List.nil_append, List.cons_append, lastOr_nil] at *
    have hc' : Follows f (c :: B ++ [t]) := by simp [Follows] at hc ⊢; exact hc.2
    cases B with
    | nil => simp [Follows] at hc' ⊢; rw [h1]; exact hc'
    | cons b B =>
      have hc2 : f c = some b ∧ Follows f (b :: B ++ [t]) := by simpa [Follows] using hc'
      have hb := follows_congr (f' := f') (fun x hx => hf x (List.mem_cons_of_mem _ hx) (by
        rintro rfl; exact (List.nodup_cons.1 hn).1 hx)) hc2.2
      simp only [List.cons_append, Follows, List.isChain_cons_cons]
      exact ⟨by rw [h1]; exact hc2.1, hb⟩
  | cons a A ih =>
    have hc' : f h = some a ∧ Follows f (a :: (A ++ c :: B) ++ [t]) := by simpa [Follows] using hc
    rw [lastOr_cons] at *
    have hne : h ≠ lastOr a A := by
      rintro e
      have := lastOr_mem a A
      rw [← e] at this
      refine (List.nodup_cons.1 hn).1 ?_
      rcases List.mem_cons.1 this with rfl | h'
      · simp
      · simp [h']
    have := ih (List.nodup_cons.1 hn).2 (fun x hx hxe => hf x (List.mem_cons_of_mem _ hx) hxe) h1 hc'.2
    simp only [List.cons_append, Follows, List.isChain_cons_cons] at this ⊢
    exact ⟨by rw [hf h (by simp) hne]; exact hc'.1, this⟩

/-- Two heaps whose nodes differ at most in their levels. -/
structure SameNodes (m m' : SHeap) : Prop where
  score : ∀ x, (m' x).score = (m x).score
  data : ∀ x, (m' x).data = (m x).data
  prev : ∀ x, (m' x).prev = (m x).prev

theorem SameNodes.refl (m : SHeap) : SameNodes m m := ⟨fun _ => rfl, fun _ => rfl, fun _ => rfl⟩
theorem SameNodes.trans {m m' m'' : SHeap} (h : SameNodes m m') (h' : SameNodes m' m'') : SameNodes m m'' :=
  ⟨fun x => (h'.score x).trans (h.score x), fun x => (h'.data x).trans (h.data x), fun x => (h'.prev x).trans (h.prev x)⟩

/-- Two heaps that differ only in spans. -/
structure SpanEq (m m' : SHeap) : Prop extends SameNodes m m' where
  ht : ∀ x, ht m' x = ht m x
  nxt : ∀ l x, nxt m' l x = nxt m l x

theorem SpanEq.refl (m : SHeap) : SpanEq m m := ⟨.refl m, fun _ => rfl, fun _ _ => rfl⟩
theorem SpanEq.trans {m m' m'' : SHeap} (h : SpanEq m m') (h' : SpanEq m' m'') : SpanEq m m'' :=
  ⟨h.toSameNodes.trans h'.toSameNodes, fun x => (h'.ht x).trans (h.ht x), fun l x => (h'.nxt l x).trans (h.nxt l x)⟩

theorem level_of_ht {m : SHeap} {l x : Nat} (h : l < ht m x) : ∃ v, m.level x l = .ok v ∧ (m x).next[l]? = some v ∧ nxt m l x = some v.node := by
  have hx : (m x).next[l]? = some ((m x).next[l]'h) := List.getElem?_eq_getElem h
  exact ⟨(m x).next[l]'h, by rw [SHeap.level, hx], hx, by rw [nxt, hx]; rfl⟩

theorem setLevel_same (m : SHeap) (a l : Nat) (v : SLevel) : SameNodes m (m.setLevel a l v) := by
  constructor <;> intro x <;> simp only [SHeap.setLevel, SHeap.upd] <;> split <;> simp_all

theorem ht_setLevel (m : SHeap) (a l x : Nat) (v : SLevel) : ht (m.setLevel a l v) x = ht m x := by
  simp only [ht, SHeap.setLevel, SHeap.upd]; split <;> simp_all

theorem nxt_setLevel {m : SHeap} {a l : Nat} (v : SLevel) (h : l < ht m a) (k x : Nat) :
    nxt (m.setLevel a l v) k x = if x = a ∧ k = l then some v.node else nxt m k x := by
  simp only [nxt, SHeap.setLevel, SHeap.upd]
  by_cases hx : x = a
  · subst hx
    simp only [if_true, true_and]
    rw [List.getElem?_set]
    by_cases hk : k = l
    · subst hk; simp [show k < (m x).next.length from h]
    · simp [hk, Ne.symm hk]
  · simp [hx]

theorem setLevel_span {m : SHeap} {a l : Nat} {x : SLevel} (h : (m a).next[l]? = some x) (sp : Int) :
    SpanEq m (m.setLevel a l { x with span := sp }) := by
  have hl : l < ht m a := by
    have := List.getElem?_eq_some_iff.1 h
    exact this.1
  refine ⟨setLevel_same m a l _, fun y => ht_setLevel m a l y _, fun k y => ?_⟩
  rw [nxt_setLevel _ hl]
  split
  · rename_i e; obtain ⟨rfl, rfl⟩ := e; simp [nxt, h]
  · rfl

theorem raise_spec {h : Nat} {size : Int} : ∀ (n l : Nat) (m : SHeap), l + n ≤ ht m h → ∃ m', raise m h size l n = .ok m' ∧ SpanEq m m' := by
  intro n
  induction n with
  | zero => intro l m _; exact ⟨m, rfl, .refl m⟩
  | succ n ih =>
    intro l m hl
    obtain ⟨v, h1, h2, -⟩ := level_of_ht (m := m) (l := l) (x := h) (by omega)
    have hs := setLevel_span h2 size
    obtain ⟨m', g1, g2⟩ := ih (l + 1) (m.setLevel h l { v with span := size }) (by rw [hs.ht]; omega)
    exact ⟨m', by simp [raise, h1, g1], hs.trans g2⟩

theorem widen_spec : ∀ (us : List (Nat × Int)) (l : Nat) (m : SHeap), (∀ i u r, us[i]? = some (u, r) → l + i < ht m u) →
    ∃ m', widen m l us = .ok m' ∧ SpanEq m m' := by
  intro us
  induction us with
  | nil => intro l m _; exact ⟨m, rfl, .refl m⟩
  | cons p us ih =>
    obtain ⟨u, r⟩ := p
    intro l m hl
    obtain ⟨v, h1, h2, -⟩ := level_of_ht (m := m) (l := l) (x := u) (by simpa using hl 0 u r (by simp))
    have hs := setLevel_span h2 (v.span + 1)
    obtain ⟨m', g1, g2⟩ := ih (l + 1) (m.setLevel u l { v with span := v.span + 1 }) (by
      intro i u' r' h; rw [hs.ht]; have := hl (i + 1) u' r' (by simpa using h); omega)
    exact ⟨m', by simp [widen, h1, g1], hs.trans g2⟩

theorem link_spec {cur : Nat} {rank0 : Int} : ∀ (us : List (Nat × Int)) (l : Nat) (m : SHeap),
    (∀ i u r, us[i]? = some (u, r) → u ≠ cur ∧ l + i < ht m u) → ht m cur = l →
    ∃ m', link cur rank0 m l us = .ok m' ∧ SameNodes m m' ∧ (∀ x, x ≠ cur → ht m' x = ht m x) ∧ ht m' cur = l + us.length ∧
      (∀ k x, x ≠ cur → nxt m' k x = if l ≤ k ∧ (us.map Prod.fst)[k - l]? = some x then some cur else nxt m k x) ∧
      (∀ k, k < l → nxt m' k cur = nxt m k cur) ∧ ∀ i u, (us.map Prod.fst)[i]? = some u → nxt m' (l + i) cur = nxt m (l + i) u := by
  intro us
  induction us with
  | nil =>
    intro l m _ hc
    exact ⟨m, rfl, .refl m, fun _ _ => rfl, by simp [hc], fun k x _ => by simp, fun _ _ => rfl, by simp⟩
  | cons p us ih =>
    obtain ⟨u, r⟩ := p
    intro l m hl hc
    obtain ⟨huc, hlu⟩ := hl 0 u r (by simp)
    obtain ⟨v, h1, h2, h3⟩ := level_of_ht (m := m) (l := l) (x := u) (by simpa using hlu)
    let m1 : SHeap := m.upd cur { m cur with next := (m cur).next ++ [⟨v.node, v.span - (rank0 - r)⟩] }
    let m2 := m1.setLevel u l ⟨cur, rank0 - r + 1⟩
    have e1 : ∀ x, x ≠ cur → m1 x = m x := fun x hx => by simp [m1, SHeap.upd, hx]
    have s1 : SameNodes m m1 := by
      constructor <;> intro x <;> simp only [m1, SHeap.upd] <;> split <;> simp_all
    have hu1 : l < ht m1 u := by unfold ht; rw [e1 u huc]; exact hlu
    have ht1 : ht m1 cur = l + 1 := by simp [ht, m1, SHeap.upd]; exact hc
    have hn1 : ∀ k x, x ≠ cur → nxt m1 k x = nxt m k x := fun k x hx => by unfold nxt; rw [e1 x hx]
    have hn1c : ∀ k, nxt m1 k cur = if k = l then some v.node else nxt m k cur := by
      intro k
      simp only [nxt, m1, SHeap.upd, if_true]
      have hlen : (m cur).next.length = l := hc
      rw [List.getElem?_append]
      split
      · rename_i hk; rw [if_neg (by omega)]
      · rename_i hk
        split
        · rename_i hk'; subst hk'; simp [hlen]
        · rename_i hk'
          rw [List.getElem?_eq_none (by simp; omega), List.getElem?_eq_none (by omega)]
    have ht2 : ∀ x, ht m2 x = ht m1 x := fun x => ht_setLevel m1 u l x _
    have hm1 : ∀ x, x ≠ cur → ht m1 x = ht m x := fun x hx => by unfold ht; rw [e1 x hx]
    obtain ⟨m', g1, g2, g3, g4, g5, g6, g7⟩ := ih (l + 1) m2 (by
      intro i u' r' h
      obtain ⟨a, b⟩ := hl (i + 1) u' r' (by simpa using h)
      rw [ht2, hm1 u' a]; exact ⟨a, by omega⟩) (by rw [ht2, ht1])
    have hn2 : ∀ k x, nxt m2 k x = if x = u ∧ k = l then some cur else nxt m1 k x := fun k x => nxt_setLevel _ hu1 k x
    refine ⟨m', ?_, (s1.trans (setLevel_same m1 u l _)).trans g2, ?_, by rw [g4]; simp; omega, ?_, ?_, ?_⟩
    · simp only [link, h1, Outcome.bind_ok]; exact g1
    · intro x hx; rw [g3 x hx, ht2, hm1 x hx]
    · intro k x hx
      rw [g5 k x hx, hn2, hn1 k x hx]
      by_cases hk : k = l
      · subst hk
        simp
        rw [if_neg (by omega)]
        by_cases hxu : u = x
        · simp [hxu]
        · simp [hxu, Ne.symm hxu]
      · have e2 : (¬ (x = u ∧ k = l)) := fun h => hk h.2
        rw [if_neg e2]
        by_cases hlk : l ≤ k
        · have : k - l = (k - (l + 1)) + 1 := by omega
          rw [this]; simp only [hlk, show l + 1 ≤ k by omega, true_and, List.map_cons, List.getElem?_cons_succ]
        · simp [hlk, show ¬ (l + 1 ≤ k) by omega]
    · intro k hk
      rw [g6 k (by omega), hn2, hn1c, if_neg (by rintro ⟨h, -⟩; exact huc h.symm), if_neg (by omega)]
    · intro i u' hi
      cases i with
      | zero =>
        simp at hi; subst hi
        rw [Nat.add_zero, g6 l (by omega), hn2, hn1c, if_neg (by rintro ⟨h, -⟩; exact huc h.symm), if_pos rfl, h3]
      | succ i =>
        have hi' : (us.map Prod.fst)[i]? = some u' := by simpa using hi
        have hne : u' ≠ cur := by
          obtain ⟨p', hp1, hp2⟩ := List.getElem?_map .. ▸ hi' |> Option.map_eq_some_iff.1
          have := hl (i + 1) p'.1 p'.2 (by simpa using hp1)
          rw [hp2] at this; exact this.1
        have := g7 i u' hi'
        rw [show l + (i + 1) = l + 1 + i by omega, this, hn2, if_neg (by rintro ⟨-, h⟩; omega), hn1 _ _ hne]

theorem unlink_spec {node : Nat} : ∀ (us : List (Nat × Int)) (l : Nat) (m : SHeap),
    (∀ i u r, us[i]? = some (u, r) → l + i < ht m u ∧ (nxt m (l + i) u = some node → u ≠ node ∧ l + i < ht m node)) →
    ∃ m', unlink node m l us = .ok m' ∧ SameNodes m m' ∧ (∀ x, ht m' x = ht m x) ∧
      (∀ k x, nxt m' k x = if l ≤ k ∧ (us.map Prod.fst)[k - l]? = some x ∧ nxt m k x = some node then nxt m k node else nxt m k x) := by
  intro us
  induction us with
  | nil =>
    intro l m _
    exact ⟨m, rfl, .refl m, fun _ => rfl, fun k x => by simp⟩
  | cons p us ih =>
    obtain ⟨u, r⟩ := p
    intro l m hl
    obtain ⟨hlu, hun⟩ := hl 0 u r (by simp)
    simp only [Nat.add_zero] at hlu hun
    obtain ⟨v, h1, h2, h3⟩ := level_of_ht (m := m) (l := l) (x := u) hlu
    -- one level
    obtain ⟨w, hw1, hw2⟩ : ∃ w : SLevel, unlink node m l ((u, r) :: us) = unlink node (m.setLevel u l w) (l + 1) us ∧
        some w.node = if nxt m l u = some node then nxt m l node else nxt m l u := by
      by_cases hv : v.node = node
      · obtain ⟨y, k1, k2, k3⟩ := level_of_ht (m := m) (l := l) (x := node) (hun (by rw [h3, hv])).2
        refine ⟨⟨y.node, v.span + (y.span - 1)⟩, ?_, ?_⟩
        · simp [unlink, h1, hv, k1]
        · simp [h3, hv, k3]
      · refine ⟨{ v with span := v.span - 1 }, ?_, ?_⟩
        · simp [unlink, h1, hv]
        · simp [h3, hv]
    have hn2 : ∀ k x, nxt (m.setLevel u l w) k x = if x = u ∧ k = l then some w.node else nxt m k x := fun k x => nxt_setLevel _ hlu k x
    have hne : ∀ k x, k ≠ l → nxt (m.setLevel u l w) k x = nxt m k x := fun k x hk => by rw [hn2, if_neg (by rintro ⟨-, h⟩; exact hk h)]
    obtain ⟨m', g1, g2, g3, g4⟩ := ih (l + 1) (m.setLevel u l w) (by
      intro i u' r' h
      have := hl (i + 1) u' r' (by simpa using h)
      rw [ht_setLevel, ht_setLevel, hne _ _ (by omega), show l + 1 + i = l + (i + 1) by omega]
      exact this)
    refine ⟨m', by rw [hw1]; exact g1, (setLevel_same m u l w).trans g2, fun x => by rw [g3, ht_setLevel], ?_⟩
    intro k x
    rw [g4]
    by_cases hk : k = l
    · subst hk
      rw [if_neg (by omega), hn2]
      by_cases hx : x = u
      · subst hx
        simp only [and_self, if_true, hw2]
        simp
      · rw [if_neg (by rintro ⟨h, -⟩; exact hx h), if_neg (by
          rintro ⟨-, h, -⟩; simp at h; exact hx h.symm)]
    · rw [hne _ _ hk, hne _ _ hk]
      by_cases hlk : l ≤ k
      · have : k - l = (k - (l + 1)) + 1 := by omega
        rw [this]; simp only [hlk, show l + 1 ≤ k by omega, true_and, List.map_cons, List.getElem?_cons_succ]
      · simp [hlk, show ¬ (l + 1 ≤ k) by omega]

end Verif.Skip
