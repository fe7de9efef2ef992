import Verif.Lemmas.SortedSet2
import Verif.Spec.SortedSet
import Verif.Props.Util
import Mathlib.Algebra.Order.Ring.Unbundled.Rat

/-! The order of the nodes and the map of entries. -/

namespace Verif

open Spec

namespace F64

theorem lt_iff {a b : F64} : lt a b = true ↔ ScoreLt a b := by
  constructor
  · intro h
    cases a <;> cases b <;> simp [lt] at h
    · exact .ninf_fin
    · exact .ninf_pinf
    · exact .fin h
    · exact .fin_pinf
  · intro h
    cases h <;> simp [lt]
    assumption

theorem eq_iff {a b : F64} : eq a b = true ↔ a = b ∧ a ≠ .nan := by
  cases a <;> cases b <;> simp [eq]

theorem lt_irrefl (a : F64) : lt a a = false := by cases a <;> simp [lt]

theorem lt_trans {a b c : F64} (h : lt a b = true) (h' : lt b c = true) : lt a c = true := by
  cases a <;> cases b <;> cases c <;> simp [lt] at h h' ⊢
  exact _root_.lt_trans h h'

theorem total {a b : F64} (ha : a ≠ .nan) (hb : b ≠ .nan) : lt a b = true ∨ a = b ∨ lt b a = true := by
  cases a <;> cases b <;> simp [lt] at ha hb ⊢
  rename_i p q
  rcases lt_trichotomy p q with h | h | h <;> simp [h]

end F64

theorem lexLt_trans {a b c : Bytes} (h : LexLt a b) (h' : LexLt b c) : LexLt a c := by
  induction h generalizing c with
  | nil => cases h' <;> exact .nil
  | head hab =>
    cases h' with
    | head hbc => exact .head (UInt8.lt_trans hab hbc)
    | tail _ => exact .head hab
  | tail _ ih =>
    cases h' with
    | head hbc => exact .head hbc
    | tail h' => exact .tail (ih h')

theorem lexLt_total (a b : Bytes) : LexLt a b ∨ a = b ∨ LexLt b a := by
  induction a generalizing b with
  | nil => cases b with
    | nil => exact .inr (.inl rfl)
    | cons => exact .inl .nil
  | cons x as ih =>
    cases b with
    | nil => exact .inr (.inr .nil)
    | cons y bs =>
      by_cases hxy : x = y
      · subst hxy
        rcases ih bs with h | rfl | h
        · exact .inl (.tail h)
        · exact .inr (.inl rfl)
        · exact .inr (.inr (.tail h))
      · rcases Nat.lt_trichotomy x.toNat y.toNat with h | h | h
        · exact .inl (.head h)
        · exact absurd (UInt8.toNat_inj.1 h) hxy
        · exact .inr (.inr (.head h))

namespace Skip

open SkipList

/-- Two nodes in the order of their scores. -/
def InOrder (m : SHeap) (a b : Nat) : Prop := F64.lt (m b).score (m a).score = false

/-- Two nodes with the same score in the order of their entries. -/
def InLex (m : SHeap) (a b : Nat) : Prop :=
  ∀ d d', (m a).data = some d → (m b).data = some d' → (m a).score = (m b).score → ¬ LexLt d'.data d.data

/-- What holds of the nodes of a skip list; `nf`: no score is NaN, `ne`: no entry is empty. -/
structure Inv (nf ne : Prop) (s : SkipList) (ns : List Nat) : Prop where
  rep : Rep s ns
  nonan : nf → ∀ a ∈ ns, (s.heap a).score ≠ .nan
  sorted : nf → ns.Pairwise (InOrder s.heap)
  nonempty : ne → ∀ a ∈ ns, ∀ d, (s.heap a).data = some d → d.data ≠ []
  lex : nf → ne → ns.Pairwise (InLex s.heap)

/-- The map stored by a skip list. -/
def Sim (z : ZMap) (s : SkipList) : Prop := ∀ e, z.lookup e = (s.set.get e).map (fun a => (s.heap a).score)

theorem goesBefore_true {m : SHeap} {sc : F64} {e : Str} {w : Nat} (h : goesBefore m sc e w = .ok true) :
    F64.lt (m w).score sc = true ∨ (m w).score = sc ∧ ∃ d, (m w).data = some d ∧ d.compareTo e < 0 := by
  unfold goesBefore at h
  split at h
  · rename_i h1; exact .inl h1
  · split at h
    · rename_i h2
      split at h
      · rename_i d hd
        exact .inr ⟨(F64.eq_iff.1 h2).1, d, hd, by simpa using h⟩
      · simp at h
    · simp at h

theorem goesBefore_false {m : SHeap} {sc : F64} {e : Str} {w : Nat} (h : goesBefore m sc e w = .ok false) :
    F64.lt (m w).score sc = false ∧ ((m w).score = sc → sc ≠ .nan → ∃ d, (m w).data = some d ∧ ¬ d.compareTo e < 0) := by
  unfold goesBefore at h
  split at h
  · simp at h
  · rename_i h1
    refine ⟨by simpa using h1, ?_⟩
    intro e1 e2
    split at h
    · split at h
      · rename_i d hd
        exact ⟨d, hd, by simpa using h⟩
      · simp at h
    · rename_i h2
      exact absurd (F64.eq_iff.2 ⟨e1, by rw [e1]; exact e2⟩) h2

theorem pairwise_insert {R : Nat → Nat → Prop} {C D : List Nat} {c : Nat} (h : (C ++ D).Pairwise R) (h1 : ∀ a ∈ C, R a c)
    (h2 : ∀ b ∈ D, R c b) : (C ++ c :: D).Pairwise R := by
  rw [List.pairwise_append] at h ⊢
  refine ⟨h.1, List.pairwise_cons.2 ⟨h2, h.2.1⟩, ?_⟩
  intro a ha b hb
  rcases List.mem_cons.1 hb with rfl | hb
  · exact h1 a ha
  · exact h.2.2 a ha b hb

/-- Every node before the place of insertion has a score no greater, and every node after it one no smaller. -/
theorem place_sorted {m : SHeap} {sc : F64} {e : Str} {C D : List Nat} (hnn : ∀ a ∈ C ++ D, (m a).score ≠ .nan) (hsc : sc ≠ .nan)
    (hs : (C ++ D).Pairwise (InOrder m)) (hC : ∀ w ∈ C.getLast?, goesBefore m sc e w = .ok true)
    (hD : ∀ w ∈ D.head?, goesBefore m sc e w = .ok false) :
    (∀ a ∈ C, F64.lt sc (m a).score = false) ∧ ∀ b ∈ D, F64.lt (m b).score sc = false := by
  rw [List.pairwise_append] at hs
  constructor
  · intro a ha
    rcases nil_or_snoc C with rfl | ⟨C', w, rfl⟩
    · simp at ha
    have hw := goesBefore_true (hC w (by simp))
    have haw : F64.lt (m w).score (m a).score = false := by
      rcases List.mem_append.1 ha with ha | ha
      · exact (List.pairwise_append.1 hs.1).2.2 a ha w (by simp)
      · simp at ha; subst ha; exact F64.lt_irrefl _
    by_contra hlt
    simp only [Bool.not_eq_false] at hlt
    rcases hw with hw | ⟨hw, -⟩
    · rw [F64.lt_trans hw hlt] at haw; simp at haw
    · rw [hw, hlt] at haw; simp at haw
  · intro b hb
    cases D with
    | nil => simp at hb
    | cons w D' =>
      have hw := (goesBefore_false (hD w (by simp))).1
      have hwb : F64.lt (m b).score (m w).score = false := by
        rcases List.mem_cons.1 hb with rfl | hb
        · exact F64.lt_irrefl _
        · exact (List.pairwise_cons.1 hs.2.1).1 b hb
      by_contra hlt
      simp only [Bool.not_eq_false] at hlt
      rcases F64.total (hnn w (by simp)) (hnn b (by simp [hb])) with h | h | h
      · rw [F64.lt_trans h hlt] at hw; simp at hw
      · rw [h, hlt] at hw; simp at hw
      · rw [h] at hwb; simp at hwb

/-- The same for the entries of nodes with the new score. -/
theorem place_lex {m : SHeap} {sc : F64} {e : Str} {C D : List Nat} (hnn : ∀ a ∈ C ++ D, (m a).score ≠ .nan) (hsc : sc ≠ .nan)
    (hne : ∀ a ∈ C ++ D, ∀ d, (m a).data = some d → d.data ≠ []) (he : e.data ≠ [])
    (hs : (C ++ D).Pairwise (InOrder m)) (hl : (C ++ D).Pairwise (InLex m)) (hC : ∀ w ∈ C.getLast?, goesBefore m sc e w = .ok true)
    (hD : ∀ w ∈ D.head?, goesBefore m sc e w = .ok false) :
    (∀ a ∈ C, ∀ d, (m a).data = some d → (m a).score = sc → ¬ LexLt e.data d.data) ∧
    ∀ b ∈ D, ∀ d, (m b).data = some d → sc = (m b).score → ¬ LexLt d.data e.data := by
  have hcmp : ∀ d : Str, d.data ≠ [] → (d.compareTo e < 0 ↔ LexLt d.data e.data) := fun d hd =>
    (Props.C48_order_partial d.data e.data ⟨fun h => absurd h hd, fun h => absurd h he⟩).1
  rw [List.pairwise_append] at hs hl
  constructor
  · intro a ha d hd hsa hlt
    rcases nil_or_snoc C with rfl | ⟨C', w, rfl⟩
    · simp at ha
    have hw := goesBefore_true (hC w (by simp))
    have haw : a = w ∨ F64.lt (m w).score (m a).score = false ∧ InLex m a w := by
      rcases List.mem_append.1 ha with ha | ha
      · exact .inr ⟨(List.pairwise_append.1 hs.1).2.2 a ha w (by simp), (List.pairwise_append.1 hl.1).2.2 a ha w (by simp)⟩
      · simp at ha; exact .inl ha
    rcases hw with hw | ⟨hw, d', hd', hc⟩
    · rcases haw with rfl | ⟨haw, -⟩
      · rw [hsa, F64.lt_irrefl] at hw; simp at hw
      · rw [hsa, hw] at haw; simp at haw
    · rw [hcmp d' (hne w (by simp) d' hd')] at hc
      rcases haw with rfl | ⟨-, haw⟩
      · rw [hd] at hd'; cases hd'
        exact Props.lexLt_asymm hc hlt
      · exact haw d d' hd hd' (by rw [hsa, hw]) (lexLt_trans hc hlt)
  · intro b hb d hd hsb hlt
    cases D with
    | nil => simp at hb
    | cons w D' =>
      obtain ⟨hw1, hw2⟩ := goesBefore_false (hD w (by simp))
      have hwb : b = w ∨ F64.lt (m b).score (m w).score = false ∧ InLex m w b := by
        rcases List.mem_cons.1 hb with rfl | hb
        · exact .inl rfl
        · exact .inr ⟨(List.pairwise_cons.1 hs.2.1).1 b hb, (List.pairwise_cons.1 hl.2.1).1 b hb⟩
      rcases hwb with rfl | ⟨hwb, hwl⟩
      · obtain ⟨d', hd', hc⟩ := hw2 hsb.symm hsc
        rw [hd] at hd'; cases hd'
        exact hc ((hcmp d (hne b (by simp) d hd)).2 hlt)
      · have hsw : (m w).score = sc := by
          rcases F64.total (hnn w (by simp)) hsc with h | h | h
          · rw [h] at hw1; simp at hw1
          · exact h
          · rw [hsb] at h; rw [h] at hwb; simp at hwb
        obtain ⟨d', hd', hc⟩ := hw2 hsw hsc
        rw [hcmp d' (hne w (by simp) d' hd')] at hc
        have h2 := hwl d' d hd' hd (by rw [hsw, hsb])
        rcases lexLt_total d'.data d.data with h | h | h
        · exact hc (lexLt_trans h hlt)
        · rw [h] at hc; exact hc hlt
        · exact h2 h

section
variable {nf ne : Prop} {s : SkipList} {ns : List Nat}

theorem sim_insert {z : ZMap} (h : Rep s ns) {s' : SkipList} {e : Bytes} {sc : F64} (hs : Sim z s) (h1 : s'.set = s.set.set e s.fresh)
    (h2 : ∀ x, x ≠ s.fresh → (s'.heap x).score = (s.heap x).score) (h3 : (s'.heap s.fresh).score = sc) : Sim (z.insert e sc) s' := by
  intro k
  rw [h1, GoMap.get_set]
  by_cases hk : e = k
  · subst hk; simp [Finmap.lookup_insert, h3]
  · rw [if_neg hk, Finmap.lookup_insert_of_ne _ (Ne.symm hk), hs k]
    cases hg : s.set.get k with
    | none => rfl
    | some a =>
      have ha := ((h.set k a).1 hg).1
      simp only [Option.map_some]
      rw [h2 a (by rintro rfl; exact h.fresh_notin (by simp [ha]))]

theorem sim_erase {z : ZMap} {s' : SkipList} {e : Bytes} (hs : Sim z s) (h1 : s'.set = s.set.erase e)
    (h2 : ∀ x, (s'.heap x).score = (s.heap x).score) : Sim (z.erase e) s' := by
  intro k
  rw [h1, GoMap.get_erase]
  by_cases hk : e = k
  · subst hk; simp [Finmap.lookup_erase]
  · rw [if_neg hk, Finmap.lookup_erase_ne (Ne.symm hk), hs k]
    simp only [h2]

theorem insert_inv (h : Inv nf ne s ns) {sc : F64} {e : Str} (k : Nat) (hne : s.set.get e.data = none) (hn : nf → sc ≠ .nan)
    (he : ne → e.data ≠ []) :
    (SkipList.insert s sc e k = .panic ∧ ∃ w ∈ ns, (s.heap w).data = none) ∨
    ∃ s' C D, ns = C ++ D ∧ SkipList.insert s sc e k = .ok s' ∧ Inv nf ne s' (C ++ s.fresh :: D) ∧
      (∀ z, Sim z s → Sim (z.insert e.data sc) s') ∧
      (s'.heap s.fresh).data = some e ∧ (∀ x, x ≠ s.fresh → (s'.heap x).data = (s.heap x).data) ∧ s'.level = max s.level (getRandomLevel k) ∧
      (∀ x, x ≠ s.fresh → ht s'.heap x = ht s.heap x) ∧ ht s'.heap s.fresh = s'.level ∧ s'.tail = s.tail ∧ s'.head = s.head ∧
      (s'.heap s.tail).prev = (if D = [] then some s.fresh else (s.heap s.tail).prev) := by
  rcases insert_spec h.rep (sc := sc) (e := e) k hne with h0 | ⟨s', C, D, rfl, h1, h2, h3, h4, h5, -, h7, h8, h9, h10, h11, h12, h13, h14, h15, -⟩
  · exact .inl ⟨h0.1, h0.2.1⟩
  · right
    have hf : ∀ a ∈ C ++ D, a ≠ s.fresh := by rintro a ha rfl; exact h.rep.fresh_notin (by simp at ha ⊢; tauto)
    have hfC : ∀ a ∈ C, a ≠ s.fresh := fun a ha => hf a (by simp [ha])
    have hfD : ∀ a ∈ D, a ≠ s.fresh := fun a ha => hf a (by simp [ha])
    have hmem : ∀ a ∈ C ++ s.fresh :: D, a = s.fresh ∨ a ∈ C ++ D := by intro a ha; simp at ha ⊢; tauto
    refine ⟨s', C, D, rfl, h1, ⟨h2, ?_, ?_, ?_, ?_⟩, fun z hz => sim_insert h.rep hz h3 (fun x hx => (h8 x hx).1) h9, h10,
      fun x hx => (h8 x hx).2, h7, h11, h12, h5, h4, h13⟩
    · intro n a ha
      rcases hmem a ha with rfl | ha
      · rw [h9]; exact hn n
      · rw [(h8 a (hf a ha)).1]; exact h.nonan n a ha
    · intro n
      obtain ⟨p1, p2⟩ := place_sorted (h.nonan n) (hn n) (h.sorted n) h14 h15
      refine pairwise_insert ?_ ?_ ?_
      · refine List.Pairwise.imp_of_mem ?_ (h.sorted n)
        intro a b ha hb hab
        unfold InOrder
        rw [(h8 a (hf a ha)).1, (h8 b (hf b hb)).1]; exact hab
      · intro a ha; unfold InOrder; rw [h9, (h8 a (hfC a ha)).1]; exact p1 a ha
      · intro a ha; unfold InOrder; rw [h9, (h8 a (hfD a ha)).1]; exact p2 a ha
    · intro n a ha d hd
      rcases hmem a ha with rfl | ha
      · rw [h10] at hd; cases hd; exact he n
      · rw [(h8 a (hf a ha)).2] at hd; exact h.nonempty n a ha d hd
    · intro n n'
      obtain ⟨p1, p2⟩ := place_lex (h.nonan n) (hn n) (h.nonempty n') (he n') (h.sorted n) (h.lex n n') h14 h15
      refine pairwise_insert ?_ ?_ ?_
      · refine List.Pairwise.imp_of_mem ?_ (h.lex n n')
        intro a b ha hb hab
        unfold InLex
        rw [(h8 a (hf a ha)).1, (h8 b (hf b hb)).1, (h8 a (hf a ha)).2, (h8 b (hf b hb)).2]; exact hab
      · intro a ha d d' hd hd' hsc
        rw [h10] at hd'; cases hd'
        rw [h9, (h8 a (hfC a ha)).1] at hsc
        rw [(h8 a (hfC a ha)).2] at hd
        exact p1 a ha d hd hsc
      · intro a ha d d' hd hd' hsc
        rw [h10] at hd; cases hd
        rw [h9, (h8 a (hfD a ha)).1] at hsc
        rw [(h8 a (hfD a ha)).2] at hd'
        exact p2 a ha d' hd' hsc

theorem delete_inv (h : Inv nf ne s ns) {node : Nat} {d : Str} (hm : node ∈ ns) (hd : (s.heap node).data = some d) :
    ∃ s' ns', deleteNode s node = .ok s' ∧ Inv nf ne s' ns' ∧ s'.set = s.set.erase d.data ∧ (∀ z, Sim z s → Sim (z.erase d.data) s') ∧
      s'.level ≤ s.level ∧
      (∀ x, (s'.heap x).data = if x = node then none else (s.heap x).data) ∧ (∀ x, ht s'.heap x = ht s.heap x) ∧
      ((∃ C D, ns = C ++ node :: D ∧ ns' = C ++ D) ∨ ns' = ns ∧ ht s.heap node < s.level) := by
  obtain ⟨s', ns', h1, h2, h3, -, -, -, h7, h8, h9, h10, h11', -⟩ := deleteNode_spec h.rep hm hd
  have h11 : (∃ C D, ns = C ++ node :: D ∧ ns' = C ++ D) ∨ ns' = ns ∧ ht s.heap node < s.level := by
    rcases h11' with ⟨C, D, e1, e2, -⟩ | ⟨e1, e2, -⟩
    · exact .inl ⟨C, D, e1, e2⟩
    · exact .inr ⟨e1, e2⟩
  have hsl : ns'.Sublist ns := by
    rcases h11 with ⟨C, D, rfl, rfl⟩ | ⟨rfl, -⟩
    · exact List.Sublist.append (.refl _) (List.sublist_cons_self _ _)
    · exact .refl _
  have hdata : ∀ x d, (s'.heap x).data = some d → (s.heap x).data = some d := by
    intro x d hx; rw [h9] at hx; split at hx
    · simp at hx
    · exact hx
  refine ⟨s', ns', h1, ⟨h2, ?_, ?_, ?_, ?_⟩, h3, fun z hz => sim_erase hz h3 h8, h7, h9, h10, h11⟩
  · intro n a ha; rw [h8]; exact h.nonan n a (hsl.subset ha)
  · intro n
    refine ((h.sorted n).sublist hsl).imp ?_
    intro a b hab; unfold InOrder; rw [h8, h8]; exact hab
  · intro n a ha d hd; exact h.nonempty n a (hsl.subset ha) d (hdata a d hd)
  · intro n n'
    refine ((h.lex n n').sublist hsl).imp ?_
    intro a b hab d d' hd hd' hsc
    rw [h8, h8] at hsc
    exact hab d d' (hdata a d hd) (hdata b d' hd') hsc

theorem inv_new : Inv nf ne SkipList.new [] := ⟨rep_new, by simp, by simp, by simp, by simp⟩

theorem sim_new : Sim ∅ SkipList.new := fun e => by simp [SkipList.new, GoMap.get, Finmap.lookup_empty]

end

end Skip

end Verif
