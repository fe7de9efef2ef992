import Verif.Lemmas.LinkedList3
import Verif.Props.Util

/-! `Remove`, `Set`, `Index`, `Range`, `Trim` of the linked list. -/

namespace Verif

open List Spec

namespace LList

theorem wrap64_neg {n : Int} (h : InInt64 n) : wrap64 (-n) = if n = minInt64 then minInt64 else -n := by
  unfold InInt64 minInt64 maxInt64 at h
  unfold wrap64 minInt64
  split <;> omega

theorem removeFirst_len (n : Nat) (x : Bytes) (xs : List Bytes) :
    (removeFirst n x xs).length + min n (xs.count x) = xs.length := by
  induction xs generalizing n with
  | nil => simp
  | cons y ys ih =>
    by_cases e : y = x
    · subst e
      cases n with
      | zero => simp [removeFirst]
      | succ n => rw [removeFirst_cons_eq, List.count_cons_self, List.length_cons]; have := ih n; omega
    · rw [removeFirst_cons_ne _ e, List.count_cons_of_ne e]; have := ih n; simp; omega

theorem removeFirst_zero_toNat {n : Int} (h : n ≤ 0) (x : Bytes) (xs : List Bytes) : removeFirst n.toNat x xs = xs := by
  have : n.toNat = 0 := by omega
  simp [this, removeFirst]

theorem lrem_length (n : Int) (k : Bytes) (xs : List Bytes) : (lrem n k xs).length ≤ xs.length := by
  unfold lrem
  split
  · have := removeFirst_len n.toNat k xs; omega
  · split
    · exact length_filter_le _ _
    · split
      · exact le_refl _
      · unfold removeLast; rw [length_reverse]
        have := removeFirst_len (-n).toNat k xs.reverse; simp at this; omega

/-- `Remove` on a represented list, for every 64-bit count; it panics exactly for the sentinel text with something to look for. -/
theorem remove_rep {l : LList} {xs : List Bytes} (h : Rep l xs) (n : Int) (hn : InInt64 n) (k : Bytes) :
    (k = b!"dummy string" → ¬ (n = 0 ∧ xs = []) → n ≠ minInt64 → remove l n (Str.new k) = .panic) ∧
    (k ≠ b!"dummy string" ∨ (n = 0 ∧ xs = []) ∨ n = minInt64 →
      ∃ l', remove l n (Str.new k) = .ok (l', (xs.length : Int) - (lrem n k xs).length) ∧ Rep l' (lrem n k xs)) := by
  obtain ⟨as, h⟩ := h
  have hs := h.size
  by_cases h0 : n ≥ 0
  · -- from the head
    have hne : n ≠ minInt64 := by unfold minInt64; omega
    obtain ⟨c, hc, hcpos⟩ : ∃ c : Int, c = (if n = 0 then l.size else n) ∧ (c ≤ 0 ↔ n = 0 ∧ xs = []) := by
      refine ⟨_, rfl, ?_⟩
      split
      · next e =>
        rw [hs]
        constructor
        · intro h; exact ⟨e, eq_nil_of_length_eq_zero (by omega)⟩
        · rintro ⟨-, rfl⟩; simp
      · constructor
        · intro; omega
        · rintro ⟨e, -⟩; omega
    have hl : removeFirst c.toNat k xs = lrem n k xs := by
      unfold lrem
      subst hc
      by_cases e : n = 0
      · subst e
        simp only [if_true, gt_iff_lt, Int.lt_irrefl, if_false]
        rw [hs]; exact removeFirst_all k (by simp)
      · rw [if_neg e, if_pos (by omega)]
    obtain ⟨p1, p2⟩ := deleteFromHeadLoop_start h c k
    constructor
    · intro hk hx _
      unfold remove
      rw [if_pos h0]
      unfold deleteFromHead
      simp only [← hc]
      rw [p1 (by rw [← hcpos] at hx; omega) hk]; rfl
    · intro hk
      obtain ⟨m, as', e, hr⟩ := p2 (by rcases hk with hk | hk | hk; exact .inr hk; exact .inl (hcpos.2 hk); exact absurd hk hne)
      have hlen := removeFirst_len c.toNat k xs
      rw [hl] at hr hlen
      unfold remove
      rw [if_pos h0]
      unfold deleteFromHead
      simp only [← hc, e, Outcome.bind_ok]
      refine ⟨_, ?_, as', hr⟩
      congr 2
      omega
  · have hw := wrap64_neg hn
    obtain ⟨p1, p2⟩ := deleteFromTailLoop_start h (wrap64 (-n)) k
    constructor
    · intro hk _ hx
      unfold remove
      rw [if_neg h0]
      unfold deleteFromTail
      rw [p1 (by rw [hw, if_neg hx]; omega) hk]; rfl
    · intro hk
      have hl : removeLast (wrap64 (-n)).toNat k xs = lrem n k xs := by
        unfold lrem
        rw [if_neg (by omega : ¬ n > 0), if_neg (by omega : ¬ n = 0), hw]
        split
        · exact removeLast_zero k xs
        · rfl
      obtain ⟨m, as', e, hr⟩ := p2 (by
        rw [hw]
        rcases hk with hk | hk | hk
        · exact .inr hk
        · omega
        · left; rw [if_pos hk]; decide)
      have hlen := removeFirst_len (wrap64 (-n)).toNat k xs.reverse
      rw [count_reverse, length_reverse] at hlen
      rw [hl] at hr
      have hlen' : (lrem n k xs).length + min (wrap64 (-n)).toNat (count k xs) = xs.length := by
        rw [← hl]; unfold removeLast; rw [length_reverse]; exact hlen
      unfold remove
      rw [if_neg h0]
      unfold deleteFromTail
      simp only [e, Outcome.bind_ok]
      refine ⟨_, ?_, as', hr⟩
      congr 2
      omega

/-! ### positions -/

theorem advance_chain {m : Heap} {n : Nat} : ∀ {p : List Nat}, p.IsChain (Link m) → n < p.length →
    advance m n p.head? = .ok p[n]? := by
  induction n with
  | zero => intro p _ _; simp [advance, head?_eq_getElem?]
  | succ n ih =>
    intro p hc hn
    cases p with
    | nil => simp at hn
    | cons a p =>
      cases p with
      | nil => simp at hn
      | cons b p =>
        rw [isChain_cons_cons] at hc
        simp only [advance, head?_cons, deref, Outcome.bind_ok, hc.1.1]
        have := ih hc.2 (by simpa using hn)
        simpa using this

theorem extract_rep {l : LList} {as : List Nat} {xs : List Bytes} (h : RepA l as xs) (i : Int) :
    (∀ p : Nat, Denotes i xs.length p → ∃ hp : p < as.length, extract l i = .ok (some as[p])) ∧
    ((¬ ∃ p, Denotes i xs.length p) → extract l i = .ok none) := by
  have hs := h.size
  have hlen := h.length
  obtain ⟨-, k2⟩ := Props.C49_index i xs.length 0 (by omega)
  constructor
  · intro p hp
    obtain ⟨e, -⟩ := ((Props.C49_index i xs.length p (by omega)).1).2 hp
    have hp' : p < as.length := by unfold Denotes at hp; omega
    refine ⟨hp', ?_⟩
    unfold extract
    simp only [hs, e]
    rw [if_pos (by omega)]
    have := advance_chain (n := p + 1) h.path.2 (by simp; omega)
    have e2 : ((p : Int) + 1).toNat = p + 1 := by omega
    rw [e2]
    simp only [head?_cons] at this
    rw [this]
    simp [getElem?_append_left hp']
  · intro hn
    have e := k2.2 hn
    unfold extract
    simp only [hs, e]
    simp

/-- `Index` on a represented list. -/
theorem index_rep {l : LList} {xs : List Bytes} (h : Rep l xs) (i : Int) :
    (∀ p : Nat, Denotes i xs.length p → ∃ hp : p < xs.length, index l i = .ok (.ok (Str.new xs[p]))) ∧
    ((¬ ∃ p, Denotes i xs.length p) → index l i = .ok (.error .outOfRange)) := by
  obtain ⟨as, h⟩ := h
  obtain ⟨e1, e2⟩ := extract_rep h i
  constructor
  · intro p hp
    obtain ⟨hp', e⟩ := e1 p hp
    refine ⟨by rw [← h.length]; exact hp', ?_⟩
    unfold index
    simp only [e, Outcome.bind_ok]
    have hp2 : p < xs.length := by rw [← h.length]; exact hp'
    have := congrArg (·[p]?) h.data
    simp only [getElem?_map, getElem?_eq_getElem hp', getElem?_eq_getElem hp2, Option.map_some, Option.some.injEq] at this
    rw [this]
  · intro hn
    unfold index
    simp only [e2 hn, Outcome.bind_ok]

/-- `Set` on a represented list. -/
theorem set_rep {l : LList} {xs : List Bytes} (h : Rep l xs) (i : Int) (v : Bytes) :
    (∀ p : Nat, Denotes i xs.length p → ∃ l', set l i (Str.new v) = .ok (l', none) ∧ Rep l' (xs.set p v)) ∧
    ((¬ ∃ p, Denotes i xs.length p) → set l i (Str.new v) = .ok (l, some .outOfRange)) := by
  obtain ⟨as, h⟩ := h
  obtain ⟨e1, e2⟩ := extract_rep h i
  constructor
  · intro p hp
    obtain ⟨hp', e⟩ := e1 p hp
    unfold set
    simp only [e, Outcome.bind_ok]
    refine ⟨_, rfl, as, ?_, ?_, ?_, ?_, ?_, ?_, ?_, ?_⟩
    · refine ⟨h.path.1, ?_⟩
      have hn : ∀ x, (l.heap.setData as[p] (Str.new v) x).next = (l.heap x).next := by
        intro x; unfold Heap.setData Heap.upd; split
        · next e => subst e; rfl
        · rfl
      have hpv : ∀ x, (l.heap.setData as[p] (Str.new v) x).prev = (l.heap x).prev := by
        intro x; unfold Heap.setData Heap.upd; split
        · next e => subst e; rfl
        · rfl
      exact chain_congr h.path.2 (fun a _ => hn a) (fun a _ => hpv a)
    · exact h.alloc
    · have hne : l.head ≠ as[p] := fun e => h.head_notMem (by rw [e]; simp)
      simp [Heap.setData, Heap.upd, hne, h.headPrev]
    · have hne : l.tail ≠ as[p] := fun e => h.tail_notMem (by rw [e]; simp)
      simp [Heap.setData, Heap.upd, hne, h.tailNext]
    · have hne : l.head ≠ as[p] := fun e => h.head_notMem (by rw [e]; simp)
      simp [Heap.setData, Heap.upd, hne, h.headData]
    · have hne : l.tail ≠ as[p] := fun e => h.tail_notMem (by rw [e]; simp)
      simp [Heap.setData, Heap.upd, hne, h.tailData]
    · have hnd : as.Nodup := by
        have := (nodup_cons.1 h.path.1).2
        exact (nodup_append.1 this).1
      apply ext_getElem
      · simp [h.length]
      · intro j h1 h2
        simp only [length_map] at h1
        simp only [length_map, length_set] at h2
        simp only [getElem_map]
        have hj := congrArg (·[j]?) h.data
        simp only [getElem?_map, getElem?_eq_getElem h1, getElem?_eq_getElem h2, Option.map_some, Option.some.injEq] at hj
        rw [getElem_set]
        by_cases e : p = j
        · subst e; simp [Heap.setData, Heap.upd]
        · have : as[j] ≠ as[p] := fun e' => e ((hnd.getElem_inj_iff).1 e').symm
          simp [Heap.setData, Heap.upd, this, e, hj]
    · simpa using h.size
  · intro hn
    unfold set
    simp only [e2 hn, Outcome.bind_ok]

theorem segmentLoop_chain {m : Heap} {a b : Int} {steps : Nat} :
    ∀ {p : List Nat} {idx : Int} {ln rn : Option Nat}, p.IsChain (Link m) → steps < p.length →
    segmentLoop m a b steps idx p.head? ln rn =
      .ok (if idx ≤ a ∧ a < idx + steps then p[(a - idx).toNat]? else ln,
           if idx ≤ b ∧ b < idx + steps then p[(b - idx).toNat]? else rn) := by
  induction steps with
  | zero =>
    intro p idx ln rn _ _
    simp only [segmentLoop]
    rw [if_neg (by omega), if_neg (by omega)]
  | succ n ih =>
    intro p idx ln rn hc hn
    cases p with
    | nil => simp at hn
    | cons x p =>
      cases p with
      | nil => simp at hn
      | cons y p =>
        rw [isChain_cons_cons] at hc
        simp only [segmentLoop, head?_cons, deref, Outcome.bind_ok, hc.1.1]
        have := ih (idx := idx + 1) (ln := if idx = a then some x else ln) (rn := if idx = b then some x else rn) hc.2
          (by simpa using hn)
        simp only [head?_cons] at this
        rw [this]
        have aux : ∀ (c : Int) (o : Option Nat),
            (if idx + 1 ≤ c ∧ c < idx + 1 + (n : Int) then (y :: p)[(c - (idx + 1)).toNat]? else if idx = c then some x else o) =
            if idx ≤ c ∧ c < idx + ((n + 1 : Nat) : Int) then (x :: y :: p)[(c - idx).toNat]? else o := by
          intro c o
          by_cases h1 : idx + 1 ≤ c ∧ c < idx + 1 + (n : Int)
          · rw [if_pos h1, if_pos (by omega)]
            have : (c - idx).toNat = (c - (idx + 1)).toNat + 1 := by omega
            rw [this]; rfl
          · rw [if_neg h1]
            by_cases h2 : idx = c
            · subst h2
              rw [if_pos rfl, if_pos (by omega)]; simp
            · rw [if_neg h2, if_neg (by omega)]
        rw [aux, aux]

theorem listWindow_resolve (left right n a b : Int) (hn : 0 ≤ n) :
    let r0 := indexResolveRaw right n
    let r1 := if r0 ≥ n then n - 1 else r0
    (sliceResolve left r1 n = (a, b) ∧ a ≠ -1) ↔ ListWindow left right n a b := by
  intro r0 r1
  rw [(Props.C49_slice left r1 n a b hn).1]
  unfold ListWindow Window Denotes
  simp only [r1, r0, indexResolveRaw]
  split <;> split <;> split <;> omega

theorem extractSegment_rep {l : LList} {as : List Nat} {xs : List Bytes} (h : RepA l as xs) (left right : Int) :
    (∀ a b : Nat, ListWindow left right xs.length a b →
      ∃ (ha : a < as.length) (hb : b < as.length), extractSegment l left right = .ok (some as[a], some as[b])) ∧
    ((¬ ∃ a b, ListWindow left right xs.length a b) → extractSegment l left right = .ok (none, none)) := by
  have hs := h.size
  have hlen := h.length
  have hn : (0 : Int) ≤ xs.length := by omega
  constructor
  · intro a b hw
    have hw' := hw
    unfold ListWindow Window Denotes at hw'
    have ha : a < as.length := by omega
    have hb : b < as.length := by omega
    refine ⟨ha, hb, ?_⟩
    have hr := (listWindow_resolve left right xs.length a b hn).2 hw
    unfold extractSegment
    simp only [hs, hr.1]
    rw [if_pos (by omega)]
    have e2 : ((b : Int) + 2).toNat = b + 2 := by omega
    have := segmentLoop_chain (a := a) (b := b) (steps := b + 2) (idx := -1) (ln := none) (rn := none) h.path.2
      (by simp; omega)
    simp only [head?_cons] at this
    rw [e2, this, if_pos (by omega), if_pos (by omega)]
    have e3 : ((a : Int) - -1).toNat = a + 1 := by omega
    have e4 : ((b : Int) - -1).toNat = b + 1 := by omega
    rw [e3, e4]
    simp [getElem?_append_left ha, getElem?_append_left hb]
  · intro hw
    have hr := listWindow_resolve left right xs.length
    unfold extractSegment
    simp only [hs]
    generalize hq : sliceResolve left _ _ = q
    obtain ⟨a, b⟩ := q
    rw [if_neg]
    rintro ⟨h1, -⟩
    exact hw ⟨a, b, (hr a b hn).1 ⟨hq, h1⟩⟩

/-! ### Range -/

theorem rangeLoop_chain {m : Heap} {b : Nat} {M : List Nat} :
    ∀ {f : Nat} {res : List Str}, (M ++ [b]).IsChain (Link m) → b ∉ M → M.length < f →
    rangeLoop m b f (M ++ [b]).head? res = .ok (res ++ (M ++ [b]).map fun a => (m a).data) := by
  induction M with
  | nil =>
    intro f res _ _ hf
    cases f with
    | zero => simp at hf
    | succ f => simp [rangeLoop]
  | cons c M ih =>
    intro f res hc hb hf
    cases f with
    | zero => simp at hf
    | succ f =>
      simp only [mem_cons, not_or] at hb
      have hne : ¬ c = b := fun e => hb.1 e.symm
      have hn : (m c).next = (M ++ [b]).head? ∧ (M ++ [b]).IsChain (Link m) := by
        cases M with
        | nil => exact ⟨(isChain_cons_cons.1 hc).1.1, by simp⟩
        | cons d M => exact ⟨(isChain_cons_cons.1 hc).1.1, (isChain_cons_cons.1 hc).2⟩
      simp only [cons_append, head?_cons, rangeLoop, ne_eq, Option.some.injEq, hne, not_false_eq_true, if_true, deref,
        Outcome.bind_ok, hn.1]
      rw [ih hn.2 hb.2 (by simpa using hf)]
      simp

/-- A window of a list cuts it in three parts. -/
theorem cut {α : Type} {xs : List α} {a b : Nat} (hab : a ≤ b) (hb : b < xs.length) :
    ∃ A M x B, xs = A ++ (M ++ x :: B) ∧ A.length = a ∧ M.length = b - a ∧ slice xs a b = M ++ [x] := by
  refine ⟨xs.take a, (xs.drop a).take (b - a), xs[b], xs.drop (b + 1), ?_, ?_, ?_, ?_⟩
  · have h1 : xs.drop b = xs[b] :: xs.drop (b + 1) := drop_eq_getElem_cons hb
    have h2 : xs.drop b = (xs.drop a).drop (b - a) := by rw [drop_drop]; congr 1; omega
    rw [← h1, h2, take_append_drop, take_append_drop]
  · simp; omega
  · simp; omega
  · unfold slice
    have e1 : (a : Int).toNat = a := by omega
    have e2 : ((b : Int) + 1 - (a : Int)).toNat = (b - a) + 1 := by omega
    rw [e1, e2, take_succ]
    congr 1
    rw [getElem?_drop]
    have : a + (b - a) = b := by omega
    rw [this, getElem?_eq_getElem hb]; rfl

/-- `Range` on a represented list. -/
theorem range_rep {l : LList} {xs : List Bytes} (h : Rep l xs) (left right : Int) :
    (∀ a b : Nat, ListWindow left right xs.length a b →
      range l left right = .ok (.ok ((slice xs a b).map Str.new))) ∧
    ((¬ ∃ a b, ListWindow left right xs.length a b) → range l left right = .ok (.error .outOfRange)) := by
  obtain ⟨as, h⟩ := h
  obtain ⟨e1, e2⟩ := extractSegment_rep h left right
  constructor
  · intro a b hw
    obtain ⟨ha, hb, e⟩ := e1 a b hw
    have hab : a ≤ b := by unfold ListWindow Window Denotes at hw; omega
    obtain ⟨A, M, c, B, has, hA, hM, hsl⟩ := cut hab hb
    obtain ⟨A', M', d, B', hxs, hA', hM', hsl'⟩ := cut hab (by rw [← h.length]; exact hb : b < xs.length)
    have hda : (M ++ [c]).map (fun a => (l.heap a).data) = (slice xs a b).map Str.new := by
      rw [hsl']
      have hd := h.data
      rw [has, hxs] at hd
      simp only [map_append, map_cons] at hd
      have := (append_inj hd (by simp [hA, hA'])).2
      obtain ⟨h3, h4⟩ := append_inj this (by simp [hM, hM'])
      simp only [map_append, map_cons, map_nil, h3, (cons.inj h4).1]
    have hpath := h.path
    rw [has] at hpath
    have hch : (M ++ [c]).IsChain (Link l.heap) := by
      have e3 : l.head :: (A ++ (M ++ c :: B) ++ [l.tail]) = (l.head :: A) ++ ((M ++ [c]) ++ (B ++ [l.tail])) := by simp
      rw [e3] at hpath
      exact (isChain_append.1 (isChain_append.1 hpath.2).2.1).1
    have hnd : c ∉ M := by
      have e3 : l.head :: (A ++ (M ++ c :: B) ++ [l.tail]) = (l.head :: A) ++ ((M ++ [c]) ++ (B ++ [l.tail])) := by simp
      rw [e3] at hpath
      have := (nodup_append.1 (nodup_append.1 hpath.1).2.1).1
      intro hm
      exact (nodup_append.1 this).2.2 c hm c (by simp) rfl
    have hbe : as[b] = c := by
      have hl : A.length + M.length = b := by omega
      simp only [has]
      rw [getElem_append_right (by omega), getElem_append_right (by omega)]
      simp [hA, hM]
    have hae : some as[a] = (M ++ [c]).head? := by
      rw [← getElem?_eq_getElem ha]
      rw [has, getElem?_append_right (by omega)]
      rw [hA, Nat.sub_self, head?_eq_getElem?]
      have : M ++ c :: B = (M ++ [c]) ++ B := by simp
      rw [this, getElem?_append_left (by simp)]
    unfold range
    simp only [e, Outcome.bind_ok]
    rw [hae, hbe, rangeLoop_chain hch hnd (by have := h.fuel; rw [has] at this; simp at this; omega)]
    simp only [Outcome.bind_ok, nil_append, hda]
  · intro hw
    unfold range
    simp only [e2 hw, Outcome.bind_ok]

/-! ### Trim -/

/-- Following `next` from the first of these nodes visits them in order and then reaches nil. -/
def Nexts (m : Heap) : List Nat → Prop
  | [] => True
  | x :: t => (m x).next = t.head? ∧ Nexts m t

theorem releaseList_nexts {A : List Nat} : ∀ {f : Nat} {m : Heap}, Nexts m A → A.length ≤ f →
    ∃ m', releaseList f m A.head? = .ok (m', (A.length : Int)) ∧ (∀ x, x ∉ A → m' x = m x) ∧
      ∀ x, (m' x).data = (m x).data := by
  induction A with
  | nil => intro f m _ _; exact ⟨m, by simp [releaseList], fun _ _ => rfl, fun _ => rfl⟩
  | cons a A ih =>
    intro f m hn hf
    cases f with
    | zero => simp at hf
    | succ f =>
      obtain ⟨h1, h2⟩ := hn
      obtain ⟨m', e, h3, h4⟩ := ih h2 (show A.length ≤ f by simpa using hf)
      simp only [head?_cons, releaseList, h1, e, Outcome.bind_ok]
      refine ⟨_, by simp; rfl, ?_, ?_⟩
      · intro x hx
        simp only [mem_cons, not_or] at hx
        simp [Heap.setNext, Heap.setPrev, Heap.upd, hx.1, h3 x hx.2]
      · intro x
        by_cases e : x = a
        · subst e; simp [Heap.setNext, Heap.setPrev, Heap.upd, h4]
        · simp [Heap.setNext, Heap.setPrev, Heap.upd, e, h4]

/-- A chain whose last node has its `next` cleared. -/
theorem nexts_of_chain {m m' : Heap} {A : List Nat} (hc : A.IsChain (Link m)) (hd : ∀ x ∈ A.dropLast, (m' x).next = (m x).next)
    (hl : ∀ x, A.getLast? = some x → (m' x).next = none) : Nexts m' A := by
  induction A with
  | nil => trivial
  | cons a A ih =>
    cases A with
    | nil => exact ⟨hl a rfl, trivial⟩
    | cons b A =>
      rw [isChain_cons_cons] at hc
      refine ⟨?_, ih hc.2 (fun x hx => hd x (mem_cons_of_mem _ hx)) (fun x hx => hl x (by simpa using hx))⟩
      rw [hd a (by simp), hc.1.1]; rfl

theorem setNext_next (m : Heap) (a : Nat) (p : Option Nat) (x : Nat) :
    (m.setNext a p x).next = if x = a then p else (m x).next := by
  unfold Heap.setNext Heap.upd; split <;> rfl

theorem setNext_prev (m : Heap) (a : Nat) (p : Option Nat) (x : Nat) : (m.setNext a p x).prev = (m x).prev := by
  unfold Heap.setNext Heap.upd; split
  · next e => subst e; rfl
  · rfl

theorem setNext_data (m : Heap) (a : Nat) (p : Option Nat) (x : Nat) : (m.setNext a p x).data = (m x).data := by
  unfold Heap.setNext Heap.upd; split
  · next e => subst e; rfl
  · rfl

theorem setPrev_prev (m : Heap) (a : Nat) (p : Option Nat) (x : Nat) :
    (m.setPrev a p x).prev = if x = a then p else (m x).prev := by
  unfold Heap.setPrev Heap.upd; split <;> rfl

theorem setPrev_next (m : Heap) (a : Nat) (p : Option Nat) (x : Nat) : (m.setPrev a p x).next = (m x).next := by
  unfold Heap.setPrev Heap.upd; split
  · next e => subst e; rfl
  · rfl

theorem setPrev_data (m : Heap) (a : Nat) (p : Option Nat) (x : Nat) : (m.setPrev a p x).data = (m x).data := by
  unfold Heap.setPrev Heap.upd; split
  · next e => subst e; rfl
  · rfl

/-- `Trim` on a represented list. -/
theorem trim_rep {l : LList} {xs : List Bytes} (h : Rep l xs) (left right : Int) :
    (∀ a b : Nat, ListWindow left right xs.length a b →
      ∃ l', trim l left right = .ok (l', none) ∧ Rep l' (slice xs a b)) ∧
    ((¬ ∃ a b, ListWindow left right xs.length a b) → trim l left right = .ok (l, some .outOfRange)) := by
  obtain ⟨as, h⟩ := h
  obtain ⟨e1, e2⟩ := extractSegment_rep h left right
  constructor
  · intro a b hw
    obtain ⟨ha, hb, e⟩ := e1 a b hw
    have hab : a ≤ b := by unfold ListWindow Window Denotes at hw; omega
    obtain ⟨A, M, c, B, has, hA, hM, hsl⟩ := cut hab hb
    obtain ⟨A', M', d, B', hxs, hA', hM', hsl'⟩ := cut hab (by rw [← h.length]; exact hb : b < xs.length)
    have hda : (M ++ [c]).map (fun a => (l.heap a).data) = (slice xs a b).map Str.new := by
      rw [hsl']
      have hd := h.data
      rw [has, hxs] at hd
      simp only [map_append, map_cons] at hd
      have := (append_inj hd (by simp [hA, hA'])).2
      obtain ⟨h3, h4⟩ := append_inj this (by simp [hM, hM'])
      simp only [map_append, map_cons, map_nil, h3, (cons.inj h4).1]
    have hbe : as[b] = c := by
      have hl : A.length + M.length = b := by omega
      simp only [has]
      rw [getElem_append_right (by omega), getElem_append_right (by omega)]
      simp [hA, hM]
    obtain ⟨s, N, hN⟩ : ∃ s N, M ++ [c] = s :: N := by
      cases M with
      | nil => exact ⟨_, _, rfl⟩
      | cons x t => exact ⟨_, _, rfl⟩
    have hae : as[a] = s := by
      have : as[a]? = some s := by
        rw [has, getElem?_append_right (by omega), hA, Nat.sub_self]
        have : M ++ c :: B = (M ++ [c]) ++ B := by simp
        rw [this, hN]; simp
      rw [getElem?_eq_getElem ha] at this
      exact Option.some.inj this
    obtain ⟨P, p, hP⟩ : ∃ P p, l.head :: A = P ++ [p] :=
      ⟨(l.head :: A).dropLast, (l.head :: A).getLast (by simp), (dropLast_append_getLast _).symm⟩
    obtain ⟨Q, q, hQ⟩ : ∃ Q q, c :: B = Q ++ [q] :=
      ⟨(c :: B).dropLast, (c :: B).getLast (by simp), (dropLast_append_getLast _).symm⟩
    -- the path and its consequences
    have hpath := h.path
    have e3 : l.head :: (as ++ [l.tail]) = (l.head :: A) ++ ((M ++ [c]) ++ (B ++ [l.tail])) := by rw [has]; simp
    rw [e3] at hpath
    obtain ⟨hnd, hch⟩ := hpath
    have nd1 := nodup_append.1 hnd
    have nd2 := nodup_append.1 nd1.2.1
    have nd3 := nodup_append.1 nd2.2.1
    have ch1 := isChain_append.1 hch
    have ch2 := isChain_append.1 ch1.2.1
    have ch3 := isChain_append.1 ch2.2.1
    have memM : ∀ x, x ∈ M ++ [c] ↔ x ∈ s :: N := by intro x; rw [hN]
    have pmem : p ∈ l.head :: A := by rw [hP]; simp
    have qmem : q ∈ c :: B := by rw [hQ]; simp
    have smem : s ∈ M ++ [c] := by rw [hN]; simp
    have cmem : c ∈ M ++ [c] := by simp
    have disAM : ∀ x ∈ l.head :: A, ∀ y ∈ M ++ [c], x ≠ y := fun x hx y hy => nd1.2.2 x hx y (mem_append_left _ hy)
    have disAB : ∀ x ∈ l.head :: A, ∀ y ∈ B, x ≠ y :=
      fun x hx y hy => nd1.2.2 x hx y (mem_append_right _ (mem_append_left _ hy))
    have disAt : ∀ x ∈ l.head :: A, x ≠ l.tail := fun x hx => nd1.2.2 x hx _ (by simp)
    have disMB : ∀ x ∈ M ++ [c], ∀ y ∈ B, x ≠ y := fun x hx y hy => nd2.2.2 x hx y (mem_append_left _ hy)
    have disMt : ∀ x ∈ M ++ [c], x ≠ l.tail := fun x hx => nd2.2.2 x hx _ (by simp)
    have disBt : ∀ x ∈ B, x ≠ l.tail := fun x hx => nd3.2.2 x hx _ (by simp)
    have hAnd : l.head ∉ A := (nodup_cons.1 nd1.1).1
    -- s.prev = p
    have hsp : (l.heap s).prev = some p := by
      have hpth := h.path
      rw [e3, hP, hN] at hpth
      have hpth' : Path l.heap (P ++ p :: s :: (N ++ (B ++ [l.tail]))) := by simpa using hpth
      exact (path_neighbours hpth').2.1
    have htp : (l.heap l.tail).prev = some q := by
      have hpth := h.path
      have e4 : l.head :: (as ++ [l.tail]) = (l.head :: A ++ M ++ Q) ++ q :: l.tail :: [] := by
        have : l.head :: (as ++ [l.tail]) = (l.head :: A ++ M) ++ ((c :: B) ++ [l.tail]) := by rw [has]; simp
        rw [this, hQ]; simp
      rw [e4] at hpth
      exact (path_neighbours hpth).2.1
    -- first release
    have hm1 : ((l.heap.setNext p none) l.head).next = A.head? := by
      rw [setNext_next]
      cases A with
      | nil =>
        have : p = l.head := by simpa using pmem
        simp [this]
      | cons x t =>
        have hne : l.head ≠ p := by
          intro e'
          have hp2 : p ∈ x :: t := by
            have := congrArg getLast? hP
            rw [getLast?_cons_cons, getLast?_append] at this
            exact mem_of_getLast? this
          rw [← e'] at hp2; exact hAnd hp2
        rw [if_neg hne]
        exact (isChain_cons_cons.1 ch1.1).1.1
    have hn1 : Nexts (l.heap.setNext p none) A := by
      cases A with
      | nil => trivial
      | cons x t =>
        have hPl : (x :: t).getLast? = some p := by
          have := congrArg getLast? hP
          rw [getLast?_cons_cons, getLast?_append] at this
          exact this
        refine nexts_of_chain (isChain_cons_cons.1 ch1.1).2 ?_ ?_
        · intro y hy
          rw [setNext_next, if_neg]
          rintro rfl
          have hnd' := (nodup_cons.1 nd1.1).2
          obtain ⟨T, hT⟩ : ∃ T, x :: t = T ++ [y] := by
            rw [getLast?_eq_some_iff] at hPl; exact hPl
          rw [hT, dropLast_concat] at hy
          rw [hT] at hnd'
          exact (nodup_append.1 hnd').2.2 y hy y (by simp) rfl
        · intro y hy
          rw [hPl] at hy; cases hy
          rw [setNext_next, if_pos rfl]
    have hfuel := h.fuel
    have hlenas := congrArg length has
    simp only [length_append, length_cons] at hlenas
    obtain ⟨m2, er1, hm2, hm2d⟩ := releaseList_nexts (f := l.fresh + 1) hn1 (by omega)
    -- values of m2
    have m2_at : ∀ x, x ∉ l.head :: A → m2 x = l.heap x := by
      intro x hx
      rw [hm2 x (fun hx' => hx (mem_cons_of_mem _ hx'))]
      have : x ≠ p := by rintro rfl; exact hx pmem
      simp [Heap.setNext, Heap.upd, this]
    have hM_notA : ∀ x ∈ M ++ [c], x ∉ l.head :: A := fun x hx hx' => disAM x hx' x hx rfl
    have hB_notA : ∀ x ∈ B, x ∉ l.head :: A := fun x hx hx' => disAB x hx' x hx rfl
    have ht_notA : l.tail ∉ l.head :: A := fun hx' => disAt _ hx' rfl
    -- second release
    have hqB : q = c ∧ B = [] ∨ q ∈ B ∧ B.getLast? = some q := by
      cases B with
      | nil => left; simpa using qmem
      | cons x t =>
        right
        have := congrArg getLast? hQ
        rw [getLast?_cons_cons, getLast?_append] at this
        exact ⟨mem_of_getLast? this, this⟩
    have hcB : c ∉ B := fun hx => disMB c cmem c hx rfl
    have hm3 : ((m2.setNext q none) c).next = B.head? := by
      rw [setNext_next]
      rcases hqB with ⟨rfl, rfl⟩ | ⟨hq, hq'⟩
      · simp
      · have hne : c ≠ q := fun e' => hcB (e' ▸ hq)
        rw [if_neg hne, m2_at c (hM_notA c cmem)]
        have hpth := h.path
        cases B with
        | nil => simp at hq
        | cons x t =>
          have e4 : l.head :: (as ++ [l.tail]) = (l.head :: A ++ M) ++ c :: x :: (t ++ [l.tail]) := by rw [has]; simp
          rw [e4] at hpth
          exact (path_neighbours hpth).1
    have hn3 : Nexts (m2.setNext q none) B := by
      rcases hqB with ⟨rfl, rfl⟩ | ⟨hq, hq'⟩
      · trivial
      · refine nexts_of_chain ch3.1 ?_ ?_
        · intro y hy
          have hyB : y ∈ B := (dropLast_sublist _).subset hy
          rw [setNext_next, if_neg, m2_at y (hB_notA y hyB)]
          rintro rfl
          obtain ⟨T, hT⟩ : ∃ T, B = T ++ [y] := by
            rw [getLast?_eq_some_iff] at hq'; exact hq'
          rw [hT, dropLast_concat] at hy
          have := nd3.1
          rw [hT] at this
          exact (nodup_append.1 this).2.2 y hy y (by simp) rfl
        · intro y hy
          rw [hq'] at hy; cases hy
          rw [setNext_next, if_pos rfl]
    obtain ⟨m4, er2, hm4, hm4d⟩ := releaseList_nexts (f := l.fresh + 1) hn3 (by omega)
    -- values of m4
    have m4_prev : ∀ x, x ∉ l.head :: A → x ∉ B → (m4 x).prev = (l.heap x).prev := by
      intro x h1 h2
      rw [hm4 x h2, setNext_prev, m2_at x h1]
    have m4_next : ∀ x, x ∉ l.head :: A → x ∉ B → x ≠ q → (m4 x).next = (l.heap x).next := by
      intro x h1 h2 h3
      rw [hm4 x h2, setNext_next, if_neg h3, m2_at x h1]
    have m4_data : ∀ x, (m4 x).data = (l.heap x).data := by
      intro x; rw [hm4d, setNext_data, hm2d, setNext_data]
    have head_notB : l.head ∉ B := fun hx => disAB l.head (by simp) l.head hx rfl
    have m4_head_prev : (m4 l.head).prev = none := by
      rw [hm4 _ head_notB, setNext_prev, hm2 _ hAnd, setNext_prev]; exact h.headPrev
    have tail_notB : l.tail ∉ B := fun hx => disBt _ hx rfl
    have tail_ne_q : l.tail ≠ q := by
      rcases hqB with ⟨rfl, rfl⟩ | ⟨hq, -⟩
      · exact fun e' => disMt q cmem e'.symm
      · exact fun e' => disBt q hq e'.symm
    -- run it
    have hrun : trim l left right = .ok ({ l with
        heap := (((m4.setNext l.head (some s)).setPrev s (some l.head)).setPrev l.tail (some c)).setNext c (some l.tail)
        size := l.size - (A.length : Int) - (B.length : Int) }, none) := by
      unfold trim
      simp only [e, Outcome.bind_ok, hae, hbe, hsp, deref, hm1, er1, m2_at _ ht_notA, htp, hm3, er2]
    refine ⟨_, hrun, M ++ [c], ?_⟩
    have nxt : ∀ x, ((((m4.setNext l.head (some s)).setPrev s (some l.head)).setPrev l.tail (some c)).setNext c (some l.tail) x).next
        = if x = c then some l.tail else if x = l.head then some s else (m4 x).next := by
      intro x; rw [setNext_next, setPrev_next, setPrev_next, setNext_next]
    have prv : ∀ x, ((((m4.setNext l.head (some s)).setPrev s (some l.head)).setPrev l.tail (some c)).setNext c (some l.tail) x).prev
        = if x = l.tail then some c else if x = s then some l.head else (m4 x).prev := by
      intro x; rw [setNext_prev, setPrev_prev, setPrev_prev, setNext_prev]
    have dat : ∀ x, ((((m4.setNext l.head (some s)).setPrev s (some l.head)).setPrev l.tail (some c)).setNext c (some l.tail) x).data
        = (l.heap x).data := by
      intro x; rw [setNext_data, setPrev_data, setPrev_data, setNext_data, m4_data]
    generalize (((m4.setNext l.head (some s)).setPrev s (some l.head)).setPrev l.tail (some c)).setNext c (some l.tail) = m8 at nxt prv dat
    have head_ne_c : l.head ≠ c := fun e' => disAM l.head (by simp) c cmem e'
    have head_ne_s : l.head ≠ s := fun e' => disAM l.head (by simp) s smem e'
    have hmid : (M ++ [c]).IsChain (Link m8) := by
      refine chain_congr ch2.1 ?_ ?_
      · intro x hx
        rw [dropLast_concat] at hx
        have hxM : x ∈ M ++ [c] := mem_append_left _ hx
        have hxc : x ≠ c := fun e' => (nodup_append.1 nd2.1).2.2 x hx c (by simp) e'
        have hxq : x ≠ q := by
          rcases hqB with ⟨rfl, -⟩ | ⟨hq, -⟩
          · exact hxc
          · exact disMB x hxM q hq
        rw [nxt, if_neg hxc, if_neg (fun e' => hM_notA x hxM (by simp [e'])),
          m4_next x (hM_notA x hxM) (fun hx' => disMB x hxM x hx' rfl) hxq]
      · intro x hx
        have hx2 : x ∈ N := by rw [hN] at hx; exact hx
        have hxM : x ∈ M ++ [c] := by rw [hN]; exact mem_cons_of_mem _ hx2
        have hxs' : x ≠ s := by
          rintro rfl
          have := nd2.1
          rw [hN] at this
          exact (nodup_cons.1 this).1 hx2
        rw [prv, if_neg (disMt x hxM), if_neg hxs', m4_prev x (hM_notA x hxM) (fun hx' => disMB x hxM x hx' rfl)]
    have hsub : (l.head :: (M ++ [c] ++ [l.tail])).Sublist ((l.head :: A) ++ ((M ++ [c]) ++ (B ++ [l.tail]))) := by
      refine Sublist.cons_cons _ ?_
      refine (Sublist.append ((Sublist.refl _)) (sublist_append_right B [l.tail])).trans ?_
      exact sublist_append_right A _
    refine ⟨⟨?_, ?_⟩, ?_, ?_, ?_, ?_, ?_, ?_, ?_⟩
    · simp only
      exact hsub.nodup hnd
    · simp only
      have hlast : (M ++ [c] ++ [l.tail]).IsChain (Link m8) := by
        rw [isChain_append]
        refine ⟨hmid, by simp, ?_⟩
        intro x hx y hy
        simp at hx hy
        subst hx; subst hy
        exact ⟨by rw [nxt, if_pos rfl], by rw [prv, if_pos rfl]⟩
      rw [hN] at hlast ⊢
      rw [cons_append, isChain_cons_cons]
      refine ⟨⟨?_, ?_⟩, by simpa using hlast⟩
      · rw [nxt, if_neg head_ne_c, if_pos rfl]
      · rw [prv, if_neg (disMt s smem), if_pos rfl]
    · intro x hx
      apply h.alloc
      rw [e3]
      exact hsub.subset hx
    · simp only; rw [prv, if_neg (disAt l.head (by simp)), if_neg head_ne_s, m4_head_prev]
    · simp only
      rw [nxt, if_neg (fun e' => disMt c cmem e'.symm), if_neg (fun e' => disAt l.head (by simp) e'.symm),
        m4_next l.tail ht_notA tail_notB tail_ne_q]
      exact h.tailNext
    · simp only [dat]; exact h.headData
    · simp only [dat]; exact h.tailData
    · simp only [dat]; exact hda
    · simp only
      have := congrArg length hda
      simp only [length_map, length_append, length_cons, length_nil] at this
      rw [h.size, ← h.length]
      omega
  · intro hw
    unfold trim
    simp only [e2 hw, Outcome.bind_ok]

end LList

end Verif
