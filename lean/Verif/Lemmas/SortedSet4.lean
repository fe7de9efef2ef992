import Verif.Lemmas.SortedSet3

/-! The calls on a sorted set against the map. -/

namespace Verif.Skip

open SkipList Spec

section
variable {nf ne : Prop} {s : SkipList} {ns : List Nat} {z : ZMap}

theorem scoreSum_add (rnd : Rat → F64) (x y : F64) : ScoreSum rnd x y (F64.add rnd x y) := by
  cases x <;> cases y <;> first
    | exact .fin
    | exact .nan
    | exact .nan'
    | exact .opposite
    | exact .opposite'
    | exact .pinf (by simp) (by simp)
    | exact .pinf' (by simp) (by simp)
    | exact .ninf (by simp) (by simp)
    | exact .ninf' (by simp) (by simp)

theorem sim_mem (hz : Sim z s) (e : Bytes) : e ∈ z ↔ (s.set.get e).isSome = true := by
  rw [Finmap.mem_iff, hz e]
  cases s.set.get e <;> simp

theorem sim_none (hz : Sim z s) {e : Bytes} (h : s.set.get e = none) : e ∉ z := by
  rw [sim_mem hz, h]; simp

theorem sim_len (h : Rep s ns) (hz : Sim z s) : len s = z.keys.card := by
  have : (GoMap.keys s.set).toFinset = z.keys := by
    ext f
    rw [List.mem_toFinset, GoMap.mem_keys_isSome, Finmap.mem_keys, sim_mem hz]
  unfold len
  rw [← this, List.toFinset_card_of_nodup h.wf, GoMap.length_keys]

theorem sim_empty (h : Rep s ns) (hz : Sim z s) (h0 : s.set.length = 0) : z = ∅ := by
  have h1 : s.set = [] := List.length_eq_zero_iff.1 h0
  apply Finmap.ext_lookup
  intro e
  rw [hz e, h1]; simp [GoMap.get, Finmap.lookup_empty]

theorem new_data (e : Bytes) : (Str.new e).data = e := rfl

/-- One insertion of `Add`. -/
theorem addOne (h : Inv nf ne s ns) (hz : Sim z s) {x : F64} {e : Bytes} {k : Nat} {s' : SkipList}
    (hi : SkipList.insert s x (Str.new e) k = .ok s') (hn : nf → x ≠ .nan) (he : ne → e ≠ []) :
    ∃ ns', Inv nf ne s' ns' ∧ Sim (if e ∈ z then z else z.insert e x) s' := by
  cases hg : s.set.get e with
  | some a =>
    have : s' = s := by
      unfold SkipList.insert at hi
      rw [new_data, hg] at hi; simp at hi; exact hi.symm
    subst this
    exact ⟨ns, h, by rw [if_pos ((sim_mem hz e).2 (by simp [hg]))]; exact hz⟩
  | none =>
    rcases insert_inv h (sc := x) (e := Str.new e) k hg hn he with ⟨h1, -⟩ | ⟨s1, C, D, rfl, h1, h2, h3, -⟩
    · rw [h1] at hi; simp at hi
    · rw [h1] at hi; cases hi
      exact ⟨_, h2, by rw [if_neg (sim_none hz hg)]; exact h3 z hz⟩

theorem addLoop_spec (draws : Nat → Nat) : ∀ (es : List Bytes) (xs : List F64) (i : Nat) (s : SkipList) (ns : List Nat) (z : ZMap) (s' : SkipList),
    Inv nf ne s ns → Sim z s → (nf → F64.nan ∉ xs) → (ne → [] ∉ es) → addLoop draws i s xs (es.map Str.new) = .ok s' →
    ∃ ns', Inv nf ne s' ns' ∧ Sim (z.addNew xs es) s' := by
  intro es
  induction es with
  | nil =>
    intro xs i s ns z s' h hz _ _ ha
    have : s' = s ∧ z.addNew xs [] = z := by cases xs <;> simp [addLoop, ZMap.addNew] at ha ⊢ <;> exact ha.symm
    rw [this.1, this.2]; exact ⟨ns, h, hz⟩
  | cons e es ih =>
    intro xs i s ns z s' h hz hn he ha
    cases xs with
    | nil =>
      simp [addLoop] at ha; subst ha
      exact ⟨ns, h, by simpa [ZMap.addNew] using hz⟩
    | cons x xs =>
      simp only [List.map_cons, addLoop] at ha
      cases hi : SkipList.insert s x (Str.new e) (draws i) with
      | panic => rw [hi] at ha; simp at ha
      | diverge => rw [hi] at ha; simp at ha
      | ok s1 =>
        rw [hi, Outcome.bind_ok] at ha
        obtain ⟨n1, h1, h2⟩ := addOne h hz hi (fun n e => hn n (by simp [e])) (fun n e => he n (by simp [e]))
        exact ih xs (i + 1) s1 n1 _ s' h1 h2 (fun n m => hn n (by simp [m])) (fun n m => he n (by simp [m])) ha

/-- The entry of a node that the map of the code points to. -/
theorem get_node (h : Rep s ns) {e : Bytes} {a : Nat} (hg : s.set.get e = some a) : a ∈ ns ∧ ∃ d, (s.heap a).data = some d ∧ d.data = e :=
  (h.set e a).1 hg

theorem erase_absent {e : Bytes} (h : e ∉ z) : z.erase e = z := by
  apply Finmap.ext_lookup; intro f
  by_cases hf : f = e
  · subst hf; rw [Finmap.lookup_erase, Finmap.lookup_eq_none.2 h]
  · rw [Finmap.lookup_erase_ne hf]

theorem del_spec : ∀ (es : List Bytes) (s : SkipList) (ns : List Nat) (z : ZMap) (s' : SkipList),
    Inv nf ne s ns → Sim z s → del s (es.map Str.new) = .ok s' → ∃ ns', Inv nf ne s' ns' ∧ Sim (z.eraseAll es) s' := by
  intro es
  induction es with
  | nil => intro s ns z s' h hz hd; simp [del] at hd; subst hd; exact ⟨ns, h, hz⟩
  | cons e es ih =>
    intro s ns z s' h hz hd
    have hcons : z.eraseAll (e :: es) = ZMap.eraseAll (z.erase e) es := rfl
    rw [hcons]
    simp only [List.map_cons, del, new_data] at hd
    cases hg : s.set.get e with
    | none =>
      rw [hg] at hd
      rw [erase_absent (sim_none hz hg)]
      exact ih s ns z s' h hz hd
    | some a =>
      rw [hg] at hd
      obtain ⟨ha, d, hd1, rfl⟩ := get_node h.rep hg
      obtain ⟨s1, n1, h1, h2, -, h4, -⟩ := delete_inv h ha hd1
      simp only [h1, Outcome.bind_ok] at hd
      exact ih s1 n1 _ s' h2 (h4 z hz) hd

theorem insert_erase (e : Bytes) (x : F64) : (z.erase e).insert e x = z.insert e x := by
  apply Finmap.ext_lookup; intro f
  by_cases hf : f = e
  · subst hf; simp [Finmap.lookup_insert]
  · rw [Finmap.lookup_insert_of_ne _ hf, Finmap.lookup_insert_of_ne _ hf, Finmap.lookup_erase_ne hf]

/-- The pop of a node with its string. -/
theorem pop_spec (h : Inv nf ne s ns) (hz : Sim z s) {a : Nat} {d : Str} (ha : a ∈ ns) (hd : (s.heap a).data = some d) :
    ∃ s' ns', deleteNode s a = .ok s' ∧ Inv nf ne s' ns' ∧ Sim (z.erase d.data) s' ∧ z.lookup d.data = some (s.heap a).score := by
  obtain ⟨s1, n1, h1, h2, -, h4, -⟩ := delete_inv h ha hd
  refine ⟨s1, n1, h1, h2, h4 z hz, ?_⟩
  rw [hz, (h.rep.set d.data a).2 ⟨ha, d, hd, rfl⟩]; rfl

/-- Every entry of the map has its node. -/
theorem sim_node (h : Rep s ns) (hz : Sim z s) {e : Bytes} {x : F64} (he : z.lookup e = some x) :
    ∃ a ∈ ns, (s.heap a).score = x ∧ ∃ d, (s.heap a).data = some d ∧ d.data = e := by
  rw [hz e] at he
  cases hg : s.set.get e with
  | none => rw [hg] at he; simp at he
  | some a =>
    rw [hg] at he; simp at he
    obtain ⟨h1, h2⟩ := get_node h hg
    exact ⟨a, h1, he, h2⟩

theorem ne_nil_of_length (h : Rep s ns) (h0 : s.set.length ≠ 0) : ns ≠ [] := by
  rintro rfl
  cases e : s.set with
  | nil => rw [e] at h0; simp at h0
  | cons p m =>
    have hm : p.1 ∈ s.set.keys := by rw [e]; simp [GoMap.keys]
    obtain ⟨v, hv⟩ := (GoMap.mem_keys_iff _ _).1 hm
    have := (get_node h hv).1
    simp at this

theorem first_node (h : Rep s ns) {a : Nat} {D : List Nat} (e : ns = a :: D) : ∃ sp, s.heap.level s.head 0 = .ok ⟨a, sp⟩ := by
  have := h.linked 0 (by omega)
  rw [h.on_zero, e] at this
  have h2 := linked_next (A := []) (B := a :: D) (by simpa using this)
  simp at h2
  exact level_of_nxt h2

/-- What a pop may take, according to the assumptions on the history. -/
def PopsMin (nf ne : Prop) (z : ZMap) (e : Bytes) : Prop := (nf → LeastScore z e) ∧ (nf → ne → First z e)
def PopsMax (nf ne : Prop) (z : ZMap) (e : Bytes) : Prop := (nf → GreatestScore z e) ∧ (nf → ne → Last z e)

theorem popsMin (h : Inv nf ne s ns) (hz : Sim z s) {a : Nat} {D : List Nat} (e : ns = a :: D) {d : Str} (hd : (s.heap a).data = some d) :
    PopsMin nf ne z d.data := by
  subst e
  have hl : z.lookup d.data = some (s.heap a).score := by rw [hz, (h.rep.set d.data a).2 ⟨by simp, d, hd, rfl⟩]; rfl
  constructor
  · intro n
    refine ⟨_, hl, ?_⟩
    intro e' x' he' hlt
    obtain ⟨b, hb, rfl, -⟩ := sim_node h.rep hz he'
    rw [← F64.lt_iff] at hlt
    rcases List.mem_cons.1 hb with rfl | hb
    · rw [F64.lt_irrefl] at hlt; simp at hlt
    · have := (List.pairwise_cons.1 (h.sorted n)).1 b hb
      unfold InOrder at this; rw [hlt] at this; simp at this
  · intro n n'
    refine ⟨_, hl, ?_⟩
    intro e' x' he' hne
    obtain ⟨b, hb, rfl, d', hd', rfl⟩ := sim_node h.rep hz he'
    rcases List.mem_cons.1 hb with rfl | hb
    · rw [hd] at hd'; cases hd'; exact absurd rfl hne
    · have h1 := (List.pairwise_cons.1 (h.sorted n)).1 b hb
      have h2 := (List.pairwise_cons.1 (h.lex n n')).1 b hb
      rcases F64.total (h.nonan n a (by simp)) (h.nonan n b (by simp [hb])) with h3 | h3 | h3
      · exact .inl (F64.lt_iff.1 h3)
      · right
        refine ⟨h3, ?_⟩
        rcases lexLt_total d.data d'.data with h4 | h4 | h4
        · exact h4
        · exact absurd h4.symm hne
        · exact absurd h4 (h2 d d' hd hd' h3)
      · unfold InOrder at h1; rw [h3] at h1; simp at h1

theorem popsMax (h : Inv nf ne s ns) (hz : Sim z s) {a : Nat} {C : List Nat} (e : ns = C ++ [a]) {d : Str} (hd : (s.heap a).data = some d) :
    PopsMax nf ne z d.data := by
  subst e
  have hl : z.lookup d.data = some (s.heap a).score := by rw [hz, (h.rep.set d.data a).2 ⟨by simp, d, hd, rfl⟩]; rfl
  constructor
  · intro n
    refine ⟨_, hl, ?_⟩
    intro e' x' he' hlt
    obtain ⟨b, hb, rfl, -⟩ := sim_node h.rep hz he'
    rw [← F64.lt_iff] at hlt
    rcases List.mem_append.1 hb with hb | hb
    · have := (List.pairwise_append.1 (h.sorted n)).2.2 b hb a (by simp)
      unfold InOrder at this; rw [hlt] at this; simp at this
    · simp at hb; subst hb
      rw [F64.lt_irrefl] at hlt; simp at hlt
  · intro n n'
    refine ⟨_, hl, ?_⟩
    intro e' x' he' hne
    obtain ⟨b, hb, rfl, d', hd', rfl⟩ := sim_node h.rep hz he'
    rcases List.mem_append.1 hb with hb' | hb'
    · have h1 := (List.pairwise_append.1 (h.sorted n)).2.2 b hb' a (by simp)
      have h2 := (List.pairwise_append.1 (h.lex n n')).2.2 b hb' a (by simp)
      rcases F64.total (h.nonan n b hb) (h.nonan n a (by simp)) with h3 | h3 | h3
      · exact .inl (F64.lt_iff.1 h3)
      · right
        refine ⟨h3.symm, ?_⟩
        rcases lexLt_total d'.data d.data with h4 | h4 | h4
        · exact h4
        · exact absurd h4 hne
        · exact absurd h4 (h2 d' d hd' hd h3)
      · unfold InOrder at h1; rw [h3] at h1; simp at h1
    · simp at hb'; subst hb'
      rw [hd] at hd'; cases hd'; exact absurd rfl hne

/-- Walking for the rank never stops before the tail, where it crashes. -/
theorem rankWalk_panic {m : SHeap} {t node l : Nat} (hn : node ≠ t) (htail : ht m t = 0) : ∀ (A : List Nat) (h : Nat) (fuel : Nat) (r : Int),
    Linked m l (h :: A ++ [t]) → A.length + 2 ≤ fuel → rankWalk m t node l fuel h r = .panic := by
  intro A
  induction A with
  | nil =>
    intro h fuel r hl hf
    obtain ⟨fuel, rfl⟩ : ∃ n, fuel = n + 2 := ⟨fuel - 2, by simp at hf; omega⟩
    obtain ⟨sp, hx⟩ := level_of_nxt (linked_next (A := []) (B := []) (by simpa using hl))
    have hx' : m.level h l = .ok ⟨t, sp⟩ := by simpa using hx
    have htl : m.level t l = .panic := by
      unfold SHeap.level
      have : (m t).next = [] := List.length_eq_zero_iff.1 htail
      rw [this]; rfl
    simp only [rankWalk, hx', Outcome.bind_ok]
    rw [if_pos (.inr (Ne.symm hn)), htl]; rfl
  | cons a A ih =>
    intro h fuel r hl hf
    obtain ⟨fuel, rfl⟩ : ∃ n, fuel = n + 1 := ⟨fuel - 1, by simp at hf; omega⟩
    obtain ⟨sp, hx⟩ := level_of_nxt (linked_next (A := []) (B := a :: A) (by simpa using hl))
    have hx' : m.level h l = .ok ⟨a, sp⟩ := by simpa using hx
    simp only [rankWalk, hx', Outcome.bind_ok]
    rw [if_pos]
    · refine ih a fuel _ ?_ (by simp at hf; omega)
      unfold Linked at hl ⊢
      exact (List.isChain_cons_cons.1 hl).2
    · by_cases h1 : a = t
      · exact .inr (by rw [h1]; exact Ne.symm hn)
      · exact .inl h1

theorem getRank_panic (h : Rep s ns) {node : Nat} (hn : node ∈ ns) : getRank s node = .panic := by
  have hl := h.lev
  obtain ⟨l, hl'⟩ : ∃ l, s.level = l + 1 := ⟨s.level - 1, by omega⟩
  unfold getRank
  rw [hl', rankLoop]
  rw [rankWalk_panic (fun e => h.tail_notin (by rw [← e]; exact hn)) h.tht (on s.heap l ns) s.head s.fresh 0 (h.linked l (by omega))]
  · rfl
  · have h1 : (on s.heap l ns).length ≤ ns.length := List.length_filter_le _ _
    have : (s.tail :: s.head :: ns) ⊆ List.range s.fresh := fun a ha => List.mem_range.2 (h.below a ha)
    have := (List.Nodup.subperm h.nodup this).length_le
    simp at this
    omega

/-- `Rank` on an entry that is there crashes. -/
theorem rank_panic (h : Rep s ns) {e : Bytes} {a : Nat} (hg : s.set.get e = some a) : rank s (Str.new e) = .panic := by
  unfold rank
  rw [new_data, hg]
  simp only
  rw [getRank_panic h (get_node h hg).1]; rfl

/-- The back pointer of the tail: `PopMax` takes the last node, or crashes. -/
theorem popMax_cases (h : Rep s ns) (h0 : s.set.length ≠ 0) :
    popMax s = .panic ∨ ∃ C a d, ns = C ++ [a] ∧ (s.heap a).data = some d ∧ (s.heap s.tail).prev = some a := by
  obtain ⟨p, p1, p2, p3, p4⟩ := h.prev
  have hp : ∀ q, (s.heap q).data = none → q ≠ s.tail → (s.heap s.tail).prev = some q → popMax s = .panic := by
    intro q hq hqt hq'
    unfold popMax
    rw [if_neg h0, hq']
    simp only
    rw [deleteNode_panic h hqt hq]; rfl
  rcases p4 with p4 | p4
  · obtain ⟨C, a, rfl⟩ := (nil_or_snoc ns).resolve_left (ne_nil_of_length h h0)
    rw [lastOr_concat] at p4; subst p4
    cases hd : (s.heap p).data with
    | none => exact .inl (hp p hd p3 p1)
    | some d => exact .inr ⟨C, p, d, rfl, hd, p1⟩
  · exact .inl (hp p p4 p3 p1)

/-- A call that does not crash does to the map what it should. -/
theorem call_spec (rnd : Rat → F64) (h : Inv nf ne s ns) (hz : Sim z s) {op : ZOp} {draws : Nat → Nat} {s' : SkipList} {r : ZResult}
    (hc : call rnd s op draws = .ok (s', r)) (hn : nf → NaNFree [(op, r)]) (he : ne → NoEmptyEntry [(op, r)]) :
    ∃ ns' z', Inv nf ne s' ns' ∧ Sim z' s' ∧ ZStep rnd (PopsMin nf ne) (PopsMax nf ne) (fun _ _ _ => False) z op z' r := by
  cases op with
  | add xs es =>
    simp only [call, SkipList.add, List.length_map] at hc
    by_cases hl : xs.length = es.length
    · rw [if_neg (by simpa using hl)] at hc
      cases ha : addLoop draws 0 s xs (es.map Str.new) with
      | panic => rw [ha] at hc; simp at hc
      | diverge => rw [ha] at hc; simp at hc
      | ok s1 =>
        rw [ha] at hc; simp at hc
        obtain ⟨rfl, rfl⟩ := hc
        obtain ⟨n1, h1, h2⟩ := addLoop_spec draws es xs 0 s ns z s1 h hz (fun n => (hn n).1 xs es (.added true) (by simp)) (fun n => he n xs es (.added true) (by simp)) ha
        exact ⟨n1, _, h1, h2, .add hl⟩
    · rw [if_pos (by simpa using hl)] at hc
      simp at hc; obtain ⟨rfl, rfl⟩ := hc
      exact ⟨ns, z, h, hz, .addMismatch hl⟩
  | del es =>
    simp only [call] at hc
    cases hd : del s (es.map Str.new) with
    | panic => rw [hd] at hc; simp at hc
    | diverge => rw [hd] at hc; simp at hc
    | ok s1 =>
      rw [hd] at hc; simp at hc
      obtain ⟨rfl, rfl⟩ := hc
      obtain ⟨n1, h1, h2⟩ := del_spec es s ns z s1 h hz hd
      exact ⟨n1, _, h1, h2, .del⟩
  | score e =>
    simp only [call, Outcome.ok.injEq, Prod.mk.injEq] at hc
    obtain ⟨rfl, rfl⟩ := hc
    refine ⟨ns, z, h, hz, ?_⟩
    have : SkipList.score s (Str.new e) = z.lookup e := by
      unfold SkipList.score
      rw [hz e, new_data]; cases s.set.get e <;> rfl
    rw [this]; exact .score
  | increaseBy e i =>
    simp only [call, increaseBy, new_data] at hc
    cases hg : s.set.get e with
    | none =>
      rw [hg] at hc; simp at hc; obtain ⟨rfl, rfl⟩ := hc
      exact ⟨ns, z, h, hz, .increaseByMissing (sim_none hz hg)⟩
    | some a =>
      rw [hg] at hc
      obtain ⟨ha, d, hd, rfl⟩ := get_node h.rep hg
      obtain ⟨s1, n1, h1, h2, h3, h4, -⟩ := delete_inv h ha hd
      simp only [h1, hd, Outcome.bind_ok] at hc
      have hg1 : s1.set.get d.data = none := by rw [h3, GoMap.get_erase, if_pos rfl]
      have hlook : z.lookup d.data = some (s.heap a).score := by rw [hz, hg]; rfl
      cases hi : SkipList.insert s1 (F64.add rnd (s.heap a).score i) d (draws 0) with
      | panic => rw [hi] at hc; simp at hc
      | diverge => rw [hi] at hc; simp at hc
      | ok s2 =>
        rw [hi] at hc; simp at hc
        obtain ⟨rfl, rfl⟩ := hc
        rcases insert_inv h2 (sc := F64.add rnd (s.heap a).score i) (e := d) (draws 0) hg1
          (fun n hx => (hn n).2 d.data i (by rw [hx]; simp)) (fun n => h.nonempty n a ha d hd) with ⟨k1, -⟩ | ⟨s3, C, D, rfl, k1, k2, k3, -⟩
        · rw [k1] at hi; simp at hi
        · rw [k1] at hi; cases hi
          refine ⟨_, _, k2, k3 _ (h4 z hz), ?_⟩
          rw [insert_erase]
          exact .increaseBy hlook (scoreSum_add rnd _ _)
  | popMin =>
    simp only [call, popMin] at hc
    by_cases h0 : s.set.length = 0
    · rw [if_pos h0] at hc; simp at hc; obtain ⟨rfl, rfl⟩ := hc
      have := sim_empty h.rep hz h0
      subst this
      exact ⟨ns, ∅, h, hz, .popMinEmpty⟩
    · rw [if_neg h0] at hc
      cases ns with
      | nil => exact absurd rfl (ne_nil_of_length h.rep h0)
      | cons a D =>
        obtain ⟨sp, hx⟩ := first_node h.rep rfl
        simp only [hx, Outcome.bind_ok] at hc
        cases hd : (s.heap a).data with
        | none =>
          rw [deleteNode_panic h.rep (by rintro rfl; exact h.rep.tail_notin (by simp)) hd] at hc; simp at hc
        | some d =>
          obtain ⟨s1, n1, h1, h2, h3, h4⟩ := pop_spec h hz (a := a) (by simp) hd
          rw [h1, hd] at hc; simp [ZResult.ofPop] at hc; obtain ⟨rfl, rfl⟩ := hc
          exact ⟨n1, _, h2, h3, .popMin (Finmap.mem_of_lookup_eq_some h4) (popsMin h hz rfl hd)⟩
  | popMax =>
    simp only [call] at hc
    by_cases h0 : s.set.length = 0
    · unfold popMax at hc
      rw [if_pos h0] at hc; simp at hc; obtain ⟨rfl, rfl⟩ := hc
      have := sim_empty h.rep hz h0
      subst this
      exact ⟨ns, ∅, h, hz, .popMaxEmpty⟩
    · rcases popMax_cases h.rep h0 with hp | ⟨C, a, d, rfl, hd, hp⟩
      · rw [hp] at hc; simp at hc
      · unfold popMax at hc
        rw [if_neg h0, hp] at hc
        simp only at hc
        obtain ⟨s1, n1, h1, h2, h3, h4⟩ := pop_spec h hz (a := a) (by simp) hd
        rw [h1, hd] at hc; simp [ZResult.ofPop] at hc; obtain ⟨rfl, rfl⟩ := hc
        exact ⟨n1, _, h2, h3, .popMax (Finmap.mem_of_lookup_eq_some h4) (popsMax h hz rfl hd)⟩
  | rank e =>
    simp only [call] at hc
    cases hg : s.set.get e with
    | none =>
      unfold SkipList.rank at hc
      rw [new_data, hg] at hc; simp at hc; obtain ⟨rfl, rfl⟩ := hc
      exact ⟨ns, z, h, hz, .rankMissing (sim_none hz hg)⟩
    | some a => rw [rank_panic h.rep hg] at hc; simp at hc
  | len =>
    simp only [call, Outcome.ok.injEq, Prod.mk.injEq] at hc
    obtain ⟨rfl, rfl⟩ := hc
    refine ⟨ns, z, h, hz, ?_⟩
    rw [sim_len h.rep hz]; exact .len

theorem run_spec (rnd : Rat → F64) : ∀ (ops : List (ZOp × (Nat → Nat))) (s : SkipList) (ns : List Nat) (z : ZMap) (s' : SkipList)
    (hist : List (ZOp × ZResult)), Inv nf ne s ns → Sim z s → run rnd s ops = .ok (s', hist) → (nf → NaNFree hist) → (ne → NoEmptyEntry hist) →
    ∃ ns' z', Inv nf ne s' ns' ∧ Sim z' s' ∧ ZTrace rnd (PopsMin nf ne) (PopsMax nf ne) (fun _ _ _ => False) z hist z' ∧
      hist.map Prod.fst = ops.map Prod.fst := by
  intro ops
  induction ops with
  | nil => intro s ns z s' hist h hz hr _ _; simp [run] at hr; obtain ⟨rfl, rfl⟩ := hr; exact ⟨ns, z, h, hz, .nil, rfl⟩
  | cons p ops ih =>
    obtain ⟨op, draws⟩ := p
    intro s ns z s' hist h hz hr hn he
    simp only [run] at hr
    cases hc : call rnd s op draws with
    | panic => rw [hc] at hr; simp at hr
    | diverge => rw [hc] at hr; simp at hr
    | ok q =>
      obtain ⟨s1, r⟩ := q
      rw [hc] at hr; simp only [Outcome.bind_ok] at hr
      cases hr1 : run rnd s1 ops with
      | panic => rw [hr1] at hr; simp at hr
      | diverge => rw [hr1] at hr; simp at hr
      | ok q =>
        obtain ⟨s2, h2⟩ := q
        rw [hr1] at hr; simp at hr
        obtain ⟨rfl, rfl⟩ := hr
        obtain ⟨n1, z1, k1, k2, k3⟩ := call_spec rnd h hz hc
          (fun n => ⟨fun xs es r hm => (hn n).1 xs es r (by simp at hm ⊢; exact .inl hm), fun e i hm => (hn n).2 e i (by simp at hm ⊢; exact .inl hm)⟩)
          (fun n xs es r hm => he n xs es r (by simp at hm ⊢; exact .inl hm))
        obtain ⟨n2, z2, l1, l2, l3, l4⟩ := ih s1 n1 z1 s2 h2 k1 k2 hr1
          (fun n => ⟨fun xs es r hm => (hn n).1 xs es r (by simp [hm]), fun e i hm => (hn n).2 e i (by simp [hm])⟩)
          (fun n xs es r hm => he n xs es r (by simp [hm]))
        exact ⟨n2, z2, l1, l2, .cons k3 l3, by simp [l4]⟩

end

end Verif.Skip
