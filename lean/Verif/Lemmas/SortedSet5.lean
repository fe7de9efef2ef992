import Verif.Lemmas.SortedSet4

/-! When the calls on a sorted set do not crash. -/

namespace Verif.Skip

open SkipList Spec

section
variable {s : SkipList} {ns : List Nat}

/-- No node has lost its string. -/
def Clean (s : SkipList) (ns : List Nat) : Prop := ∀ a ∈ ns, (s.heap a).data ≠ none

/-- All nodes are of the full height `K`. -/
def Flat (K : Nat) (s : SkipList) (ns : List Nat) : Prop := s.level ≤ K ∧ (ns ≠ [] → s.level = K) ∧ ∀ a ∈ ns, ht s.heap a = s.level

/-- The back pointer of the tail is right. -/
def BackOk (s : SkipList) (ns : List Nat) : Prop := (s.heap s.tail).prev = some (lastOr s.head ns)

theorem insert_clean (h : Inv False False s ns) (hc : Clean s ns) (x : F64) (e : Str) (k : Nat) :
    ∃ s' ns', SkipList.insert s x e k = .ok s' ∧ Inv False False s' ns' ∧ Clean s' ns' ∧ (BackOk s ns → BackOk s' ns') ∧
      (Flat (getRandomLevel k) s ns → Flat (getRandomLevel k) s' ns') := by
  cases hg : s.set.get e.data with
  | some a => exact ⟨s, ns, by unfold SkipList.insert; rw [hg], h, hc, id, id⟩
  | none =>
    rcases insert_inv h (sc := x) (e := e) k hg (by simp) (by simp) with ⟨-, w, hw, hw'⟩ |
      ⟨s', C, D, rfl, h1, h2, -, h4, h5, h6, h7, h8, h9, h10, h11⟩
    · exact absurd hw' (hc w hw)
    · have hf : ∀ a ∈ C ++ D, a ≠ s.fresh := by rintro a ha rfl; exact h.rep.fresh_notin (by simp at ha ⊢; tauto)
      have hmem : ∀ a ∈ C ++ s.fresh :: D, a = s.fresh ∨ a ∈ C ++ D := by intro a ha; simp at ha ⊢; tauto
      refine ⟨s', _, h1, h2, ?_, ?_, ?_⟩
      · intro a ha
        rcases hmem a ha with rfl | ha
        · rw [h4]; simp
        · rw [h5 a (hf a ha)]; exact hc a ha
      · intro hb
        unfold BackOk at hb ⊢
        rw [h9, h11, h10, hb]
        rcases nil_or_snoc D with rfl | ⟨D', y, rfl⟩
        · simp
        · rw [if_neg (by simp)]
          have e1 : C ++ (D' ++ [y]) = (C ++ D') ++ [y] := by simp
          have e2 : C ++ s.fresh :: (D' ++ [y]) = (C ++ s.fresh :: D') ++ [y] := by simp
          rw [e1, e2, lastOr_concat, lastOr_concat]
      · rintro ⟨f1, f2, f3⟩
        have hlev : s'.level = getRandomLevel k := by rw [h6]; omega
        refine ⟨by omega, fun _ => hlev, ?_⟩
        intro a ha
        rcases hmem a ha with rfl | ha
        · exact h8
        · rw [h7 a (hf a ha), f3 a ha, hlev]
          exact f2 (by rintro e; rw [e] at ha; simp at ha)

theorem delete_clean (h : Inv False False s ns) (hc : Clean s ns) {K : Nat} (hfl : Flat K s ns) {a : Nat} {d : Str} (ha : a ∈ ns)
    (hd : (s.heap a).data = some d) :
    ∃ s' ns', deleteNode s a = .ok s' ∧ Inv False False s' ns' ∧ Clean s' ns' ∧ Flat K s' ns' := by
  obtain ⟨s', ns', h1, h2, -, -, h5, h6, h7, h8⟩ := delete_inv h ha hd
  obtain ⟨f1, f2, f3⟩ := hfl
  rcases h8 with ⟨C, D, rfl, rfl⟩ | ⟨-, h8⟩
  · have hmem : ∀ b ∈ C ++ D, b ∈ C ++ a :: D ∧ b ≠ a := by
      intro b hb
      refine ⟨by simp at hb ⊢; tauto, ?_⟩
      rintro rfl
      have := (List.nodup_cons.1 h.rep.nodup').2
      rw [List.nodup_middle] at this
      exact (List.nodup_cons.1 this).1 hb
    have hK := f2 (by simp)
    have hge : ∀ b ∈ C ++ D, s'.level = K := by
      intro b hb
      have h3 := (h2.rep.hts b hb).2
      rw [h7, f3 b (hmem b hb).1] at h3
      omega
    refine ⟨s', C ++ D, h1, h2, ?_, by omega, ?_, ?_⟩
    · intro b hb; rw [h6, if_neg (hmem b hb).2]; exact hc b (hmem b hb).1
    · intro hne
      obtain ⟨b, hb⟩ := List.exists_mem_of_ne_nil _ hne
      exact hge b hb
    · intro b hb
      rw [h7, f3 b (hmem b hb).1, hge b hb, hK]
  · rw [f3 a ha] at h8; omega

theorem addLoop_clean (J : SkipList → List Nat → Prop) (draws : Nat → Nat)
    (hJ : ∀ s ns x e i, Inv False False s ns → J s ns → ∃ s' ns', SkipList.insert s x e (draws i) = .ok s' ∧ Inv False False s' ns' ∧ J s' ns') :
    ∀ (es : List Str) (xs : List F64) (i : Nat) (s : SkipList) (ns : List Nat), Inv False False s ns → J s ns →
      ∃ s' ns', addLoop draws i s xs es = .ok s' ∧ Inv False False s' ns' ∧ J s' ns' := by
  intro es
  induction es with
  | nil => intro xs i s ns h hj; exact ⟨s, ns, by cases xs <;> rfl, h, hj⟩
  | cons e es ih =>
    intro xs i s ns h hj
    cases xs with
    | nil => exact ⟨s, ns, rfl, h, hj⟩
    | cons x xs =>
      obtain ⟨s1, n1, h1, h2, h3⟩ := hJ s ns x e i h hj
      obtain ⟨s2, n2, k1, k2, k3⟩ := ih xs (i + 1) s1 n1 h2 h3
      exact ⟨s2, n2, by simp [addLoop, h1, k1], k2, k3⟩

theorem add_clean (J : SkipList → List Nat → Prop) (draws : Nat → Nat)
    (hJ : ∀ s ns x e i, Inv False False s ns → J s ns → ∃ s' ns', SkipList.insert s x e (draws i) = .ok s' ∧ Inv False False s' ns' ∧ J s' ns')
    (rnd : Rat → F64) (xs : List F64) (es : List Bytes) (h : Inv False False s ns) (hj : J s ns) :
    ∃ s' r ns', call rnd s (.add xs es) draws = .ok (s', r) ∧ Inv False False s' ns' ∧ J s' ns' := by
  by_cases hl : xs.length = es.length
  · obtain ⟨s1, n1, h1, h2, h3⟩ := addLoop_clean J draws hJ (es.map Str.new) xs 0 s ns h hj
    exact ⟨s1, _, n1, by simp [call, SkipList.add, hl, h1]; rfl, h2, h3⟩
  · exact ⟨s, _, ns, by simp [call, SkipList.add, hl]; rfl, h, hj⟩

theorem del_clean {K : Nat} : ∀ (es : List Str) (s : SkipList) (ns : List Nat), Inv False False s ns → Clean s ns → Flat K s ns →
    ∃ s' ns', del s es = .ok s' ∧ Inv False False s' ns' ∧ Clean s' ns' ∧ Flat K s' ns' := by
  intro es
  induction es with
  | nil => intro s ns h hc hf; exact ⟨s, ns, rfl, h, hc, hf⟩
  | cons e es ih =>
    intro s ns h hc hf
    cases hg : s.set.get e.data with
    | none => obtain ⟨s', n', k⟩ := ih s ns h hc hf; exact ⟨s', n', by simp only [del, hg]; exact k.1, k.2⟩
    | some a =>
      obtain ⟨ha, d, hd, -⟩ := get_node h.rep hg
      obtain ⟨s1, n1, h1, h2, h3, h4⟩ := delete_clean h hc hf ha hd
      obtain ⟨s', n', k⟩ := ih s1 n1 h2 h3 h4
      exact ⟨s', n', by simp only [del, hg, h1, Outcome.bind_ok]; exact k.1, k.2⟩

/-- With all insertions at one level, the basic calls do not crash. -/
theorem call_flat (rnd : Rat → F64) {k : Nat} {op : ZOp} (hop : Basic op) {draws : Nat → Nat} (hd : ∀ i, draws i = k)
    (h : Inv False False s ns) (hc : Clean s ns) (hf : Flat (getRandomLevel k) s ns) :
    ∃ s' r ns', call rnd s op draws = .ok (s', r) ∧ Inv False False s' ns' ∧ Clean s' ns' ∧ Flat (getRandomLevel k) s' ns' := by
  cases op with
  | add xs es =>
    exact add_clean (fun s ns => Clean s ns ∧ Flat (getRandomLevel k) s ns) draws (fun s ns x e i h hj => by
      obtain ⟨s', ns', h1, h2, h3, -, h5⟩ := insert_clean h hj.1 x e (draws i)
      rw [hd i] at h5
      exact ⟨s', ns', h1, h2, h3, h5 hj.2⟩) rnd xs es h ⟨hc, hf⟩
  | del es =>
    obtain ⟨s', n', h1, h2⟩ := del_clean (es.map Str.new) s ns h hc hf
    exact ⟨s', _, n', by simp only [call, h1, Outcome.bind_ok]; rfl, h2⟩
  | score e => exact ⟨s, _, ns, rfl, h, hc, hf⟩
  | increaseBy e i =>
    cases hg : s.set.get e with
    | none => exact ⟨s, _, ns, by simp only [call, increaseBy, new_data, hg, Outcome.bind_ok]; rfl, h, hc, hf⟩
    | some a =>
      obtain ⟨ha, d, hda, -⟩ := get_node h.rep hg
      obtain ⟨s1, n1, h1, h2, h3, h4⟩ := delete_clean h hc hf ha hda
      obtain ⟨s2, n2, k1, k2, k3, -, k5⟩ := insert_clean h2 h3 (F64.add rnd (s.heap a).score i) d (draws 0)
      rw [hd 0] at k5
      exact ⟨s2, _, n2, by simp only [call, increaseBy, new_data, hg, h1, hda, k1, Outcome.bind_ok]; rfl, k2, k3, k5 h4⟩
  | popMin =>
    by_cases h0 : s.set.length = 0
    · exact ⟨s, _, ns, by simp only [call, popMin, h0, if_true, Outcome.bind_ok]; rfl, h, hc, hf⟩
    · cases ns with
      | nil => exact absurd rfl (ne_nil_of_length h.rep h0)
      | cons a D =>
        obtain ⟨sp, hx⟩ := first_node h.rep rfl
        cases hda : (s.heap a).data with
        | none => exact absurd hda (hc a (by simp))
        | some d =>
          obtain ⟨s1, n1, h1, h2, h3, h4⟩ := delete_clean h hc hf (a := a) (by simp) hda
          exact ⟨s1, _, n1, by simp only [call, popMin, h0, if_false, hx, h1, hda, Outcome.bind_ok]; rfl, h2, h3, h4⟩
  | popMax => simp [Basic] at hop
  | rank e => simp [Basic] at hop
  | len => exact ⟨s, _, ns, rfl, h, hc, hf⟩

theorem run_flat (rnd : Rat → F64) {k : Nat} : ∀ (ops : List (ZOp × (Nat → Nat))) (s : SkipList) (ns : List Nat),
    (∀ p ∈ ops, Basic p.1 ∧ ∀ i, p.2 i = k) → Inv False False s ns → Clean s ns → Flat (getRandomLevel k) s ns →
    ∃ s' hist, run rnd s ops = .ok (s', hist) := by
  intro ops
  induction ops with
  | nil => intro s ns _ _ _ _; exact ⟨s, [], rfl⟩
  | cons p ops ih =>
    obtain ⟨op, draws⟩ := p
    intro s ns hops h hc hf
    obtain ⟨s1, r, n1, h1, h2, h3, h4⟩ := call_flat rnd (hops (op, draws) (by simp)).1 (hops (op, draws) (by simp)).2 h hc hf
    obtain ⟨s2, hi, h5⟩ := ih s1 n1 (fun p hp => hops p (by simp [hp])) h2 h3 h4
    exact ⟨s2, (op, r) :: hi, by simp [run, h1, h5]⟩

/-- Calls that take nothing out do not crash and keep the back pointer right. -/
theorem call_keeps (rnd : Rat → F64) {op : ZOp} (hop : Keeps op) (draws : Nat → Nat)
    (h : Inv False False s ns) (hc : Clean s ns) (hb : BackOk s ns) :
    ∃ s' r ns', call rnd s op draws = .ok (s', r) ∧ Inv False False s' ns' ∧ Clean s' ns' ∧ BackOk s' ns' := by
  cases op with
  | add xs es =>
    exact add_clean (fun s ns => Clean s ns ∧ BackOk s ns) draws (fun s ns x e i h hj => by
      obtain ⟨s', ns', h1, h2, h3, h4, -⟩ := insert_clean h hj.1 x e (draws i)
      exact ⟨s', ns', h1, h2, h3, h4 hj.2⟩) rnd xs es h ⟨hc, hb⟩
  | score e => exact ⟨s, _, ns, rfl, h, hc, hb⟩
  | len => exact ⟨s, _, ns, rfl, h, hc, hb⟩
  | del _ | increaseBy _ _ | popMin | popMax | rank _ => simp [Keeps] at hop

theorem run_keeps (rnd : Rat → F64) : ∀ (ops : List (ZOp × (Nat → Nat))) (s : SkipList) (ns : List Nat),
    (∀ p ∈ ops, Keeps p.1) → Inv False False s ns → Clean s ns → BackOk s ns →
    ∃ s' hist ns', run rnd s ops = .ok (s', hist) ∧ Inv False False s' ns' ∧ Clean s' ns' ∧ BackOk s' ns' := by
  intro ops
  induction ops with
  | nil => intro s ns _ h hc hb; exact ⟨s, [], ns, rfl, h, hc, hb⟩
  | cons p ops ih =>
    obtain ⟨op, draws⟩ := p
    intro s ns hops h hc hf
    obtain ⟨s1, r, n1, h1, h2, h3, h4⟩ := call_keeps rnd (hops (op, draws) (by simp)) draws h hc hf
    obtain ⟨s2, hi, n2, h5, h6⟩ := ih s1 n1 (fun p hp => hops p (by simp [hp])) h2 h3 h4
    exact ⟨s2, (op, r) :: hi, n2, by simp [run, h1, h5], h6⟩

/-- A pop from either end of a set in good shape does not crash. -/
theorem pop_keeps (rnd : Rat → F64) (draws : Nat → Nat) (h : Inv False False s ns) (hc : Clean s ns) (hb : BackOk s ns) {op : ZOp}
    (hop : op = .popMin ∨ op = .popMax) : ∃ s' r, call rnd s op draws = .ok (s', r) := by
  by_cases h0 : s.set.length = 0
  · rcases hop with rfl | rfl
    · exact ⟨s, _, by simp only [call, popMin, h0, if_true, Outcome.bind_ok]; rfl⟩
    · exact ⟨s, _, by simp only [call, popMax, h0, if_true, Outcome.bind_ok]; rfl⟩
  · have hne := ne_nil_of_length h.rep h0
    rcases hop with rfl | rfl
    · cases ns with
      | nil => exact absurd rfl hne
      | cons a D =>
        obtain ⟨sp, hx⟩ := first_node h.rep rfl
        cases hda : (s.heap a).data with
        | none => exact absurd hda (hc a (by simp))
        | some d =>
          obtain ⟨s1, n1, h1, -⟩ := delete_inv h (node := a) (by simp) hda
          exact ⟨s1, _, by simp only [call, popMin, h0, if_false, hx, h1, hda, Outcome.bind_ok]; rfl⟩
    · obtain ⟨C, a, rfl⟩ := (nil_or_snoc ns).resolve_left hne
      unfold BackOk at hb
      rw [lastOr_concat] at hb
      cases hda : (s.heap a).data with
      | none => exact absurd hda (hc a (by simp))
      | some d =>
        obtain ⟨s1, n1, h1, -⟩ := delete_inv h (node := a) (by simp) hda
        exact ⟨s1, _, by simp only [call, popMax, h0, if_false, hb, h1, hda, Outcome.bind_ok]; rfl⟩

theorem insert_total (h : Inv False False s ns) (x : F64) (e : Str) (k : Nat) :
    SkipList.insert s x e k = .panic ∨ ∃ s' ns', SkipList.insert s x e k = .ok s' ∧ Inv False False s' ns' := by
  cases hg : s.set.get e.data with
  | some a => exact .inr ⟨s, ns, by unfold SkipList.insert; rw [hg], h⟩
  | none =>
    rcases insert_inv h (sc := x) (e := e) k hg (by simp) (by simp) with ⟨h1, -⟩ | ⟨s', C, D, -, h1, h2, -⟩
    · exact .inl h1
    · exact .inr ⟨s', _, h1, h2⟩

theorem addLoop_total (draws : Nat → Nat) : ∀ (es : List Str) (xs : List F64) (i : Nat) (s : SkipList) (ns : List Nat),
    Inv False False s ns → addLoop draws i s xs es ≠ .diverge := by
  intro es
  induction es with
  | nil => intro xs i s ns h; cases xs <;> simp [addLoop]
  | cons e es ih =>
    intro xs i s ns h
    cases xs with
    | nil => simp [addLoop]
    | cons x xs =>
      rcases insert_total h x e (draws i) with h1 | ⟨s1, n1, h1, h2⟩
      · simp [addLoop, h1]
      · simpa [addLoop, h1] using ih xs (i + 1) s1 n1 h2

theorem del_total : ∀ (es : List Str) (s : SkipList) (ns : List Nat), Inv False False s ns → del s es ≠ .diverge := by
  intro es
  induction es with
  | nil => intro s ns h; simp [del]
  | cons e es ih =>
    intro s ns h
    cases hg : s.set.get e.data with
    | none => simpa [del, hg] using ih s ns h
    | some a =>
      obtain ⟨ha, d, hd, -⟩ := get_node h.rep hg
      obtain ⟨s1, n1, h1, h2, -⟩ := delete_inv h ha hd
      simpa [del, hg, h1] using ih s1 n1 h2

/-- Every call comes to an end. -/
theorem call_total (rnd : Rat → F64) (h : Inv False False s ns) (op : ZOp) (draws : Nat → Nat) : call rnd s op draws ≠ .diverge := by
  cases op with
  | add xs es =>
    simp only [call, SkipList.add]
    split
    · simp
    · have := addLoop_total draws (es.map Str.new) xs 0 s ns h
      cases e : addLoop draws 0 s xs (es.map Str.new) <;> simp_all
  | del es =>
    have := del_total (es.map Str.new) s ns h
    simp only [call]
    cases e : del s (es.map Str.new) <;> simp_all
  | score e => simp [call]
  | increaseBy e i =>
    cases hg : s.set.get e with
    | none => simp [call, increaseBy, new_data, hg]
    | some a =>
      obtain ⟨ha, d, hda, -⟩ := get_node h.rep hg
      obtain ⟨s1, n1, h1, h2, -⟩ := delete_inv h ha hda
      rcases insert_total h2 (F64.add rnd (s.heap a).score i) d (draws 0) with h3 | ⟨s2, n2, h3, -⟩
      · simp [call, increaseBy, new_data, hg, h1, hda, h3]
      · simp [call, increaseBy, new_data, hg, h1, hda, h3]
  | popMin =>
    by_cases h0 : s.set.length = 0
    · simp [call, popMin, h0]
    · cases ns with
      | nil => exact absurd rfl (ne_nil_of_length h.rep h0)
      | cons a D =>
        obtain ⟨sp, hx⟩ := first_node h.rep rfl
        cases hda : (s.heap a).data with
        | none =>
          have := deleteNode_panic h.rep (node := a) (by rintro rfl; exact h.rep.tail_notin (by simp)) hda
          simp [call, popMin, h0, hx, this]
        | some d =>
          obtain ⟨s1, n1, h1, -⟩ := delete_inv h (node := a) (by simp) hda
          simp [call, popMin, h0, hx, h1]
  | popMax =>
    by_cases h0 : s.set.length = 0
    · simp [call, popMax, h0]
    · rcases popMax_cases h.rep h0 with hp | ⟨C, a, d, rfl, hda, hp⟩
      · simp [call, hp]
      · obtain ⟨s1, n1, h1, -⟩ := delete_inv h (node := a) (by simp) hda
        simp [call, popMax, h0, hp, h1]
  | rank e =>
    cases hg : s.set.get e with
    | none => simp [call, SkipList.rank, new_data, hg]
    | some a => simp [call, rank_panic h.rep hg]
  | len => simp [call]

theorem run_total (rnd : Rat → F64) : ∀ (ops : List (ZOp × (Nat → Nat))) (s : SkipList) (ns : List Nat) (z : ZMap), Inv False False s ns →
    Sim z s → run rnd s ops ≠ .diverge := by
  intro ops
  induction ops with
  | nil => intro s ns z _ _; simp [run]
  | cons p ops ih =>
    obtain ⟨op, draws⟩ := p
    intro s ns z h hz
    have h1 := call_total rnd h op draws
    simp only [run]
    cases e : call rnd s op draws with
    | panic => simp
    | diverge => exact absurd e h1
    | ok q =>
      obtain ⟨s1, r⟩ := q
      obtain ⟨n1, z1, k1, k2, -⟩ := call_spec rnd h hz e (by simp) (by simp)
      have h2 := ih s1 n1 z1 k1 k2
      simp only [Outcome.bind_ok]
      cases e2 : run rnd s1 ops with
      | panic => simp
      | diverge => exact absurd e2 h2
      | ok q => simp

end

theorem clean_new : Clean SkipList.new [] := by simp [Clean]
theorem flat_new (k : Nat) : Flat (getRandomLevel k) SkipList.new [] :=
  ⟨(getRandomLevel_bounds k).1, by simp, by simp⟩
theorem backOk_new : BackOk SkipList.new [] := by simp [BackOk, SkipList.new]

end Verif.Skip
