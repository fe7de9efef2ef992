import Verif.Lemmas.SortedSet6

/-! The calls on a skip list are the calls on its row of cells, crashes included. -/

namespace Verif.Skip

open SkipList Spec

theorem scoreSum_fun {rnd : Rat → F64} {x y z z' : F64} (h : ScoreSum rnd x y z) (h' : ScoreSum rnd x y z') : z = z' := by
  cases h <;> cases h' <;> simp_all

section
variable {s : SkipList} {ns : List Nat} {c : Shelf}

theorem shows_addLoop (draws : Nat → Nat) : ∀ (es : List Bytes) (xs : List F64) (i : Nat) (s : SkipList) (ns : List Nat) (c : Shelf),
    Shows s ns c →
    (addLoop draws i s xs (es.map Str.new) = .panic ∧ c.insertAll draws i xs es = none) ∨
    ∃ s' ns' c', addLoop draws i s xs (es.map Str.new) = .ok s' ∧ c.insertAll draws i xs es = some c' ∧ Shows s' ns' c' := by
  intro es
  induction es with
  | nil => intro xs i s ns c h; exact .inr ⟨s, ns, c, by cases xs <;> rfl, by cases xs <;> rfl, h⟩
  | cons e es ih =>
    intro xs i s ns c h
    cases xs with
    | nil => exact .inr ⟨s, ns, c, rfl, rfl, h⟩
    | cons x xs =>
      simp only [List.map_cons, addLoop, Shelf.insertAll]
      rcases shows_insert h (x := x) (e := Str.new e) (draws i) with ⟨h1, h2⟩ | ⟨s1, n1, c1, h1, h2, h3⟩
      · rw [new_data] at h2
        exact .inl ⟨by rw [h1]; rfl, by rw [h2]; rfl⟩
      · rw [new_data] at h2
        rw [h1, h2]
        simp only [Outcome.bind_ok, Option.bind_some]
        exact ih xs (i + 1) s1 n1 c1 h3

theorem takeOut_absent {e : Bytes} : ∀ {cs : List Cell}, (∀ c ∈ cs, c.entry ≠ some e) → takeOut e cs = cs := by
  intro cs
  induction cs with
  | nil => intro _; rfl
  | cons c cs ih =>
    intro h
    simp only [takeOut, h c (by simp), if_false, ih (fun d hd => h d (by simp [hd]))]

theorem remove_absent (h : Shows s ns c) {e : Bytes} (hg : s.set.get e = none) : c.remove e = c := by
  have hno : ∀ d ∈ c.cells, d.entry ≠ some e := by
    rw [h.cells]
    intro d hd hx
    obtain ⟨a, ha, rfl⟩ := List.mem_map.1 hd
    have := (live_iff h.rep).1 ⟨ha, hx⟩
    rw [hg] at this; simp at this
  unfold Shelf.remove
  rw [takeOut_absent hno]
  have : ¬ c.cells.getLast?.bind (·.entry) = some e := by
    intro hx
    cases hl : c.cells.getLast? with
    | none => rw [hl] at hx; simp at hx
    | some d => rw [hl] at hx; simp at hx; exact hno d (List.mem_of_getLast? hl) hx
  simp only [this, ne_eq, not_false_eq_true, decide_true, Bool.and_true]

theorem shows_del : ∀ (es : List Bytes) (s : SkipList) (ns : List Nat) (c : Shelf), Shows s ns c →
    ∃ s' ns', del s (es.map Str.new) = .ok s' ∧ Shows s' ns' (es.foldl Shelf.remove c) := by
  intro es
  induction es with
  | nil => intro s ns c h; exact ⟨s, ns, rfl, h⟩
  | cons e es ih =>
    intro s ns c h
    simp only [List.map_cons, del, new_data, List.foldl_cons]
    cases hg : s.set.get e with
    | none => rw [remove_absent h hg]; exact ih s ns c h
    | some a =>
      obtain ⟨s1, n1, h1, h2, -⟩ := shows_delete h hg
      simp only [h1, Outcome.bind_ok]
      exact ih s1 n1 _ h2

/-- A call on the list is the call on the row. -/
theorem shows_call {rnd : Rat → F64} {sum : F64 → F64 → F64} (hsum : ∀ x y, ScoreSum rnd x y (sum x y)) (h : Shows s ns c) (op : ZOp)
    (draws : Nat → Nat) :
    (call rnd s op draws = .panic ∧ c.call sum op draws = none) ∨
    ∃ s' ns' c' r, call rnd s op draws = .ok (s', r) ∧ c.call sum op draws = some (c', r) ∧ Shows s' ns' c' := by
  cases op with
  | add xs es =>
    simp only [call, SkipList.add, List.length_map, Shelf.call]
    by_cases hl : xs.length = es.length
    · rw [if_neg (by simpa using hl), if_pos hl]
      rcases shows_addLoop draws es xs 0 s ns c h with ⟨h1, h2⟩ | ⟨s1, n1, c1, h1, h2, h3⟩
      · exact .inl ⟨by rw [h1]; rfl, by rw [h2]; rfl⟩
      · exact .inr ⟨s1, n1, c1, _, by rw [h1]; rfl, by rw [h2]; rfl, h3⟩
    · rw [if_pos (by simpa using hl), if_neg hl]
      exact .inr ⟨s, ns, c, _, rfl, rfl, h⟩
  | del es =>
    obtain ⟨s1, n1, h1, h2⟩ := shows_del es s ns c h
    exact .inr ⟨s1, n1, _, .done, by simp only [call, h1, Outcome.bind_ok], rfl, h2⟩
  | score e =>
    refine .inr ⟨s, ns, c, _, rfl, ?_, h⟩
    simp only [Shelf.call, shows_find h, SkipList.score, new_data]
    cases s.set.get e <;> rfl
  | increaseBy e i =>
    simp only [call, increaseBy, new_data, Shelf.call, shows_find h]
    cases hg : s.set.get e with
    | none => exact .inr ⟨s, ns, c, _, rfl, rfl, h⟩
    | some a =>
      obtain ⟨ha, d, hd, hde⟩ := get_node h.rep hg
      obtain ⟨s1, n1, h1, h2, h3⟩ := shows_delete h hg
      have hs : sum (s.heap a).score i = F64.add rnd (s.heap a).score i := scoreSum_fun (hsum _ _) (scoreSum_add rnd _ _)
      simp only [Option.map_some, h1, hd, Outcome.bind_ok, hs]
      rcases shows_insert h2 (x := F64.add rnd (s.heap a).score i) (e := d) (draws 0) with ⟨g1, g2⟩ | ⟨s2, n2, c2, g1, g2, g3⟩
      · rw [hde] at g2
        exact .inl ⟨by rw [g1]; rfl, by rw [g2]; rfl⟩
      · rw [hde] at g2
        exact .inr ⟨s2, n2, c2, _, by rw [g1]; rfl, by rw [g2]; rfl, g3⟩
  | popMin =>
    simp only [call, popMin, Shelf.call, shows_size h]
    by_cases h0 : s.set.length = 0
    · rw [if_pos h0, if_pos h0]; exact .inr ⟨s, ns, c, _, rfl, rfl, h⟩
    · rw [if_neg h0, if_neg h0]
      cases ns with
      | nil => exact absurd rfl (ne_nil_of_length h.rep h0)
      | cons a D =>
        obtain ⟨sp, hx⟩ := first_node h.rep rfl
        simp only [hx, Outcome.bind_ok, h.cells, List.map_cons, List.head?_cons, Option.bind_some]
        cases hd : (s.heap a).data with
        | none =>
          left
          rw [deleteNode_panic h.rep (by rintro rfl; exact h.rep.tail_notin (by simp)) hd]
          exact ⟨rfl, by simp [cellOf, hd]⟩
        | some d =>
          right
          have hg : s.set.get d.data = some a := (live_iff h.rep).1 ⟨by simp, by simp [hd]⟩
          obtain ⟨s1, n1, h1, h2, -⟩ := shows_delete h hg
          exact ⟨s1, n1, _, .popped (some d.data), by rw [h1]; rfl, by simp [cellOf, hd], h2⟩
  | popMax =>
    simp only [call, Shelf.call, shows_size h]
    by_cases h0 : s.set.length = 0
    · rw [if_pos h0]
      refine .inr ⟨s, ns, c, _, ?_, rfl, h⟩
      unfold popMax; rw [if_pos h0]; rfl
    · rw [if_neg h0]
      obtain ⟨p, p1, p2, p3, p4⟩ := h.prev
      have hp : popMax s = (deleteNode s p >>= fun s' => .ok (s', some (s.heap p).data)) := by
        unfold popMax; rw [if_neg h0, p1]
      by_cases hb : c.back = true
      · rw [if_pos hb]
        obtain ⟨q1, q2⟩ := p3 (p4.1 hb)
        obtain ⟨C, a, rfl⟩ := (nil_or_snoc ns).resolve_left (ne_nil_of_length h.rep h0)
        rw [lastOr_concat] at q1; subst q1
        simp only [h.cells, List.map_append, List.map_cons, List.map_nil, List.getLast?_concat, Option.bind_some]
        cases hd : (s.heap a).data with
        | none => exact absurd hd q2
        | some d =>
          right
          have hg : s.set.get d.data = some a := (live_iff h.rep).1 ⟨by simp, by simp [hd]⟩
          obtain ⟨s1, n1, h1, h2, -⟩ := shows_delete h hg
          exact ⟨s1, n1, _, .popped (some d.data), by rw [hp, h1, hd]; rfl, by simp [cellOf, hd], h2⟩
      · rw [if_neg hb]
        left
        have hpn : p ∉ ns := fun hx => hb (p4.2 hx)
        have hph : p ≠ s.head := fun e => absurd (p2 e) (ne_nil_of_length h.rep h0)
        obtain ⟨q, q1, -, q3, q4⟩ := h.rep.prev
        rw [p1] at q1; cases q1
        have hd : (s.heap p).data = none := by
          rcases q4 with q4 | q4
          · have := lastOr_mem s.head ns
            rw [← q4] at this
            rcases List.mem_cons.1 this with e | e
            · exact absurd e hph
            · exact absurd e hpn
          · exact q4
        rw [hp, deleteNode_panic h.rep q3 hd]; exact ⟨rfl, rfl⟩
  | rank e =>
    simp only [call, Shelf.call, shows_find h]
    cases hg : s.set.get e with
    | none =>
      refine .inr ⟨s, ns, c, .rank none, ?_, by simp, h⟩
      unfold SkipList.rank; rw [new_data, hg]; rfl
    | some a => exact .inl ⟨by rw [rank_panic h.rep hg]; rfl, by simp⟩
  | len =>
    refine .inr ⟨s, ns, c, _, rfl, ?_, h⟩
    simp only [Shelf.call, shows_size h, len]

theorem shows_run {rnd : Rat → F64} {sum : F64 → F64 → F64} (hsum : ∀ x y, ScoreSum rnd x y (sum x y)) :
    ∀ (ops : List (ZOp × (Nat → Nat))) (s : SkipList) (ns : List Nat) (c : Shelf), Shows s ns c →
    (run rnd s ops = .panic ∧ c.run sum ops = none) ∨
    ∃ s' ns' c' hist, run rnd s ops = .ok (s', hist) ∧ c.run sum ops = some (c', hist) ∧ Shows s' ns' c' := by
  intro ops
  induction ops with
  | nil => intro s ns c h; exact .inr ⟨s, ns, c, [], rfl, rfl, h⟩
  | cons p ops ih =>
    obtain ⟨op, draws⟩ := p
    intro s ns c h
    simp only [run, Shelf.run]
    rcases shows_call hsum h op draws with ⟨h1, h2⟩ | ⟨s1, n1, c1, r, h1, h2, h3⟩
    · exact .inl ⟨by rw [h1]; rfl, by rw [h2]; rfl⟩
    · rw [h1, h2]
      simp only [Outcome.bind_ok, Option.bind_some]
      rcases ih s1 n1 c1 h3 with ⟨g1, g2⟩ | ⟨s2, n2, c2, hist, g1, g2, g3⟩
      · exact .inl ⟨by rw [g1]; rfl, by rw [g2]; rfl⟩
      · exact .inr ⟨s2, n2, c2, _, by rw [g1]; rfl, by rw [g2]; rfl, g3⟩

end

end Verif.Skip
