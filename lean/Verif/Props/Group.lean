import Verif.Spec.Group
import Verif.Lemmas.Isolation
import Verif.Props.Register
import Verif.Props.Journal

/-! # C101 – users who keep to their own keys -/

namespace Verif.Props

open Spec
open Fut (upd)

variable {ω : Nat → Nat} {U : Nat → Bool} {d : Bytes} {st : State}

/-! ### The requests of the group alone -/

/-- A command leaves alone the keys its request does not write. -/
theorem step_undisturbed {P : Space → Bytes → Prop} {a a1 : DB} {q : List Resp} {c : Command} {x : Except CmdErr Resp} (hm : Means q c) (hs : Step a c (some (a1, x)))
    (hP : ∀ sp k, Writes sp q k → ¬ P sp k) : AgreeOn P a1 a := by
  obtain ⟨f1, f2, f3⟩ := step_frame hm hs
  refine ⟨fun k hk => f1 k fun h => hP _ _ h hk, fun k hk => f2 k fun h => hP _ _ h hk, fun k hk => ?_, fun k hk => f3 k fun h => hP _ _ h hk⟩
  have ho := step_outline (requestCommand_valid (means_command hm)) hs
  generalize hy : (some (a1, x) : Out) = y at ho
  cases ho with
  | done _ hsb _ =>
    cases hy
    exact hsb.2.2.1 k fun h => hP _ _ (hashKeys_writes hm h) hk
  | fails _ => cases hy; rfl
  | @bare k' hc _ =>
    cases hy
    have : k ≠ k' := by
      rintro rfl
      exact hP _ _ (hashKeys_writes hm (by simp [hashKeys, hc])) hk
    simp [DB.setHash, this]
  | crash _ => cases hy

/-- Some requests are those of the group (`true`); what the others write is no key of the group. Then the replies to the group are those to its requests alone. -/
theorem group_trace {P : Space → Bytes → Prop} {es : List (Bool × List Resp × Resp)} {a a' b : DB} (ht : Trace a (es.map fun e => e.2.1) (es.map fun e => e.2.2) a')
    (hab : AgreeOn P a b) (hn : ∀ e ∈ es, e.1 = true → ∀ sp k, Names sp e.2.1 k → P sp k) (hw : ∀ e ∈ es, e.1 = false → ∀ sp k, Writes sp e.2.1 k → ¬ P sp k) :
    ∃ b', Trace b ((es.filter (·.1)).map fun e => e.2.1) ((es.filter (·.1)).map fun e => e.2.2) b' ∧ AgreeOn P a' b' := by
  induction es generalizing a b with
  | nil => cases ht; exact ⟨b, .nil b, hab⟩
  | cons e es ih =>
    obtain ⟨g, q, r⟩ := e
    simp only [List.map_cons] at ht
    obtain ⟨a1, r', rs', e1, h1, h2⟩ := trace_uncons ht
    cases e1
    have ih' := fun b h => ih (b := b) h1 h (fun e he => hn e (by simp [he])) fun e he => hw e (by simp [he])
    cases g with
    | true =>
      have hn := hn _ List.mem_cons_self rfl
      simp only [List.filter_cons, if_true, List.map_cons]
      rcases h2 with ⟨c, g1, g2⟩ | ⟨c, e, g1, g2, g3⟩ | ⟨g1, rfl, t, rfl⟩
      · obtain ⟨b', k1, k2⟩ := ih' _ (agree_patch (b := b))
        exact ⟨b', .ok g1 (step_agree g1 hn hab g2) k1, k2⟩
      · obtain ⟨b', k1, k2⟩ := ih' _ (agree_patch (b := b))
        exact ⟨b', .err g1 (step_agree g1 hn hab g2) g3 k1, k2⟩
      · obtain ⟨b', k1, k2⟩ := ih' b hab
        exact ⟨b', .bad g1 k1, k2⟩
    | false =>
      have hw := hw _ List.mem_cons_self rfl
      simp only [List.filter_cons, Bool.false_eq_true, if_false]
      rcases h2 with ⟨c, g1, g2⟩ | ⟨c, e, g1, g2, g3⟩ | ⟨g1, rfl, t, rfl⟩
      · exact ih' b ((step_undisturbed g1 g2 hw).trans hab)
      · exact ih' b ((step_undisturbed g1 g2 hw).trans hab)
      · exact ih' b hab

/-- How many of the group's requests are before a place. -/
def groupRank (es : List (Bool × List Resp × Resp)) (p : Nat) : Nat := ((es.take p).filter (·.1)).length

theorem groupRank_at {es : List (Bool × List Resp × Resp)} {p : Nat} {e : Bool × List Resp × Resp} (h : es[p]? = some e) (he : e.1 = true) :
    (es.filter (·.1))[groupRank es p]? = some e := by
  induction es generalizing p with
  | nil => simp at h
  | cons x es ih =>
    cases p with
    | zero =>
      simp only [List.getElem?_cons_zero, Option.some.injEq] at h
      subst h
      simp [groupRank, List.filter_cons, he]
    | succ p =>
      have := ih (p := p) (by simpa using h)
      by_cases hx : x.1 = true
      · simpa [groupRank, List.filter_cons, hx] using this
      · simpa [groupRank, List.filter_cons, hx] using this

theorem groupRank_lt {es : List (Bool × List Resp × Resp)} {p p' : Nat} {e : Bool × List Resp × Resp} (h : es[p]? = some e) (he : e.1 = true) (hlt : p < p') :
    groupRank es p < groupRank es p' := by
  obtain ⟨hp, rfl⟩ := List.getElem?_eq_some_iff.1 h
  have e' : es.take p' = es.take (p + 1) ++ (es.take p').drop (p + 1) := by
    have := (List.take_append_drop (p + 1) (es.take p')).symm
    rwa [List.take_take, Nat.min_eq_left (by omega)] at this
  have e1 : es.take (p + 1) = es.take p ++ [es[p]] := by simp
  unfold groupRank
  rw [e', e1, List.filter_append, List.filter_append]
  simp [he]

theorem groupRank_onto {es : List (Bool × List Resp × Resp)} {q : Nat} (h : q < (es.filter (·.1)).length) : ∃ p e, es[p]? = some e ∧ e.1 = true ∧ groupRank es p = q := by
  induction es generalizing q with
  | nil => simp at h
  | cons x es ih =>
    by_cases hx : x.1 = true
    · cases q with
      | zero => exact ⟨0, x, rfl, hx, rfl⟩
      | succ q =>
        obtain ⟨p, e, h1, h2, h3⟩ := ih (q := q) (by simpa [List.filter_cons, hx] using h)
        exact ⟨p + 1, e, by simpa using h1, h2, by simpa [groupRank, List.filter_cons, hx] using h3⟩
    · obtain ⟨p, e, h1, h2, h3⟩ := ih (q := q) (by simpa [List.filter_cons, hx] using h)
      exact ⟨p + 1, e, by simpa using h1, h2, by simpa [groupRank, List.filter_cons, hx] using h3⟩

/-! ### What the users of the group see -/

open Classical in
/-- The executed requests and their replies, those of the group marked. -/
noncomputable def flagged (G : Nat → Bool) (tr : List Desk.Ev) (qs : List (List Resp)) : List (Bool × List Resp × Resp) :=
  ((doneIn (seenIn (serverOf tr))).zip qs).map fun x => (decide (∃ c o, G c = true ∧ (x.1.1, o) ∈ askedBy c (seenIn (serverOf tr))), x.2, x.1.2.2)

theorem flagged_requests {G : Nat → Bool} {tr : List Desk.Ev} {qs : List (List Resp)} (hlen : (doneIn (seenIn (serverOf tr))).length = qs.length) :
    (flagged G tr qs).map (fun e => e.2.1) = qs := by
  simp only [flagged, List.map_map]
  exact List.map_snd_zip (by omega)

theorem flagged_replies {G : Nat → Bool} {tr : List Desk.Ev} {qs : List (List Resp)} (hlen : (doneIn (seenIn (serverOf tr))).length = qs.length) :
    (flagged G tr qs).map (fun e => e.2.2) = (doneIn (seenIn (serverOf tr))).map fun x => x.2.2 := by
  have : ((doneIn (seenIn (serverOf tr))).zip qs).map Prod.fst = doneIn (seenIn (serverOf tr)) := List.map_fst_zip (by omega)
  conv => rhs; rw [← this]
  simp only [flagged, List.map_map]
  rfl

theorem flagged_at {G : Nat → Bool} {tr : List Desk.Ev} {qs : List (List Resp)} (q1 : List.Forall₂ (RequestOf tr) (doneIn (seenIn (serverOf tr))) qs) {p : Nat}
    {e : Bool × List Resp × Resp} (he : (flagged G tr qs)[p]? = some e) : ∃ x, (doneIn (seenIn (serverOf tr)))[p]? = some x ∧ RequestOf tr x e.2.1 ∧
      (e.1 = true ↔ ∃ c o, G c = true ∧ (x.1, o) ∈ askedBy c (seenIn (serverOf tr))) := by
  obtain ⟨hl, rfl⟩ := List.getElem?_eq_some_iff.1 he
  have hl' : p < (doneIn (seenIn (serverOf tr))).length := by simp [flagged] at hl; omega
  have hl2 : p < qs.length := by have := q1.length_eq; omega
  refine ⟨_, List.getElem?_eq_getElem hl', ?_, ?_⟩
  · simp only [flagged, List.getElem_map, List.getElem_zip]
    exact (List.forall₂_iff_get.1 q1).2 p hl' hl2
  · simp only [flagged, List.getElem_map, List.getElem_zip, decide_eq_true_eq]

/-- What is marked was asked by the group, and the rest was not. -/
theorem flagged_by {G : Nat → Bool} {tr : List Desk.Ev} {n : Net.Sys} (hn : Exec Net.Step (Net.new st) (seenIn (serverOf tr)) n) {qs : List (List Resp)}
    (q1 : List.Forall₂ (RequestOf tr) (doneIn (seenIn (serverOf tr))) qs) : ∀ e ∈ flagged G tr qs, ∃ c, G c = e.1 ∧ RanBy tr c e.2.1 := by
  intro e he
  obtain ⟨p, hp, rfl⟩ := List.getElem_of_mem he
  obtain ⟨x, hx, ⟨c, o, h2, h3⟩, h4⟩ := flagged_at q1 (List.getElem?_eq_getElem hp)
  refine ⟨c, ?_, x, List.mem_of_getElem? hx, o, h2, h3⟩
  rw [Bool.eq_iff_iff, h4]
  refine ⟨fun h => ⟨c, o, h, h2⟩, fun ⟨c', o', h5, h6⟩ => ?_⟩
  obtain ⟨rfl, rfl⟩ := asked_unique hn h2 h6
  exact h5

theorem flagged_lines {G : Nat → Bool} {tr : List Desk.Ev} {qs : List (List Resp)} (q1 : List.Forall₂ (RequestOf tr) (doneIn (seenIn (serverOf tr))) qs) {place : Nat → Nat → Nat}
    (hat : ∀ c i, U c = true → i < (shownTo c tr).length → ∃ e o, (doneIn (seenIn (serverOf tr)))[place c i]? = some e ∧ (e.1, o) ∈ askedBy c (seenIn (serverOf tr)))
    {c i : Nat} (hu : (U c && G c) = true) (hi : i < (shownTo c tr).length) : ∃ e, (flagged G tr qs)[place c i]? = some e ∧ e.1 = true := by
  simp only [Bool.and_eq_true] at hu
  obtain ⟨x, o, g1, g2⟩ := hat c i hu.1 hi
  have hl := (List.getElem?_eq_some_iff.1 g1).1
  have hl' : place c i < (flagged G tr qs).length := by have := q1.length_eq; simp [flagged]; omega
  obtain ⟨x', h1, -, h2⟩ := flagged_at q1 (List.getElem?_eq_getElem hl')
  rw [g1] at h1
  cases h1
  exact ⟨_, List.getElem?_eq_getElem hl', h2.2 ⟨c, o, hu.2, g2⟩⟩

/-- The marked requests explain what the users of the group see. -/
theorem flagged_one {G : Nat → Bool} {tr : List Desk.Ev} {qs : List (List Resp)} (q1 : List.Forall₂ (RequestOf tr) (doneIn (seenIn (serverOf tr))) qs) {place : Nat → Nat → Nat}
    (hp : OneDatabase U tr qs ((doneIn (seenIn (serverOf tr))).map fun x => x.2.2) place)
    (hat : ∀ c i, U c = true → i < (shownTo c tr).length → ∃ e o, (doneIn (seenIn (serverOf tr)))[place c i]? = some e ∧ (e.1, o) ∈ askedBy c (seenIn (serverOf tr))) :
    OneDatabase (fun c => U c && G c) tr (((flagged G tr qs).filter (·.1)).map fun e => e.2.1) (((flagged G tr qs).filter (·.1)).map fun e => e.2.2)
      fun c i => groupRank (flagged G tr qs) (place c i) := by
  have hsel := fun {c i} => flagged_lines (G := G) q1 hat (c := c) (i := i)
  refine ⟨?_, ?_, ?_⟩
  · intro c i r hu hi
    obtain ⟨e, g1, g2⟩ := hsel hu (List.getElem?_eq_some_iff.1 hi).1
    obtain ⟨l, ws, k1, k2, k3, k4⟩ := hp.each c i r (by simp only [Bool.and_eq_true] at hu; exact hu.1) hi
    have g3 := groupRank_at g1 g2
    rw [← flagged_requests (G := G) q1.length_eq, List.getElem?_map, g1] at k3
    rw [← flagged_replies (G := G) q1.length_eq, List.getElem?_map, g1] at k4
    exact ⟨l, ws, k1, k2, by rw [List.getElem?_map, g3]; exact k3, by rw [List.getElem?_map, g3]; exact k4⟩
  · intro c c' i j hu hu' hi hj he
    obtain ⟨e, g1, g2⟩ := hsel hu hi
    obtain ⟨e', g1', g2'⟩ := hsel hu' hj
    simp only [Bool.and_eq_true] at hu hu'
    refine hp.distinct c c' i j hu.1 hu'.1 hi hj ?_
    rcases Nat.lt_trichotomy (place c i) (place c' j) with hlt | e | hlt
    · have := groupRank_lt g1 g2 hlt
      omega
    · exact e
    · have := groupRank_lt g1' g2' hlt
      omega
  · intro before after c c' i j htr hu hu' hi hj hj'
    have hi' : i < (shownTo c tr).length := by rw [htr, shownTo_append, List.length_append]; omega
    obtain ⟨e, g1, g2⟩ := hsel hu hi'
    simp only [Bool.and_eq_true] at hu hu'
    exact groupRank_lt g1 g2 (hp.inTime before after c c' i j htr hu.1 hu'.1 hi hj hj')

/-- The requests of the group explain what its users see; and each of them that came from a user is a line of that user. -/
theorem group_explained_on {P : Space → Bytes → Prop} {a0 : DB} (h0 : Abs st a0) {tr : List Desk.Ev} {s : Desk.Sys} (h : Exec (Desk.Step ω U) (Desk.new d st) tr s)
    (ho : ∀ x ∈ doneIn (seenIn (serverOf tr)), x.2.1.ord.Fair ∧ Sized x.2.2) {G : Nat → Bool}
    (hP : ∀ c objs sp k, G c = true → RanBy tr c objs → Names sp objs k → P sp k) (hg : ∀ c objs sp k, G c = false → RanBy tr c objs → Writes sp objs k → ¬ P sp k) :
    ∃ qs rs place a b, Trace a0 qs rs b ∧ OneDatabase (fun c => U c && G c) tr qs rs place ∧ (∀ q ∈ qs, ∃ c, G c = true ∧ RanBy tr c q) ∧
      Abs s.full.whole.hub.db a ∧ AgreeOn P a b ∧
      ∀ q < qs.length, ∃ c, G c = true ∧ (U c = true → ∃ i, place c i = q ∧ i < (typedBy c tr).length ∧
        ∀ (before after : List Desk.Ev) (i' : Nat), tr = before ++ after → i' < (shownTo c before).length → (typedBy c before).length ≤ i → place c i' < q) := by
  have hfx := C85_parts h
  obtain ⟨n, hn, -, hdb⟩ := (C82_parts hfx).2.1
  obtain ⟨qs, a, q1, q2, q3⟩ := C70_sequential h0 hn fun x hx => (ho x hx).1
  obtain ⟨place, hp, -, hat, hback⟩ := explains_all (U := U) h0 h ho q1
  have hby := flagged_by (G := G) hn q1
  obtain ⟨b, t1, t2⟩ := group_trace (P := P) (es := flagged G tr qs) (b := a0) (by rw [flagged_requests q1.length_eq, flagged_replies q1.length_eq]; exact q2) .refl
    (fun e he hb sp k hk => by obtain ⟨c, g1, g2⟩ := hby e he; exact hP c _ sp k (g1.trans hb) g2 hk)
    (fun e he hb sp k hk => by obtain ⟨c, g1, g2⟩ := hby e he; exact hg c _ sp k (g1.trans hb) g2 hk)
  refine ⟨_, _, fun c i => groupRank (flagged G tr qs) (place c i), a, b, t1, flagged_one q1 hp hat, ?_, hdb ▸ q3, t2, ?_⟩
  · intro q hq
    obtain ⟨e, he, rfl⟩ := List.mem_map.1 hq
    obtain ⟨h1, h2⟩ := List.mem_filter.1 he
    obtain ⟨c, g1, g2⟩ := hby e h1
    exact ⟨c, g1.trans h2, g2⟩
  · intro q hq
    obtain ⟨p, e, h1, h2, rfl⟩ := groupRank_onto (by simpa using hq)
    obtain ⟨x, hx, -, h5⟩ := flagged_at q1 h1
    obtain ⟨c, o, h3, h4⟩ := h5.1 h2
    refine ⟨c, h3, fun hu => ?_⟩
    obtain ⟨i, l, ws, g1, g2, -, -, g5⟩ := hback p _ _ _ c o hx h4 hu
    refine ⟨i, congrArg (groupRank _) g1, (List.getElem?_eq_some_iff.1 g2).1, fun before after i' htr hi' hb => ?_⟩
    have hi2 : i' < (shownTo c tr).length := by rw [htr, shownTo_append, List.length_append]; omega
    obtain ⟨e', k1, k2⟩ := flagged_lines (G := G) q1 hat (c := c) (i := i') (by simp [hu, h3]) hi2
    exact groupRank_lt k1 k2 (g5 before after c i' htr hu hi' hb)

/-- C101: if nobody outside a group of connections writes to a key that a request of the group mentions, the users of the group see what they would see if only the group's requests
were asked of the database, in real time; and the group's keys end up as they would then. -/
theorem C101_group {a0 : DB} (h0 : Abs st a0) {tr : List Desk.Ev} {s : Desk.Sys} (h : Exec (Desk.Step ω U) (Desk.new d st) tr s)
    (ho : ∀ x ∈ doneIn (seenIn (serverOf tr)), x.2.1.ord.Fair ∧ Sized x.2.2) {G : Nat → Bool} (hg : KeepsOwn G tr) :
    ∃ qs rs place a b, Trace a0 qs rs b ∧ OneDatabase (fun c => U c && G c) tr qs rs place ∧ (∀ q ∈ qs, ∃ c, G c = true ∧ RanBy tr c q) ∧
      Abs s.full.whole.hub.db a ∧ AgreeOn (KeyOfGroup G tr) a b := by
  obtain ⟨qs, rs, place, a, b, h1, h2, h3, h4, h5, -⟩ := group_explained_on (P := KeyOfGroup _ tr) h0 h ho (fun c objs sp k hc hr hk => ⟨c, objs, hc, hr, hk⟩) hg
  exact ⟨qs, rs, place, a, b, h1, h2, h3, h4, h5⟩

/-- C101, for one user: a user whose keys nobody else writes sees what a database of their own would say to the lines they type, one after the other. -/
theorem C101_alone {a0 : DB} (h0 : Abs st a0) {tr : List Desk.Ev} {s : Desk.Sys} (h : Exec (Desk.Step ω U) (Desk.new d st) tr s)
    (ho : ∀ x ∈ doneIn (seenIn (serverOf tr)), x.2.1.ord.Fair ∧ Sized x.2.2) {c : Nat} (hu : U c = true) (hg : KeepsOwn (fun c' => c' = c) tr) :
    ∃ qs rs a b, Trace a0 qs rs b ∧ (∀ (i : Nat) r, (shownTo c tr)[i]? = some r → ∃ l ws, (typedBy c tr)[i]? = some l ∧ Words l ws ∧ qs[i]? = some (ws.map .bulk) ∧ rs[i]? = some r) ∧
      qs.length ≤ (shownTo c tr).length + 1 ∧ (∀ q ∈ qs, RanBy tr c q) ∧ Abs s.full.whole.hub.db a ∧ AgreeOn (KeyOfGroup (fun c' => c' = c) tr) a b := by
  obtain ⟨qs, rs, place, a, b, h1, h2, h3, h4, h5, h6⟩ := group_explained_on (P := KeyOfGroup _ tr) h0 h ho (fun c objs sp k hc hr hk => ⟨c, objs, hc, hr, hk⟩) hg
  have huc : (U c && decide (c = c)) = true := by simp [hu]
  -- the places are in order of typing
  have back : ∀ q < qs.length, ∃ i, place c i = q ∧ i < (typedBy c tr).length ∧ ∀ i' < i, i' < (shownTo c tr).length → place c i' < q := by
    intro q hq
    obtain ⟨c', e, h7⟩ := h6 q hq
    obtain rfl : c' = c := by simpa using e
    obtain ⟨i, g1, g2, g3⟩ := h7 hu
    refine ⟨i, g1, g2, fun i' hi' _ => ?_⟩
    obtain ⟨before, after, k1, k2, k3⟩ := own_lines h0 h ho hi' g2
    exact g3 before after i' k1 k2 k3
  have lt : ∀ {i}, i < (shownTo c tr).length → place c i < qs.length := by
    intro i hi
    obtain ⟨l, ws, -, -, k3, -⟩ := h2.each c i _ huc (List.getElem?_eq_getElem hi)
    exact (List.getElem?_eq_some_iff.1 k3).1
  have own : ∀ {i}, i < (shownTo c tr).length → place c i = i := by
    intro i
    induction i using Nat.strong_induction_on with
    | _ i ih =>
      intro hi
      rcases Nat.lt_trichotomy (place c i) i with hlt | e | hgt
      · have e := ih _ hlt (by omega)
        have := h2.distinct c c _ i huc huc (by omega) hi e
        omega
      · exact e
      · obtain ⟨j, g1, g2, g3⟩ := back i (by have := lt hi; omega)
        rcases Nat.lt_trichotomy j i with hlt | rfl | hgt'
        · have := ih j hlt (by omega)
          omega
        · omega
        · have := g3 i hgt' hi
          omega
  refine ⟨qs, rs, a, b, h1, fun i r hi => ?_, ?_, fun q hq => ?_, h4, h5⟩
  · obtain ⟨l, ws, k1, k2, k3, k4⟩ := h2.each c i r huc hi
    rw [own (List.getElem?_eq_some_iff.1 hi).1] at k3 k4
    exact ⟨l, ws, k1, k2, k3, k4⟩
  · have hle := (C85_screen h0 h ho hu).2.1
    by_contra hc
    have hA := back (shownTo c tr).length (by omega)
    have hB := back ((shownTo c tr).length + 1) (by omega)
    obtain ⟨i, g1, g2, -⟩ := hA
    obtain ⟨j, g1', g2', -⟩ := hB
    have hi : ¬ i < (shownTo c tr).length := fun hi => by have := own hi; omega
    have hj : ¬ j < (shownTo c tr).length := fun hj => by have := own hj; omega
    obtain rfl : i = j := by omega
    omega
  · obtain ⟨c', e, h7⟩ := h3 q hq
    obtain rfl : c' = c := by simpa using e
    exact h7

/-- C101, for onlookers: if those outside the group only read, whatever they read, the users of the group see what they would see without them, and the whole database ends up
as it would without them. -/
theorem C101_onlookers {a0 : DB} (h0 : Abs st a0) {tr : List Desk.Ev} {s : Desk.Sys} (h : Exec (Desk.Step ω U) (Desk.new d st) tr s)
    (ho : ∀ x ∈ doneIn (seenIn (serverOf tr)), x.2.1.ord.Fair ∧ Sized x.2.2) {G : Nat → Bool} (hg : ∀ c objs sp k, G c = false → RanBy tr c objs → ¬ Writes sp objs k) :
    ∃ qs rs place a, Trace a0 qs rs a ∧ OneDatabase (fun c => U c && G c) tr qs rs place ∧ (∀ q ∈ qs, ∃ c, G c = true ∧ RanBy tr c q) ∧ Abs s.full.whole.hub.db a := by
  obtain ⟨qs, rs, place, a, b, h1, h2, h3, h4, h5, -⟩ := group_explained_on (P := fun _ _ => True) h0 h ho (fun _ _ _ _ _ _ _ => trivial) fun c objs sp k hc hr hw => absurd hw (hg c objs sp k hc hr)
  have e : a = b := by
    have e1 : a.strs = b.strs := funext fun k => h5.strs k trivial
    have e2 : a.lists = b.lists := funext fun k => h5.lists k trivial
    have e3 : a.hashes = b.hashes := funext fun k => h5.hashes k trivial
    have e4 : a.sets = b.sets := funext fun k => h5.sets k trivial
    cases a; cases b
    simp_all
  subst e
  exact ⟨qs, rs, place, a, h1, h2, h3, h4⟩

/-! ### Example -/

/-- One user keeps a number; another one reads it, and has a queue of their own. -/
abbrev besideEachOther : List Script.Line :=
  [(8, [b!"rpush", b!"q", b!"x"], .int 1), (8, [b!"get", b!"n"], .bulk b!"5"), (7, [b!"set", b!"n", b!"6"], okReply), (8, [b!"lpop", b!"q"], .bulk b!"x"),
    (7, [b!"get", b!"n"], .bulk b!"6")]

theorem besideEachOther_plays : Script.Plays five besideEachOther := by
  obtain ⟨st1, h1, st2, h2, st3, h3, st4, h4, st5, h5⟩ : ∃ st1, handle env0 five (req [b!"rpush", b!"q", b!"x"]) = .ok (st1, .int 1) ∧
      ∃ st2, handle env0 st1 (req [b!"get", b!"n"]) = .ok (st2, .bulk b!"5") ∧
      ∃ st3, handle env0 st2 (req [b!"set", b!"n", b!"6"]) = .ok (st3, okReply) ∧
      ∃ st4, handle env0 st3 (req [b!"lpop", b!"q"]) = .ok (st4, .bulk b!"x") ∧
      ∃ st5, handle env0 st4 (req [b!"get", b!"n"]) = .ok (st5, .bulk b!"6") := ⟨_, rfl, _, rfl, _, rfl, _, rfl, _, rfl⟩
  exact .cons rfl h1 rpush_parses rpush_typable (.int (by omega) (by omega)) (.cons rfl h2 getn_parses getn_typable (.bulk (by simp))
    (.cons rfl h3 set6_parses set6_typable .simple (.cons rfl h4 lpop_parses lpop_typable (.bulk (by simp)) (.cons rfl h5 getn_parses getn_typable (.bulk (by simp)) (.nil _)))))

theorem not_named {n : Bytes} {args : List Bytes} {sp : Space} {k : Bytes} (h1 : toLower n ∉ oneKey sp) (h2 : toLower n ∉ manyKeys sp) (h3 : sp ≠ .str) :
    ¬ Names sp (req (n :: args)) k := by
  rintro (⟨name, hn, o, os, ⟨p, n', e, ht, hf⟩, ht'⟩ | ⟨name, hn, o, os, ⟨p, n', e, ht, hf⟩, -⟩ | ⟨e, -⟩)
  · obtain ⟨rfl, -⟩ := List.cons.inj e
    cases ht
    exact h1 (folds_toLower hf ▸ hn)
  · cases e; cases ht
    exact h2 (folds_toLower hf ▸ hn)
  · exact h3 e

/-- The hypotheses of `C101_group` and `C101_alone` can be met, with requests of others among those of the group. -/
example : ∃ (tr : List Desk.Ev) (s : Desk.Sys), Exec (Desk.Step ω Script.isUser) (Desk.new d five) tr s ∧
    (∀ x ∈ doneIn (seenIn (serverOf tr)), x.2.1.ord.Fair ∧ Sized x.2.2) ∧ KeepsOwn (fun c => c = 7) tr ∧
    Got tr 7 0 (.set b!"n" b!"6") okReply ∧ Got tr 7 1 (.get b!"n") (.bulk b!"6") ∧ Got tr 8 1 (.get b!"n") (.bulk b!"5") ∧ Got tr 8 2 (.lpop b!"q") (.bulk b!"x") := by
  obtain ⟨tr, s, h1, h2, h3, h4⟩ := Script.played (ω := ω) (d := d) besideEachOther_plays five_abs
  refine ⟨tr, s, h1, h3, ?_, got_play (h4 7 rfl).1 (h4 7 rfl).2 (xs := besideEachOther) rfl set6_means, got_play (h4 7 rfl).1 (h4 7 rfl).2 (xs := besideEachOther) rfl getn_means,
    got_play (h4 8 rfl).1 (h4 8 rfl).2 (xs := besideEachOther) rfl getn_means, got_play (h4 8 rfl).1 (h4 8 rfl).2 (xs := besideEachOther) rfl (command_means rfl)⟩
  have group : ∀ sp k, KeyOfGroup (fun c => c = 7) tr sp k → sp = .str := by
    rintro sp k ⟨c, objs, hc, ⟨e, -, o, g1, g2⟩, hk⟩
    obtain ⟨x, h5, h6, rfl⟩ := ran_play h2 g1 g2
    simp only [List.mem_cons, List.not_mem_nil, or_false] at h5
    simp only [decide_eq_true_eq] at hc
    by_contra hne
    rcases h5 with rfl | rfl | rfl | rfl | rfl
    · exact absurd h6 (by simp [hc])
    · exact absurd h6 (by simp [hc])
    · exact not_named (by cases sp <;> first | contradiction | decide) (by cases sp <;> first | contradiction | decide) hne hk
    · exact absurd h6 (by simp [hc])
    · exact not_named (by cases sp <;> first | contradiction | decide) (by cases sp <;> first | contradiction | decide) hne hk
  intro c objs sp k hc hr hw hk
  cases group sp k hk
  obtain ⟨e, -, o, g1, g2⟩ := hr
  obtain ⟨x, h5, h6, rfl⟩ := ran_play h2 g1 g2
  simp only [List.mem_cons, List.not_mem_nil, or_false] at h5
  rcases h5 with rfl | rfl | rfl | rfl | rfl
  · exact only_reads (by decide) (by decide) hw
  · exact only_reads (by decide) (by decide) hw
  · exact absurd hc (by simp [← h6])
  · exact only_reads (by decide) (by decide) hw
  · exact only_reads (by decide) (by decide) hw

/-- The hypotheses of `C101_onlookers` can be met. -/
example : ∃ (tr : List Desk.Ev) (s : Desk.Sys), Exec (Desk.Step ω Script.isUser) (Desk.new d five) tr s ∧
    (∀ x ∈ doneIn (seenIn (serverOf tr)), x.2.1.ord.Fair ∧ Sized x.2.2) ∧ (∀ c objs sp k, (c == 7) = false → RanBy tr c objs → ¬ Writes sp objs k) ∧
    Got tr 8 0 (.get b!"n") (.bulk b!"5") ∧ Got tr 7 0 (.set b!"n" b!"6") okReply ∧ Got tr 7 1 (.get b!"n") (.bulk b!"6") := by
  obtain ⟨tr, s, h1, h2, h3, h4⟩ := Script.played (ω := ω) (d := d) reading_plays five_abs
  refine ⟨tr, s, h1, h3, ?_, got_play (h4 8 rfl).1 (h4 8 rfl).2 (xs := reading) rfl getn_means, got_play (h4 7 rfl).1 (h4 7 rfl).2 (xs := reading) rfl set6_means,
    got_play (h4 7 rfl).1 (h4 7 rfl).2 (xs := reading) rfl getn_means⟩
  rintro c objs sp k hc ⟨e, -, o, g1, g2⟩
  obtain ⟨x, h5, h6, rfl⟩ := ran_play h2 g1 g2
  simp only [List.mem_cons, List.not_mem_nil, or_false] at h5
  rcases h5 with rfl | rfl | rfl
  · exact only_reads (by cases sp <;> decide) (by decide)
  · exact absurd hc (by simp [← h6])
  · exact absurd hc (by simp [← h6])

end Verif.Props
