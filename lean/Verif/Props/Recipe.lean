import Verif.Spec.Recipe
import Verif.Props.Script

/-! # C97 – what users build on single commands -/

namespace Verif.Props

open Spec
open Fut (upd)

variable {ω : Nat → Nat} {U : Nat → Bool} {d : Bytes} {st : State}

/-! ### One request after the other -/

theorem error_reply {e : CmdErr} {r : Resp} (h : ErrorReply e r) : ∃ t, r = .error t := by
  cases e <;> first | exact ⟨_, h⟩ | (obtain ⟨m, rfl⟩ := h; exact ⟨_, rfl⟩)

theorem trace_uncons {a a2 : DB} {q : List Resp} {qs : List (List Resp)} {rs : List Resp} (h : Trace a (q :: qs) rs a2) :
    ∃ a1 r rs', rs = r :: rs' ∧ Trace a1 qs rs' a2 ∧ ((∃ c, Means q c ∧ Step a c (done a1 r)) ∨ (∃ c e, Means q c ∧ Step a c (fails a1 e) ∧ ErrorReply e r) ∨
      (¬ ∃ c, Means q c) ∧ a1 = a ∧ ∃ t, r = .error t) := by
  cases h with
  | ok h1 h2 h3 => exact ⟨_, _, _, rfl, h3, .inl ⟨_, h1, h2⟩⟩
  | err h1 h2 h3 h4 => exact ⟨_, _, _, rfl, h4, .inr (.inl ⟨_, _, h1, h2, h3⟩)⟩
  | bad h1 h2 => exact ⟨_, _, _, rfl, h2, .inr (.inr ⟨h1, rfl, _, rfl⟩)⟩

/-- A command changes nothing its request does not write. -/
theorem step_frame {a a1 : DB} {q : List Resp} {c : Command} {x : Except CmdErr Resp} (hm : Means q c) (hs : Step a c (some (a1, x))) :
    (∀ k, ¬ Writes .str q k → a1.strs k = a.strs k) ∧ (∀ k, ¬ Writes .list q k → a1.lists k = a.lists k) ∧ (∀ k, ¬ Writes .set q k → a1.sets k = a.sets k) := by
  have ho := step_outline (requestCommand_valid (means_command hm)) hs
  generalize hy : (some (a1, x) : Out) = y at ho
  cases ho with
  | done _ hsb _ =>
    cases hy
    exact ⟨fun k hk => hsb.1 k fun h => hk (strKeys_writes hm h), fun k hk => hsb.2.1 k fun h => hk (listKeys_writes hm h),
      fun k hk => hsb.2.2.2 k fun h => hk (setKeys_writes hm h)⟩
  | fails _ => cases hy; exact ⟨fun _ _ => rfl, fun _ _ => rfl, fun _ _ => rfl⟩
  | bare _ _ => cases hy; exact ⟨fun _ _ => rfl, fun _ _ => rfl, fun _ _ => rfl⟩
  | crash _ => cases hy

/-- The first of some requests: what it does not write stays, and if it is the command `x` this is the step made. -/
theorem trace_first {a a2 : DB} {q : List Resp} {qs : List (List Resp)} {rs : List Resp} (h : Trace a (q :: qs) rs a2) :
    ∃ a1 r rs', rs = r :: rs' ∧ Trace a1 qs rs' a2 ∧
      (∀ k, ¬ Writes .str q k → a1.strs k = a.strs k) ∧ (∀ k, ¬ Writes .list q k → a1.lists k = a.lists k) ∧ (∀ k, ¬ Writes .set q k → a1.sets k = a.sets k) ∧
      ∀ x, Means q x → Step a x (done a1 r) ∨ ∃ e t, Step a x (fails a1 e) ∧ r = .error t := by
  obtain ⟨a1, r, rs', h1, h2, h3⟩ := trace_uncons h
  refine ⟨a1, r, rs', h1, h2, ?_⟩
  rcases h3 with ⟨c, g1, g2⟩ | ⟨c, e, g1, g2, g3⟩ | ⟨g1, rfl, t, rfl⟩
  · obtain ⟨f1, f2, f3⟩ := step_frame g1 g2
    exact ⟨f1, f2, f3, fun x hx => .inl (means_unique g1 hx ▸ g2)⟩
  · obtain ⟨f1, f2, f3⟩ := step_frame g1 g2
    obtain ⟨t, rfl⟩ := error_reply g3
    exact ⟨f1, f2, f3, fun x hx => .inr ⟨e, t, means_unique g1 hx ▸ g2, rfl⟩⟩
  · exact ⟨fun _ _ => rfl, fun _ _ => rfl, fun _ _ => rfl, fun x hx => absurd ⟨x, hx⟩ g1⟩

theorem trace_length {a a2 : DB} {qs : List (List Resp)} {rs : List Resp} (h : Trace a qs rs a2) : qs.length = rs.length := by
  induction h with
  | nil => rfl
  | ok _ _ _ ih | err _ _ _ _ ih | bad _ _ ih => simp [ih]

/-! ### A counter -/

open Classical in
/-- How many of the requests are the command `x`. -/
noncomputable def howMany (x : Command) (qs : List (List Resp)) : Nat := qs.countP fun q => decide (Means q x)

theorem howMany_cons (x : Command) (q : List Resp) (qs : List (List Resp)) :
    Means q x ∧ howMany x (q :: qs) = howMany x qs + 1 ∨ ¬ Means q x ∧ howMany x (q :: qs) = howMany x qs := by
  by_cases h : Means q x
  · exact .inl ⟨h, by simp [howMany, h]⟩
  · exact .inr ⟨h, by simp [howMany, h]⟩

theorem incr_writes {q : List Resp} {k n : Bytes} (h : Means q (.incr k n)) : Writes .str q k := strKeys_writes h (by simp [strKeys])

/-- One INCR of a number. -/
theorem incr_step {a a1 : DB} {k s : Bytes} {v : Int} {r : Resp} (hs : a.strs k = some s) (hv : IsInt s v)
    (h : Step a (.incr k b!"1") (done a1 r) ∨ ∃ e t, Step a (.incr k b!"1") (fails a1 e) ∧ r = .error t) :
    ∃ w s', r = .int w ∧ Wraps (v + 1) w ∧ a1.strs k = some s' ∧ IsInt s' w := by
  have no : ∀ {o : Out}, Step a (.incr k b!"1") o → ∃ w s', o = done (a.setStr k s') (.int w) ∧ Wraps (v + 1) w ∧ IsInt s' w := by
    intro o h
    rcases h with ⟨old, v', d, w, s', g1, g2, g3, g4, g5, g6⟩ | ⟨g1, -⟩ | ⟨-, g1, -⟩ | ⟨-, ⟨old, g1, g2⟩, -⟩
    · rw [hs] at g1
      cases g1
      cases isInt_unique hv g2
      cases isInt_unique isInt_one g3
      exact ⟨w, s', g6, g4, decimal_isInt g5 g4.1⟩
    · exact absurd ⟨1, isInt_one⟩ g1
    · rw [hs] at g1; cases g1
    · rw [hs] at g1
      cases g1
      exact absurd ⟨v, hv⟩ g2
  rcases h with h | ⟨e, t, h, rfl⟩
  · obtain ⟨w, s', h1, h2, h3⟩ := no h
    cases h1
    exact ⟨w, s', rfl, h2, by simp [DB.setStr], h3⟩
  · obtain ⟨w, s', h1, -⟩ := no h
    cases h1

theorem wraps_more {v w x : Int} {n : Int} (h : Wraps (v + 1) w) (h' : Wraps (w + n) x) : Wraps (v + (n + 1)) x := by
  obtain ⟨-, p, rfl⟩ := h
  obtain ⟨h1, q, rfl⟩ := h'
  exact ⟨h1, p + q, by omega⟩

theorem wraps_self {s : Bytes} {v : Int} (h : IsInt s v) : Wraps (v + 0) v := ⟨h.2, 0, by omega⟩

theorem counter {a a' : DB} {qs : List (List Resp)} {rs : List Resp} {k s : Bytes} {v : Int} (ht : Trace a qs rs a')
    (hk : ∀ q ∈ qs, Writes .str q k → Means q (.incr k b!"1")) (hs : a.strs k = some s) (hv : IsInt s v) :
    (∀ (p : Nat) q, qs[p]? = some q → Means q (.incr k b!"1") →
      ∃ w, rs[p]? = some (.int w) ∧ Wraps (v + (howMany (.incr k b!"1") (qs.take p) + 1 : Nat)) w) ∧
    ∃ s' w, a'.strs k = some s' ∧ IsInt s' w ∧ Wraps (v + (howMany (.incr k b!"1") qs : Nat)) w := by
  induction qs generalizing a rs s v with
  | nil =>
    cases ht
    exact ⟨by simp, s, v, hs, hv, wraps_self hv⟩
  | cons q qs ih =>
    obtain ⟨a1, r, rs, rfl, h1, f1, -, -, h2⟩ := trace_first ht
    have hk' : ∀ q ∈ qs, Writes .str q k → Means q (.incr k b!"1") := fun q hq => hk q (by simp [hq])
    rcases howMany_cons (.incr k b!"1") q qs with ⟨hm, hc⟩ | ⟨hm, hc⟩
    · obtain ⟨w, s', rfl, g1, g2, g3⟩ := incr_step hs hv (h2 _ hm)
      obtain ⟨i1, s2, w2, i2, i3, i4⟩ := ih h1 hk' g2 g3
      refine ⟨fun p q' hp hq' => ?_, s2, w2, i2, i3, ?_⟩
      · cases p with
        | zero => exact ⟨w, rfl, by simpa [howMany] using g1⟩
        | succ p =>
          obtain ⟨w', j1, j2⟩ := i1 p q' (by simpa using hp) hq'
          refine ⟨w', by simpa using j1, ?_⟩
          rw [List.take_succ_cons]
          rcases howMany_cons (.incr k b!"1") q (qs.take p) with ⟨-, hc'⟩ | ⟨hn, -⟩
          · rw [hc']
            exact_mod_cast wraps_more g1 j2
          · exact absurd hm hn
      · rw [hc]
        exact_mod_cast wraps_more g1 i4
    · have hs1 : a1.strs k = some s := by rw [f1 k fun hw => hm (hk q (by simp) hw), hs]
      obtain ⟨i1, s2, w2, i2, i3, i4⟩ := ih h1 hk' hs1 hv
      refine ⟨fun p q' hp hq' => ?_, s2, w2, i2, i3, by rw [hc]; exact i4⟩
      cases p with
      | zero =>
        simp only [List.getElem?_cons_zero, Option.some.injEq] at hp
        exact absurd (hp ▸ hq') hm
      | succ p =>
        obtain ⟨w', j1, j2⟩ := i1 p q' (by simpa using hp) hq'
        refine ⟨w', by simpa using j1, ?_⟩
        rw [List.take_succ_cons]
        rcases howMany_cons (.incr k b!"1") q (qs.take p) with ⟨hn, -⟩ | ⟨-, hc'⟩
        · exact absurd hn hm
        · rw [hc']; exact j2

/-- What is no number is never counted. -/
theorem no_counter {a a' : DB} {qs : List (List Resp)} {rs : List Resp} {k : Bytes} (ht : Trace a qs rs a')
    (hk : ∀ q ∈ qs, Writes .str q k → Means q (.incr k b!"1")) (hs : ∀ s, a.strs k = some s → ¬ ∃ v, IsInt s v) (p : Nat) (q : List Resp) (w : Int)
    (hp : qs[p]? = some q) (hm : Means q (.incr k b!"1")) : rs[p]? ≠ some (.int w) := by
  induction qs generalizing a rs p with
  | nil => simp at hp
  | cons q' qs ih =>
    obtain ⟨a1, r, rs, rfl, h1, f1, -, -, h2⟩ := trace_first ht
    have key : ∀ {o : Out}, Step a (.incr k b!"1") o → ∃ e, o = fails a e := by
      intro o h
      rcases h with ⟨old, v', d, w, s', g1, g2, -⟩ | ⟨-, m, g⟩ | ⟨-, -, g⟩ | ⟨-, -, g⟩
      · exact absurd ⟨v', g2⟩ (hs _ g1)
      all_goals exact ⟨_, g⟩
    have step : Means q' (.incr k b!"1") → a1 = a ∧ ∃ t, r = .error t := by
      intro h
      rcases h2 _ h with g | ⟨e, t, g, rfl⟩
      · obtain ⟨e, h⟩ := key g
        cases h
      · obtain ⟨e, h⟩ := key g
        cases h
        exact ⟨rfl, t, rfl⟩
    have hs1 : a1.strs k = a.strs k := by
      by_cases hw : Writes .str q' k
      · rw [(step (hk q' (by simp) hw)).1]
      · exact f1 k hw
    cases p with
    | zero =>
      simp only [List.getElem?_cons_zero, Option.some.injEq] at hp
      obtain ⟨-, t, rfl⟩ := step (hp ▸ hm)
      simp
    | succ p => exact ih h1 (fun q hq => hk q (by simp [hq])) (by rw [hs1]; exact hs) p (by simpa using hp)

/-! ### From the requests executed to what users see -/

theorem on_record {a0 : DB} (h0 : Abs st a0) {tr : List Desk.Ev} {s : Desk.Sys} (h : Exec (Desk.Step ω U) (Desk.new d st) tr s)
    (ho : ∀ x ∈ doneIn (seenIn (serverOf tr)), x.2.1.ord.Fair ∧ Sized x.2.2) :
    ∃ qs a place, Trace a0 qs ((doneIn (seenIn (serverOf tr))).map fun x => x.2.2) a ∧ Abs s.full.whole.hub.db a ∧
      OneDatabase U tr qs ((doneIn (seenIn (serverOf tr))).map fun x => x.2.2) place ∧ List.Forall₂ (RequestOf tr) (doneIn (seenIn (serverOf tr))) qs ∧
      ∀ (q n : Nat) env r c o, (doneIn (seenIn (serverOf tr)))[q]? = some (n, env, r) → (n, o) ∈ askedBy c (seenIn (serverOf tr)) → U c = true →
        ∃ i l ws, place c i = q ∧ (typedBy c tr)[i]? = some l ∧ Words l ws ∧ qs[q]? = some (ws.map .bulk) ∧
          ∀ (before after : List Desk.Ev) (c' i' : Nat), tr = before ++ after → U c' = true → i' < (shownTo c' before).length →
            (typedBy c before).length ≤ i → place c' i' < q := by
  have hfx := C85_parts h
  obtain ⟨n, hn, -, hdb⟩ := (C82_parts hfx).2.1
  obtain ⟨qs, a, q1, q2, q3⟩ := C70_sequential h0 hn fun x hx => (ho x hx).1
  obtain ⟨place, hp, -, -, hr⟩ := explains_all (U := U) h0 h ho q1
  exact ⟨qs, a, place, q2, hdb ▸ q3, hp, q1, hr⟩

theorem ran_of {tr : List Desk.Ev} {qs : List (List Resp)} (h : List.Forall₂ (RequestOf tr) (doneIn (seenIn (serverOf tr))) qs) : ∀ q ∈ qs, Ran tr q := by
  intro q hq
  obtain ⟨i, hi, rfl⟩ := List.getElem_of_mem hq
  have hi' : i < (doneIn (seenIn (serverOf tr))).length := by rw [h.length_eq]; exact hi
  exact ⟨_, List.getElem_mem hi', (List.forall₂_iff_get.1 h).2 i hi' hi⟩

theorem got_at {tr : List Desk.Ev} {qs : List (List Resp)} {rs : List Resp} {place : Nat → Nat → Nat} (h : OneDatabase U tr qs rs place) {c i : Nat} {x : Command}
    {r : Resp} (hu : U c = true) (hg : Got tr c i x r) : ∃ q, qs[place c i]? = some q ∧ Means q x ∧ rs[place c i]? = some r := by
  obtain ⟨l, h1, ⟨ws, h2, h3⟩, h4⟩ := hg
  obtain ⟨l', ws', g1, g2, g3, g4⟩ := h.each c i r hu h4
  rw [h1] at g1
  cases g1
  cases C52_words_unique h2 g2
  exact ⟨_, g3, h3, g4⟩

theorem got_shown {tr : List Desk.Ev} {c i : Nat} {x : Command} {r : Resp} (h : Got tr c i x r) : i < (shownTo c tr).length := by
  obtain ⟨l, -, -, h⟩ := h
  exact (List.getElem?_eq_some_iff.1 h).1

theorem got_later {tr : List Desk.Ev} {qs : List (List Resp)} {rs : List Resp} {place : Nat → Nat → Nat} (h : OneDatabase U tr qs rs place) {c c' i j : Nat}
    {x : Command} {r : Resp} (hu : U c = true) (hu' : U c' = true) (he : Earlier tr c i c' j) (hg : Got tr c' j x r) : place c i < place c' j := by
  obtain ⟨before, after, h1, h2, h3⟩ := he
  exact h.inTime before after c c' i j h1 hu hu' h2 h3 (got_shown hg)

open Classical in
theorem timesRan_eq {tr : List Desk.Ev} {n : Net.Sys} (hn : Exec Net.Step (Net.new st) (seenIn (serverOf tr)) n) {qs : List (List Resp)}
    (h : List.Forall₂ (RequestOf tr) (doneIn (seenIn (serverOf tr))) qs) (P : List Resp → Resp → Prop) :
    timesRan tr P = (qs.zip ((doneIn (seenIn (serverOf tr))).map fun x => x.2.2)).countP fun y => decide (P y.1 y.2) := by
  unfold timesRan
  generalize doneIn (seenIn (serverOf tr)) = es at h ⊢
  induction h with
  | nil => rfl
  | @cons e q es qs h1 _ ih =>
    have : (∃ objs, RequestOf tr e objs ∧ P objs e.2.2) ↔ P q e.2.2 := by
      refine ⟨fun ⟨objs, ⟨c, o, k1, k2⟩, k3⟩ => ?_, fun h => ⟨q, h1, h⟩⟩
      obtain ⟨c', o', k4, k5⟩ := h1
      obtain ⟨rfl, rfl⟩ := asked_unique hn k1 k4
      have : objs = q := by
        rcases k2 with rfl | ⟨rfl, rfl⟩ <;> rcases k5 with k5 | ⟨k5, rfl⟩
        · exact Resp.array.inj k5
        · cases k5
        · cases k5
        · rfl
      exact this ▸ k3
    simp only [List.countP_cons, List.map_cons, List.zip_cons_cons, ih, this]

theorem howMany_zip (x : Command) (qs : List (List Resp)) (rs : List Resp) (h : qs.length = rs.length) :
    howMany x qs = ((qs.zip rs).countP fun y => @decide (Means y.1 x) (Classical.propDecidable _)) := by
  induction qs generalizing rs with
  | nil => simp [howMany]
  | cons q qs ih =>
    cases rs with
    | nil => simp at h
    | cons r rs =>
      have := ih rs (by simpa using h)
      simp only [howMany, List.countP_cons, List.zip_cons_cons] at this ⊢
      rw [this]

theorem howMany_lt {x : Command} {qs : List (List Resp)} {p p' : Nat} {q : List Resp} (hq : qs[p]? = some q) (hm : Means q x) (h : p < p') :
    howMany x (qs.take p) < howMany x (qs.take p') := by
  obtain ⟨hp, rfl⟩ := List.getElem?_eq_some_iff.1 hq
  have e : qs.take (p + 1) = qs.take p ++ [qs[p]] := by simp
  have e' : qs.take p' = qs.take (p + 1) ++ (qs.take p').drop (p + 1) := by
    have := (List.take_append_drop (p + 1) (qs.take p')).symm
    rwa [List.take_take, Nat.min_eq_left (by omega)] at this
  have h1 : howMany x [qs[p]] = 1 := by simp [howMany, hm]
  have app : ∀ a b : List (List Resp), howMany x (a ++ b) = howMany x a + howMany x b := fun a b => by simp [howMany]
  rw [e', app, e, app, h1]
  omega

theorem howMany_le (x : Command) (qs : List (List Resp)) : howMany x qs ≤ qs.length := List.countP_le_length

/-! ### Tickets -/

/-- C97 (tickets): if nothing but INCR is ever done to a key, no two lines get the same number from it, whoever typed them, unless there are 2⁶⁴ requests. -/
theorem C97_tickets {a0 : DB} (h0 : Abs st a0) {tr : List Desk.Ev} {s : Desk.Sys} (h : Exec (Desk.Step ω U) (Desk.new d st) tr s)
    (ho : ∀ x ∈ doneIn (seenIn (serverOf tr)), x.2.1.ord.Fair ∧ Sized x.2.2) {k : Bytes}
    (hk : ∀ objs, Ran tr objs → Writes .str objs k → Means objs (.incr k b!"1")) (hl : (doneIn (seenIn (serverOf tr))).length < 2 ^ 64)
    {c c' i j : Nat} {v : Int} (hu : U c = true) (hu' : U c' = true) (hg : Got tr c i (.incr k b!"1") (.int v)) (hg' : Got tr c' j (.incr k b!"1") (.int v)) :
    c = c' ∧ i = j := by
  obtain ⟨qs, a, place, h1, h2, h3, h4, -⟩ := on_record h0 h ho
  obtain ⟨q, g1, g2, g3⟩ := got_at h3 hu hg
  obtain ⟨q', g1', g2', g3'⟩ := got_at h3 hu' hg'
  have hk' : ∀ q ∈ qs, Writes .str q k → Means q (.incr k b!"1") := fun q hq => hk q (ran_of h4 q hq)
  refine h3.distinct c c' i j hu hu' (got_shown hg) (got_shown hg') ?_
  by_cases hn : ∃ s v, a0.strs k = some s ∧ IsInt s v
  · obtain ⟨s0, v0, n1, n2⟩ := hn
    obtain ⟨k1, -⟩ := counter h1 hk' n1 n2
    obtain ⟨w, j1, -, x, j2⟩ := k1 _ _ g1 g2
    obtain ⟨w', j1', -, x', j2'⟩ := k1 _ _ g1' g2'
    rw [g3] at j1
    rw [g3'] at j1'
    cases j1
    cases j1'
    have b1 := howMany_le (.incr k b!"1") (qs.take (place c i))
    have b2 := howMany_le (.incr k b!"1") (qs.take (place c' j))
    rw [List.length_take, ← h4.length_eq] at b1 b2
    have b3 : howMany (.incr k b!"1") (qs.take (place c i)) = howMany (.incr k b!"1") (qs.take (place c' j)) := by omega
    rcases Nat.lt_trichotomy (place c i) (place c' j) with hlt | he | hlt
    · have := howMany_lt g1 g2 hlt
      omega
    · exact he
    · have := howMany_lt g1' g2' hlt
      omega
  · exact absurd g3 (no_counter h1 hk' (fun s hs hv => hn ⟨s, hv.choose, hs, hv.choose_spec⟩) _ _ _ g1 g2)

/-- C97 (tickets): and if the key holds the number `v0` at the beginning, every INCR gives a number, later ones larger ones, and none is lost: in the end the
key holds `v0` and one for every INCR that was executed. -/
theorem C97_count {a0 : DB} (h0 : Abs st a0) {tr : List Desk.Ev} {s : Desk.Sys} (h : Exec (Desk.Step ω U) (Desk.new d st) tr s)
    (ho : ∀ x ∈ doneIn (seenIn (serverOf tr)), x.2.1.ord.Fair ∧ Sized x.2.2) {k n : Bytes} {v0 : Int}
    (hk : ∀ objs, Ran tr objs → Writes .str objs k → Means objs (.incr k b!"1")) (hs : a0.strs k = some n) (hv : IsInt n v0)
    (hl : v0 + (doneIn (seenIn (serverOf tr))).length < 2 ^ 63) :
    (∀ c i r, U c = true → Got tr c i (.incr k b!"1") r → ∃ v, r = .int v ∧ v0 < v ∧ v ≤ v0 + timesRan tr fun objs _ => Means objs (.incr k b!"1")) ∧
    (∀ c c' i j v w, U c = true → U c' = true → Got tr c i (.incr k b!"1") (.int v) → Got tr c' j (.incr k b!"1") (.int w) → Earlier tr c i c' j → v < w) ∧
    ∃ a n', Abs s.full.whole.hub.db a ∧ a.strs k = some n' ∧ IsInt n' (v0 + timesRan tr fun objs _ => Means objs (.incr k b!"1")) := by
  obtain ⟨nt, hn, -⟩ := (C82_parts (C85_parts h)).2.1
  obtain ⟨qs, a, place, h1, h2, h3, h4, -⟩ := on_record h0 h ho
  have hk' : ∀ q ∈ qs, Writes .str q k → Means q (.incr k b!"1") := fun q hq => hk q (ran_of h4 q hq)
  obtain ⟨k1, n', w, k2, k3, k4⟩ := counter h1 hk' hs hv
  have ht : (timesRan tr fun objs _ => Means objs (.incr k b!"1")) = howMany (.incr k b!"1") qs := by
    rw [timesRan_eq hn h4, howMany_zip _ _ _ (trace_length h1)]
  have hle := howMany_le (.incr k b!"1") qs
  rw [← h4.length_eq] at hle
  have exact_of : ∀ {m : Nat} {x : Int}, m ≤ howMany (.incr k b!"1") qs → Wraps (v0 + (m : Nat)) x → x = v0 + m := by
    intro m x hm hw
    obtain ⟨⟨w1, w2⟩, y, w3⟩ := hw
    obtain ⟨w4, w5⟩ := hv.2
    simp only [minInt64, maxInt64] at *
    omega
  have le_all : ∀ {p : Nat} {q : List Resp}, qs[p]? = some q → Means q (.incr k b!"1") → howMany (.incr k b!"1") (qs.take p) + 1 ≤ howMany (.incr k b!"1") qs := by
    intro p q hq hm
    have := howMany_lt hq hm (List.getElem?_eq_some_iff.1 hq).1
    rwa [List.take_length] at this
  have num : ∀ c i r, U c = true → Got tr c i (.incr k b!"1") r → r = .int (v0 + (howMany (.incr k b!"1") (qs.take (place c i)) + 1 : Nat)) ∧
      howMany (.incr k b!"1") (qs.take (place c i)) + 1 ≤ howMany (.incr k b!"1") qs := by
    intro c i r hu hg
    obtain ⟨q, g1, g2, g3⟩ := got_at h3 hu hg
    obtain ⟨w, j1, j2⟩ := k1 _ _ g1 g2
    rw [g3] at j1
    cases j1
    have := le_all g1 g2
    exact ⟨congrArg _ (exact_of this j2), this⟩
  refine ⟨fun c i r hu hg => ?_, fun c c' i j v w hu hu' hg hg' he => ?_, a, n', h2, k2, ?_⟩
  · obtain ⟨e, hb⟩ := num c i r hu hg
    exact ⟨_, e, by omega, by rw [ht]; omega⟩
  · obtain ⟨q, g1, g2, -⟩ := got_at h3 hu hg
    have e1 := Resp.int.inj (num c i _ hu hg).1
    have e2 := Resp.int.inj (num c' j _ hu' hg').1
    have := howMany_lt g1 g2 (got_later h3 hu hu' he hg')
    omega
  · rw [ht, ← exact_of (Nat.le_refl _) k4]
    exact k3

/-! ### A queue -/

theorem lpop_writes {q : List Resp} {k : Bytes} (h : Means q (.lpop k)) : Writes .list q k := listKeys_writes h (by simp [listKeys])
theorem rpush_writes {q : List Resp} {k : Bytes} {vs : List Bytes} (h : Means q (.rpush k vs)) : Writes .list q k := listKeys_writes h (by simp [listKeys])

/-- At place `p` is the command `x`, answered with `r`. -/
def Placed (qs : List (List Resp)) (rs : List Resp) (p : Nat) (x : Command) (r : Resp) : Prop := ∃ q, qs[p]? = some q ∧ Means q x ∧ rs[p]? = some r

theorem at_zero {q : List Resp} {qs : List (List Resp)} {r r' : Resp} {rs : List Resp} {x : Command} (h : Placed (q :: qs) (r :: rs) 0 x r') : Means q x ∧ r' = r := by
  obtain ⟨q', h1, h2, h3⟩ := h
  simp only [List.getElem?_cons_zero, Option.some.injEq] at h1 h3
  exact ⟨h1 ▸ h2, h3.symm⟩

theorem at_succ {q : List Resp} {qs : List (List Resp)} {r r' : Resp} {rs : List Resp} {x : Command} {p : Nat} (h : Placed (q :: qs) (r :: rs) (p + 1) x r') :
    Placed qs rs p x r' := by
  obtain ⟨q', h1, h2, h3⟩ := h
  exact ⟨q', by simpa using h1, h2, by simpa using h3⟩

open Classical in
/-- How many elements the requests took out. -/
noncomputable def takenOut (k : Bytes) (qs : List (List Resp)) (rs : List Resp) : Nat :=
  (qs.zip rs).countP fun y => decide (Means y.1 (.lpop k) ∧ ∃ x, y.2 = .bulk x)

/-- What becomes of a list used as a queue. -/
structure Queued (k : Bytes) (qs : List (List Resp)) (rs : List Resp) (init final stock : List Bytes) (out : Nat) (item slot : Nat → Nat) : Prop where
  begins : init <+: stock
  stays : final = stock.drop out
  count : out = takenOut k qs rs
  taken : ∀ p x, Placed qs rs p (.lpop k) (.bulk x) → stock[item p]? = some x ∧ item p < out
  inTurn : ∀ p p' x y, Placed qs rs p (.lpop k) (.bulk x) → Placed qs rs p' (.lpop k) (.bulk y) → p < p' → item p < item p'
  put : ∀ p vs n, Placed qs rs p (.rpush k vs) (.int n) → init.length ≤ slot p ∧ (stock.drop (slot p)).take vs.length = vs
  after : ∀ p p' vs ws n m, Placed qs rs p (.rpush k vs) (.int n) → Placed qs rs p' (.rpush k ws) (.int m) → p < p' → slot p + vs.length ≤ slot p'
  empty : ∀ p p' vs n, Placed qs rs p (.rpush k vs) (.int n) → Placed qs rs p' (.lpop k) .nullBulk → p < p' → slot p + vs.length ≤ out
  drained : ∀ p, Placed qs rs p (.lpop k) .nullBulk → init.length ≤ out

theorem queue_end (k : Bytes) (init : List Bytes) : Queued k [] [] init init init 0 (fun _ => 0) (fun _ => 0) := by
  have none : ∀ {p x r}, ¬ Placed [] [] p x r := by
    rintro p x r ⟨q, h, -⟩
    simp at h
  exact ⟨List.prefix_refl _, rfl, rfl, fun _ _ h => absurd h none, fun _ _ _ _ h => absurd h none, fun _ _ _ h => absurd h none, fun _ _ _ _ _ _ h => absurd h none,
    fun _ _ _ _ h => absurd h none, fun _ h => absurd h none⟩

/-- A function on places, from the one on the places after the first. -/
def shifted (x : Nat) (f : Nat → Nat) : Nat → Nat
  | 0 => x
  | p + 1 => f p

/-- An element is taken out. -/
theorem Queued.pop {k : Bytes} {q : List Resp} {qs : List (List Resp)} {rs : List Resp} {x : Bytes} {init final stock : List Bytes} {out : Nat} {item slot : Nat → Nat}
    (h : Queued k qs rs init final stock out item slot) (hq : Means q (.lpop k)) :
    Queued k (q :: qs) (.bulk x :: rs) (x :: init) final (x :: stock) (out + 1) (shifted 0 fun p => item p + 1) (shifted 0 fun p => slot p + 1) := by
  refine ⟨List.cons_prefix_cons.2 ⟨rfl, h.begins⟩, by simpa using h.stays, ?_, ?_, ?_, ?_, ?_, ?_, ?_⟩
  · rw [h.count]
    simp [takenOut, hq]
  · intro p y hp
    cases p with
    | zero => cases (at_zero hp).2; exact ⟨rfl, by simp [shifted]⟩
    | succ p =>
      obtain ⟨h1, h2⟩ := h.taken p y (at_succ hp)
      exact ⟨by simpa [shifted] using h1, by simp only [shifted]; omega⟩
  · intro p p' y z hp hp' hlt
    cases p' with
    | zero => omega
    | succ p' =>
      cases p with
      | zero => simp [shifted]
      | succ p =>
        have := h.inTurn p p' y z (at_succ hp) (at_succ hp') (by omega)
        simpa [shifted] using this
  · intro p vs n hp
    cases p with
    | zero => cases (at_zero hp).2
    | succ p =>
      obtain ⟨h1, h2⟩ := h.put p vs n (at_succ hp)
      exact ⟨by simpa [shifted] using h1, by simpa [shifted] using h2⟩
  · intro p p' vs ws n m hp hp' hlt
    cases p' with
    | zero => omega
    | succ p' =>
      cases p with
      | zero => cases (at_zero hp).2
      | succ p =>
        have := h.after p p' vs ws n m (at_succ hp) (at_succ hp') (by omega)
        simp only [shifted]
        omega
  · intro p p' vs n hp hp' hlt
    cases p' with
    | zero => omega
    | succ p' =>
      cases p with
      | zero => cases (at_zero hp).2
      | succ p =>
        have := h.empty p p' vs n (at_succ hp) (at_succ hp') (by omega)
        simp only [shifted]
        omega
  · intro p hp
    cases p with
    | zero => cases (at_zero hp).2
    | succ p =>
      have := h.drained p (at_succ hp)
      simpa using this

/-- Elements are put in. -/
theorem Queued.push {k : Bytes} {q : List Resp} {qs : List (List Resp)} {n : Int} {rs : List Resp} {init final stock vs : List Bytes} {out : Nat}
    {item slot : Nat → Nat} (h : Queued k qs rs (init ++ vs) final stock out item slot) (hq : Means q (.rpush k vs)) :
    Queued k (q :: qs) (.int n :: rs) init final stock out (shifted 0 item) (shifted init.length slot) := by
  refine ⟨(List.prefix_append _ _).trans h.begins, h.stays, ?_, ?_, ?_, ?_, ?_, ?_, ?_⟩
  · rw [h.count]
    simp [takenOut]
  · intro p y hp
    cases p with
    | zero => cases (at_zero hp).2
    | succ p => exact h.taken p y (at_succ hp)
  · intro p p' y z hp hp' hlt
    cases p' with
    | zero => omega
    | succ p' =>
      cases p with
      | zero => cases (at_zero hp).2
      | succ p => exact h.inTurn p p' y z (at_succ hp) (at_succ hp') (by omega)
  · intro p ws m hp
    cases p with
    | zero =>
      obtain ⟨h1, -⟩ := at_zero hp
      have := means_unique h1 hq
      cases this
      obtain ⟨z, hz⟩ := h.begins
      exact ⟨Nat.le_refl _, by rw [← hz]; simp [shifted]⟩
    | succ p =>
      obtain ⟨h1, h2⟩ := h.put p ws m (at_succ hp)
      rw [List.length_append] at h1
      exact ⟨by simp only [shifted]; omega, h2⟩
  · intro p p' ws zs m l hp hp' hlt
    cases p' with
    | zero => omega
    | succ p' =>
      cases p with
      | zero =>
        have := means_unique (at_zero hp).1 hq
        cases this
        have := (h.put p' zs l (at_succ hp')).1
        rwa [List.length_append] at this
      | succ p => exact h.after p p' ws zs m l (at_succ hp) (at_succ hp') (by omega)
  · intro p p' ws m hp hp' hlt
    cases p' with
    | zero => omega
    | succ p' =>
      cases p with
      | zero =>
        have := means_unique (at_zero hp).1 hq
        cases this
        have := h.drained p' (at_succ hp')
        rwa [List.length_append] at this
      | succ p => exact h.empty p p' ws m (at_succ hp) (at_succ hp') (by omega)
  · intro p hp
    cases p with
    | zero => cases (at_zero hp).2
    | succ p =>
      have := h.drained p (at_succ hp)
      rw [List.length_append] at this
      omega

/-- Nothing happens to the queue. -/
theorem Queued.skip {k : Bytes} {q : List Resp} {qs : List (List Resp)} {r : Resp} {rs : List Resp} {init final stock : List Bytes} {out : Nat}
    {item slot : Nat → Nat} (h : Queued k qs rs init final stock out item slot)
    (hq : (∀ x, Means q (.lpop k) → r ≠ .bulk x) ∧ (∀ vs n, Means q (.rpush k vs) → r ≠ .int n)) (he : Means q (.lpop k) → r = .nullBulk → init = []) :
    Queued k (q :: qs) (r :: rs) init final stock out (shifted 0 item) (shifted 0 slot) := by
  refine ⟨h.begins, h.stays, ?_, ?_, ?_, ?_, ?_, ?_, ?_⟩
  · rw [h.count]
    have : ¬ (Means q (.lpop k) ∧ ∃ x, r = .bulk x) := fun ⟨h1, x, h2⟩ => hq.1 x h1 h2
    simp [takenOut, this]
  · intro p y hp
    cases p with
    | zero => exact absurd (at_zero hp).2.symm (hq.1 y (at_zero hp).1)
    | succ p => exact h.taken p y (at_succ hp)
  · intro p p' y z hp hp' hlt
    cases p' with
    | zero => omega
    | succ p' =>
      cases p with
      | zero => exact absurd (at_zero hp).2.symm (hq.1 y (at_zero hp).1)
      | succ p => exact h.inTurn p p' y z (at_succ hp) (at_succ hp') (by omega)
  · intro p ws m hp
    cases p with
    | zero => exact absurd (at_zero hp).2.symm (hq.2 ws m (at_zero hp).1)
    | succ p => exact h.put p ws m (at_succ hp)
  · intro p p' ws zs m l hp hp' hlt
    cases p' with
    | zero => omega
    | succ p' =>
      cases p with
      | zero => exact absurd (at_zero hp).2.symm (hq.2 ws m (at_zero hp).1)
      | succ p => exact h.after p p' ws zs m l (at_succ hp) (at_succ hp') (by omega)
  · intro p p' ws m hp hp' hlt
    cases p' with
    | zero => omega
    | succ p' =>
      cases p with
      | zero => exact absurd (at_zero hp).2.symm (hq.2 ws m (at_zero hp).1)
      | succ p => exact h.empty p p' ws m (at_succ hp) (at_succ hp') (by omega)
  · intro p hp
    cases p with
    | zero => rw [he (at_zero hp).1 (at_zero hp).2.symm]; exact Nat.zero_le _
    | succ p => exact h.drained p (at_succ hp)

theorem queue {a a' : DB} {qs : List (List Resp)} {rs : List Resp} {k : Bytes} (ht : Trace a qs rs a')
    (hk : ∀ q ∈ qs, Writes .list q k → (∃ vs, Means q (.rpush k vs)) ∨ Means q (.lpop k)) :
    ∃ stock out item slot, Queued k qs rs (a.listAt k) (a'.listAt k) stock out item slot := by
  induction qs generalizing a rs with
  | nil => cases ht; exact ⟨_, _, _, _, queue_end k _⟩
  | cons q qs ih =>
    obtain ⟨a1, r, rs, rfl, h1, -, f1, -, h2⟩ := trace_first ht
    obtain ⟨stock, out, item, slot, hq⟩ := ih h1 fun q hq => hk q (by simp [hq])
    by_cases hw : Writes .list q k
    · rcases hk q (by simp) hw with ⟨vs, hm⟩ | hm
      · have other : ¬ Means q (.lpop k) := fun h => by cases means_unique hm h
        rcases h2 _ hm with g | ⟨e, t, g, rfl⟩
        · simp only [Step] at g
          split at g
          · obtain ⟨m, g⟩ := g
            cases g
          · cases g
            have : (a.setList k (a.listAt k ++ vs)).listAt k = a.listAt k ++ vs := by simp [DB.listAt, DB.setList]
            rw [this] at hq
            exact ⟨_, _, _, _, hq.push hm⟩
        · have : a1 = a := by
            simp only [Step] at g
            split at g
            · obtain ⟨m, g⟩ := g
              cases g
              rfl
            · cases g
          subst this
          exact ⟨_, _, _, _, hq.skip ⟨fun _ h => absurd h other, fun _ _ _ h => by cases h⟩ fun h => absurd h other⟩
      · have other : ∀ vs, ¬ Means q (.rpush k vs) := fun vs h => by cases means_unique hm h
        rcases h2 _ hm with g | ⟨e, t, g, rfl⟩
        · simp only [Step] at g
          split at g
          · next x xs e =>
            cases g
            have e1 : a.listAt k = x :: xs := by simp [DB.listAt, e]
            have e2 : (a.setList k xs).listAt k = xs := by simp [DB.listAt, DB.setList]
            rw [e2] at hq
            rw [e1]
            exact ⟨_, _, _, _, hq.pop hm⟩
          · next hne =>
            cases g
            refine ⟨_, _, _, _, hq.skip ⟨fun _ _ => nofun, fun vs _ h => absurd h (other vs)⟩ fun _ _ => ?_⟩
            cases e : a.lists k with
            | none => simp [DB.listAt, e]
            | some xs =>
              cases xs with
              | nil => simp [DB.listAt, e]
              | cons x xs => exact absurd e (hne x xs)
        · simp only [Step] at g
          split at g <;> cases g
    · have e1 : a1.listAt k = a.listAt k := by simp [DB.listAt, f1 k hw]
      rw [e1] at hq
      exact ⟨_, _, _, _, hq.skip ⟨fun _ h => absurd (lpop_writes h) hw, fun _ _ h => absurd (rpush_writes h) hw⟩ fun h => absurd (lpop_writes h) hw⟩

/-- C97 (queue): if nothing but RPUSH and LPOP is ever done to a list, it hands out what was put in, everything to one at most, in the order in which it was put in;
whoever finds it empty can be sure that everything put in earlier was handed out; and what was not handed out is still there. -/
theorem C97_queue {a0 : DB} (h0 : Abs st a0) {tr : List Desk.Ev} {s : Desk.Sys} (h : Exec (Desk.Step ω U) (Desk.new d st) tr s)
    (ho : ∀ x ∈ doneIn (seenIn (serverOf tr)), x.2.1.ord.Fair ∧ Sized x.2.2) {k : Bytes}
    (hk : ∀ objs, Ran tr objs → Writes .list objs k → (∃ vs, Means objs (.rpush k vs)) ∨ Means objs (.lpop k)) :
    ∃ stock out item slot a, Handed U tr k (a0.listAt k) stock out item slot ∧ Abs s.full.whole.hub.db a ∧ a.listAt k = stock.drop out ∧
      out = timesRan tr fun objs r => Means objs (.lpop k) ∧ ∃ x, r = .bulk x := by
  obtain ⟨nt, hn, -⟩ := (C82_parts (C85_parts h)).2.1
  obtain ⟨qs, a, place, h1, h2, h3, h4, -⟩ := on_record h0 h ho
  obtain ⟨stock, out, item, slot, hq⟩ := queue h1 fun q hq => hk q (ran_of h4 q hq)
  have ats : ∀ {c i x r}, U c = true → Got tr c i x r → Placed qs _ (place c i) x r := fun hu hg => got_at h3 hu hg
  refine ⟨stock, out, fun c i => item (place c i), fun c i => slot (place c i), a, ?_, h2, hq.stays, by rw [hq.count, timesRan_eq hn h4]; exact List.countP_congr fun _ _ => by simp⟩
  refine ⟨hq.begins, fun c i x hu hg => hq.taken _ x (ats hu hg), fun c c' i j x y hu hu' hg hg' he => ?_, fun c c' i j x y hu hu' hg hg' he => ?_,
    fun c i vs n hu hg => hq.put _ vs n (ats hu hg), fun c c' i j vs ws n m hu hu' hg hg' => ?_, fun c c' i j vs ws n m hu hu' hg hg' he => ?_,
    fun c c' i j vs n hu hu' hg hg' he => ?_⟩
  · refine h3.distinct c c' i j hu hu' (got_shown hg) (got_shown hg') ?_
    rcases Nat.lt_trichotomy (place c i) (place c' j) with hlt | e | hlt
    · have := hq.inTurn _ _ x y (ats hu hg) (ats hu' hg') hlt
      omega
    · exact e
    · have := hq.inTurn _ _ y x (ats hu' hg') (ats hu hg) hlt
      omega
  · exact hq.inTurn _ _ x y (ats hu hg) (ats hu' hg') (got_later h3 hu hu' he hg')
  · rcases Nat.lt_trichotomy (place c i) (place c' j) with hlt | e | hlt
    · exact .inl (hq.after _ _ vs ws n m (ats hu hg) (ats hu' hg') hlt)
    · exact .inr (.inr (h3.distinct c c' i j hu hu' (got_shown hg) (got_shown hg') e))
    · exact .inr (.inl (hq.after _ _ ws vs m n (ats hu' hg') (ats hu hg) hlt))
  · exact hq.after _ _ vs ws n m (ats hu hg) (ats hu' hg') (got_later h3 hu hu' he hg')
  · exact hq.empty _ _ vs n (ats hu hg) (ats hu' hg') (got_later h3 hu hu' he hg')

/-! ### A lock -/

theorem sadd_writes {q : List Resp} {k : Bytes} {ms : List Bytes} (h : Means q (.sadd k ms)) : Writes .set q k := setKeys_writes h (by simp [setKeys])

/-- Once an element is in a set, nobody adds it before it was removed. -/
theorem lock_kept {a a' : DB} {qs : List (List Resp)} {rs : List Resp} {k m : Bytes} (ht : Trace a qs rs a')
    (hk : ∀ q ∈ qs, Writes .set q k → Means q (.sadd k [m]) ∨ Means q (.srem k [m])) (hm : m ∈ a.setAt k) {p : Nat} (hp : Placed qs rs p (.sadd k [m]) (.int 1)) :
    ∃ q x, q < p ∧ qs[q]? = some x ∧ Means x (.srem k [m]) := by
  induction qs generalizing a rs p with
  | nil => obtain ⟨q, h, -⟩ := hp; simp at h
  | cons q qs ih =>
    obtain ⟨a1, r, rs, rfl, h1, -, -, f1, h2⟩ := trace_first ht
    have next : m ∈ a1.setAt k → p ≠ 0 → ∃ q' x, q' < p ∧ (q :: qs)[q']? = some x ∧ Means x (.srem k [m]) := by
      intro hm1 hp0
      obtain ⟨p, rfl⟩ := Nat.exists_eq_succ_of_ne_zero hp0
      obtain ⟨q', x, g1, g2, g3⟩ := ih h1 (fun q hq => hk q (by simp [hq])) hm1 (at_succ hp)
      exact ⟨q' + 1, x, by omega, by simpa using g2, g3⟩
    by_cases hw : Writes .set q k
    · rcases hk q (by simp) hw with h | h
      · rcases h2 _ h with g | ⟨e, t, g, -⟩
        · simp only [Step] at g
          split at g
          · cases g
          · cases g
            refine next (by simp [DB.setAt, DB.setSet]) ?_
            rintro rfl
            have := Resp.int.inj (at_zero hp).2
            rw [show ([m].toFinset \ a.setAt k) = ∅ by simp [hm]] at this
            simp at this
        · simp only [Step] at g
          split at g <;> cases g
      · refine ⟨0, q, Nat.pos_of_ne_zero ?_, rfl, h⟩
        rintro rfl
        cases means_unique h (at_zero hp).1
    · refine next (by rw [DB.setAt, f1 k hw]; exact hm) ?_
      rintro rfl
      exact hw (sadd_writes (at_zero hp).1)

/-- Between two who added an element is one who removed it. -/
theorem lock_between {a a' : DB} {qs : List (List Resp)} {rs : List Resp} {k m : Bytes} (ht : Trace a qs rs a')
    (hk : ∀ q ∈ qs, Writes .set q k → Means q (.sadd k [m]) ∨ Means q (.srem k [m])) {p p' : Nat} (hp : Placed qs rs p (.sadd k [m]) (.int 1))
    (hp' : Placed qs rs p' (.sadd k [m]) (.int 1)) (hlt : p < p') : ∃ q x, p < q ∧ q < p' ∧ qs[q]? = some x ∧ Means x (.srem k [m]) := by
  induction qs generalizing a rs p p' with
  | nil => obtain ⟨q, h, -⟩ := hp; simp at h
  | cons q qs ih =>
    obtain ⟨a1, r, rs, rfl, h1, -, -, -, h2⟩ := trace_first ht
    have hk' : ∀ q ∈ qs, Writes .set q k → Means q (.sadd k [m]) ∨ Means q (.srem k [m]) := fun q hq => hk q (by simp [hq])
    obtain ⟨p', rfl⟩ := Nat.exists_eq_succ_of_ne_zero (by omega : p' ≠ 0)
    cases p with
    | zero =>
      have hm : m ∈ a1.setAt k := by
        rcases h2 _ (at_zero hp).1 with g | ⟨e, t, g, -⟩
        · simp only [Step] at g
          split at g
          · cases g
          · cases g
            simp [DB.setAt, DB.setSet]
        · simp only [Step] at g
          split at g <;> cases g
      obtain ⟨q', x, g1, g2, g3⟩ := lock_kept h1 hk' hm (at_succ hp')
      exact ⟨q' + 1, x, by omega, by omega, by simpa using g2, g3⟩
    | succ p =>
      obtain ⟨q', x, g1, g2, g3, g4⟩ := ih h1 hk' (at_succ hp) (at_succ hp') (by omega)
      exact ⟨q' + 1, x, by omega, by omega, by simpa using g3, g4⟩

/-- The moment when a line was typed. -/
theorem typed_split {c i : Nat} {l : Bytes} {tr : List Desk.Ev} (h : (typedBy c tr)[i]? = some l) :
    ∃ before after, tr = before ++ .typed c l :: after ∧ (typedBy c before).length = i := by
  induction tr generalizing i with
  | nil => simp [typedBy] at h
  | cons e tr ih =>
    have skip : typedBy c [e] = [] → ∃ before after, e :: tr = before ++ .typed c l :: after ∧ (typedBy c before).length = i := by
      intro he
      rw [show e :: tr = [e] ++ tr from rfl, typedBy_append, he, List.nil_append] at h
      obtain ⟨x, y, h1, h2⟩ := ih h
      exact ⟨e :: x, y, by rw [h1]; rfl, by rw [show e :: x = [e] ++ x from rfl, typedBy_append, he]; exact h2⟩
    cases e with
    | typed c' l' =>
      by_cases hc : c' = c
      · subst hc
        have e1 : ∀ t, typedBy c' (.typed c' l' :: t) = l' :: typedBy c' t := fun t => by simp [typedBy]
        rw [e1] at h
        cases i with
        | zero => cases h; exact ⟨[], tr, rfl, rfl⟩
        | succ i =>
          obtain ⟨x, y, h1, h2⟩ := ih (by simpa using h)
          exact ⟨.typed c' l' :: x, y, by rw [h1]; rfl, by rw [e1]; simp [h2]⟩
      · exact skip (by simp [typedBy, hc])
    | _ => exact skip rfl

/-- When a user types a line, the replies to all lines before it have been shown. -/
theorem typed_when {a0 : DB} (h0 : Abs st a0) {before after : List Desk.Ev} {c : Nat} {l : Bytes} {s : Desk.Sys}
    (h : Exec (Desk.Step ω U) (Desk.new d st) (before ++ .typed c l :: after) s)
    (ho : ∀ x ∈ doneIn (seenIn (serverOf (before ++ .typed c l :: after))), x.2.1.ord.Fair ∧ Sized x.2.2) :
    (shownTo c before).length = (typedBy c before).length := by
  obtain ⟨s1, h1, h2⟩ := h.split
  obtain ⟨s2, h3, -⟩ := Exec.split (before := [Desk.Ev.typed c l]) h2
  have hs := exec_single h3
  have ho1 : ∀ x ∈ doneIn (seenIn (serverOf before)), x.2.1.ord.Fair ∧ Sized x.2.2 := fun x hx => ho x (by rw [serverOf_append, seenIn_append, doneIn_append]; simp [hx])
  cases hs with
  | typed _ _ _ hu hp => exact ((termInv h0 h1 ho1 hu).count.2.1 (.inr hp)).symm

theorem got_more {before after : List Desk.Ev} {c i : Nat} {x : Command} {r : Resp} (h : Got before c i x r) : Got (before ++ after) c i x r := by
  obtain ⟨l, h1, h2, h3⟩ := h
  refine ⟨l, ?_, h2, ?_⟩
  · rw [typedBy_append, List.getElem?_append_left (List.getElem?_eq_some_iff.1 h1).1, h1]
  · rw [shownTo_append, List.getElem?_append_left (List.getElem?_eq_some_iff.1 h3).1, h3]

/-- Who has the lock is alone. `Key c j p`: user `c` got it with line `j`, at place `p`. `Line c i q`: user `c` freed it with line `i`, at place `q`. -/
theorem lock_alone {Won : Nat → Prop} {Key Line : Nat → Nat → Nat → Prop} (won : ∀ c j p, Key c j p → Won p)
    (between : ∀ p p', Won p → Won p' → p < p' → ∃ q c i j p2, p < q ∧ q < p' ∧ Line c i q ∧ Key c j p2 ∧ p2 < q ∧ ∀ i', j < i' → i' < i → ∀ q', ¬ Line c i' q')
    (inj : ∀ c c' j j' p, Key c j p → Key c' j' p → c = c' ∧ j = j') (order : ∀ c i i' q q', Line c i q → Line c i' q' → q' < q → i' < i)
    (first : ∀ c j p i q, Key c j p → Line c i q → p < q → j < i) (N : Nat) :
    ∀ c j p I, Key c j p → (∀ i q, Line c i q → q < N → i < I) → (∀ i, j < i → i < I → ∀ q, ¬ Line c i q) → ∀ p', p < p' → p' < N → ¬ Won p' := by
  induction N using Nat.strongRecOn with
  | _ N ih =>
    intro c j p I hkey hI hno p' hp hp' hw
    have none := ih p' hp' c j p I hkey (fun i q hl hq => hI i q hl (by omega)) hno
    obtain ⟨q, c2, i2, j2, p2, g1, g2, g3, g4, g5, g6⟩ := between p p' (won _ _ _ hkey) hw hp
    have none2 := ih q (by omega) c2 j2 p2 i2 g4 (fun i q' hl hq => order _ _ _ _ _ g3 hl hq) g6
    rcases Nat.lt_trichotomy p2 p with h | rfl | h
    · exact none2 p h g1 (won _ _ _ hkey)
    · obtain ⟨rfl, rfl⟩ := inj _ _ _ _ _ hkey g4
      exact hno i2 (first _ _ _ _ _ hkey g3 g1) (hI _ _ g3 (by omega)) q g3
    · exact none p2 h (by omega) (won _ _ _ g4)

/-- What is known of everything that was executed and everything the users typed. -/
structure OnRecord (U : Nat → Bool) (tr : List Desk.Ev) (qs : List (List Resp)) (rs : List Resp) (place : Nat → Nat → Nat) : Prop where
  one : OneDatabase U tr qs rs place
  asked : List.Forall₂ (RequestOf tr) (doneIn (seenIn (serverOf tr))) qs
  line : ∀ (q n : Nat) env r c o, (doneIn (seenIn (serverOf tr)))[q]? = some (n, env, r) → (n, o) ∈ askedBy c (seenIn (serverOf tr)) → U c = true →
    ∃ i l ws, place c i = q ∧ (typedBy c tr)[i]? = some l ∧ Words l ws ∧ qs[q]? = some (ws.map .bulk) ∧
      ∀ (before after : List Desk.Ev) (c' i' : Nat), tr = before ++ after → U c' = true → i' < (shownTo c' before).length →
        (typedBy c before).length ≤ i → place c' i' < q
  turn : ∀ before c l after, tr = before ++ .typed c l :: after → (shownTo c before).length = (typedBy c before).length

/-- If an element is never removed it stays. -/
theorem lock_stays {a a' : DB} {qs : List (List Resp)} {rs : List Resp} {k m : Bytes} (ht : Trace a qs rs a')
    (hk : ∀ q ∈ qs, Writes .set q k → Means q (.sadd k [m])) (hm : m ∈ a.setAt k) : m ∈ a'.setAt k := by
  induction qs generalizing a rs with
  | nil => cases ht; exact hm
  | cons q qs ih =>
    obtain ⟨a1, r, rs, rfl, h1, -, -, f1, h2⟩ := trace_first ht
    refine ih h1 (fun q hq => hk q (by simp [hq])) ?_
    by_cases hw : Writes .set q k
    · rcases h2 _ (hk q (by simp) hw) with g | ⟨e, t, g, -⟩
      · simp only [Step] at g
        split at g
        · cases g
        · cases g
          simp [DB.setAt, DB.setSet]
      · simp only [Step] at g
        split at g <;> cases g
    · rw [DB.setAt, f1 k hw]
      exact hm

/-- Who added an element finds it there in the end, if it is not removed afterwards. -/
theorem lock_ends {a a' : DB} {qs : List (List Resp)} {rs : List Resp} {k m : Bytes} (ht : Trace a qs rs a')
    (hk : ∀ q ∈ qs, Writes .set q k → Means q (.sadd k [m]) ∨ Means q (.srem k [m])) {p : Nat} (hp : Placed qs rs p (.sadd k [m]) (.int 1))
    (hno : ∀ (q : Nat) x, p < q → qs[q]? = some x → ¬ Means x (.srem k [m])) : m ∈ a'.setAt k := by
  induction qs generalizing a rs p with
  | nil => obtain ⟨q, h, -⟩ := hp; simp at h
  | cons q qs ih =>
    obtain ⟨a1, r, rs, rfl, h1, -, -, -, h2⟩ := trace_first ht
    have hk' : ∀ q ∈ qs, Writes .set q k → Means q (.sadd k [m]) ∨ Means q (.srem k [m]) := fun q hq => hk q (by simp [hq])
    cases p with
    | zero =>
      refine lock_stays h1 (fun q hq hw => (hk' q hq hw).resolve_right ?_) ?_
      · obtain ⟨i, hi, rfl⟩ := List.getElem_of_mem hq
        exact hno (i + 1) _ (by omega) (by simp [List.getElem?_eq_getElem hi])
      · rcases h2 _ (at_zero hp).1 with g | ⟨e, t, g, -⟩
        · simp only [Step] at g
          split at g
          · cases g
          · cases g
            simp [DB.setAt, DB.setSet]
        · simp only [Step] at g
          split at g <;> cases g
    | succ p => exact ih h1 hk' (at_succ hp) fun q x hq hx => hno (q + 1) x (by omega) (by simpa using hx)

/-- The lock: at most one has it; if one has it in the end the element is in the set in the end; and if it was in the set in the beginning it is there in the end
and nobody gets the lock. -/
theorem lock_record {tr : List Desk.Ev} {qs : List (List Resp)} {rs : List Resp} {place : Nat → Nat → Nat} (hrec : OnRecord U tr qs rs place) {a a' : DB}
    (h1 : Trace a qs rs a') {k m : Bytes}
    (hk : ∀ objs, Ran tr objs → Writes .set objs k → Means objs (.sadd k [m]) ∨ Means objs (.srem k [m]))
    (hr : ∀ c n o objs, (n, o) ∈ askedBy c (seenIn (serverOf tr)) → ArrayOf o objs → Means objs (.srem k [m]) → U c = true)
    (hd : ∀ before c l after, tr = before ++ .typed c l :: after → Says l (.srem k [m]) → HasLock before k m c) :
    (∀ c c', U c = true → U c' = true → HasLock tr k m c → HasLock tr k m c' → c = c') ∧ (∀ c, U c = true → HasLock tr k m c → m ∈ a'.setAt k) ∧
      (m ∈ a.setAt k → m ∈ a'.setAt k ∧ ∀ p, ¬ Placed qs rs p (.sadd k [m]) (.int 1)) := by
  obtain ⟨h3, h4, h5, -⟩ := id hrec
  have hk' : ∀ q ∈ qs, Writes .set q k → Means q (.sadd k [m]) ∨ Means q (.srem k [m]) := fun q hq => hk q (ran_of h4 q hq)
  let Won : Nat → Prop := fun p => Placed qs rs p (.sadd k [m]) (.int 1)
  let Key : Nat → Nat → Nat → Prop := fun c j p => U c = true ∧ Got tr c j (.sadd k [m]) (.int 1) ∧ place c j = p
  let Line : Nat → Nat → Nat → Prop := fun c i q => U c = true ∧ place c i = q ∧ (∃ l, (typedBy c tr)[i]? = some l ∧ Says l (.srem k [m])) ∧
    ∀ (before after : List Desk.Ev) (c' i' : Nat), tr = before ++ after → U c' = true → i' < (shownTo c' before).length → (typedBy c before).length ≤ i → place c' i' < q
  have won : ∀ c j p, Key c j p → Won p := by
    rintro c j p ⟨g1, g2, rfl⟩
    exact got_at h3 g1 g2
  -- lines of one user, in order
  have upTo : ∀ {c i l}, (typedBy c tr)[i]? = some l → ∃ before after, tr = before ++ after ∧ (typedBy c before).length = i ∧ (shownTo c before).length = i := by
    intro c i l hl
    obtain ⟨b, e, rfl, he⟩ := typed_split hl
    exact ⟨b, _, rfl, he, (hrec.turn _ _ _ _ rfl).trans he⟩
  have freed : ∀ (q : Nat) x, qs[q]? = some x → Means x (.srem k [m]) → ∃ c i j p2, Line c i q ∧ Key c j p2 ∧ p2 < q ∧ ∀ i', j < i' → i' < i → ∀ q', ¬ Line c i' q' := by
    intro q x g3 g4
    have hql : q < qs.length := (List.getElem?_eq_some_iff.1 g3).1
    have hql' : q < (doneIn (seenIn (serverOf tr))).length := by rw [h4.length_eq]; exact hql
    obtain ⟨c, o, k1, k2⟩ := (List.forall₂_iff_get.1 h4).2 q hql' hql
    have hx : qs.get ⟨q, hql⟩ = x := (List.getElem?_eq_some_iff.1 g3).2
    rw [hx] at k2
    have huc := hr c _ o x k1 k2 g4
    obtain ⟨i, l, ws, e1, e2, e3, e4, e5⟩ := h5 q _ _ _ c o (List.getElem?_eq_getElem hql') k1 huc
    rw [g3] at e4
    cases e4
    have hsays : Says l (.srem k [m]) := ⟨ws, e3, g4⟩
    obtain ⟨b, e, hb, he⟩ := typed_split e2
    obtain ⟨j, j1, j2⟩ := hd b c l e hb hsays
    refine ⟨c, i, j, place c j, ⟨huc, e1, ⟨l, e2, hsays⟩, e5⟩, ⟨huc, by rw [hb]; exact got_more j1, rfl⟩, ?_, ?_⟩
    · exact e5 b _ c j hb huc (got_shown j1) (by omega)
    · rintro i' hi1 hi2 q' ⟨-, -, ⟨l', m1, m2⟩, -⟩
      refine j2 i' l' hi1 ?_ m2
      rw [hb, typedBy_append, List.getElem?_append_left (by omega)] at m1
      exact m1
  have between : ∀ p p', Won p → Won p' → p < p' → ∃ q c i j p2, p < q ∧ q < p' ∧ Line c i q ∧ Key c j p2 ∧ p2 < q ∧ ∀ i', j < i' → i' < i → ∀ q', ¬ Line c i' q' := by
    intro p p' hp hp' hlt
    obtain ⟨q, x, g1, g2, g3, g4⟩ := lock_between h1 hk' hp hp' hlt
    obtain ⟨c, i, j, p2, g⟩ := freed q x g3 g4
    exact ⟨q, c, i, j, p2, g1, g2, g⟩
  have inj : ∀ c c' j j' p, Key c j p → Key c' j' p → c = c' ∧ j = j' := by
    rintro c c' j j' p ⟨g1, g2, rfl⟩ ⟨g1', g2', e⟩
    exact h3.distinct c c' j j' g1 g1' (got_shown g2) (got_shown g2') e.symm
  have order : ∀ c i i' q q', Line c i q → Line c i' q' → q' < q → i' < i := by
    rintro c i i' q q' ⟨g1, g2, -, -⟩ ⟨-, g2', ⟨l', g3', -⟩, g4'⟩ hlt
    rcases Nat.lt_trichotomy i' i with hi | rfl | hi
    · exact hi
    · omega
    · obtain ⟨b, e, hb, hb1, hb2⟩ := upTo g3'
      have := g4' b e c i hb g1 (by omega) (by omega)
      omega
  have first : ∀ c j p i q, Key c j p → Line c i q → p < q → j < i := by
    rintro c j p i q ⟨g1, g2, g3⟩ ⟨-, g2', -⟩ hlt
    rcases Nat.lt_trichotomy j i with hi | rfl | hi
    · exact hi
    · omega
    · obtain ⟨l, m1, -, m2⟩ := id g2
      obtain ⟨b, e, hb, hb1, hb2⟩ := upTo m1
      have := h3.inTime b e c c i j hb g1 g1 (by omega) (by omega) (got_shown g2)
      omega
  have only : ∀ {c j}, U c = true → Got tr c j (.sadd k [m]) (.int 1) → (∀ (i : Nat) l, j < i → (typedBy c tr)[i]? = some l → ¬ Says l (.srem k [m])) →
      ∀ p, Won p → ¬ place c j < p := by
    intro c j hu g hno p hw hlt
    refine lock_alone won between inj order first qs.length c j _ (typedBy c tr).length ⟨hu, g, rfl⟩ ?_ ?_ _ hlt ?_ hw
    · rintro i q ⟨-, -, ⟨l, m1, -⟩, -⟩ -
      exact (List.getElem?_eq_some_iff.1 m1).1
    · rintro i hi - q ⟨-, -, ⟨l, m1, m2⟩, -⟩
      exact hno i l hi m1 m2
    · obtain ⟨q, m1, -⟩ := hw
      exact (List.getElem?_eq_some_iff.1 m1).1
  refine ⟨?_, ?_, ?_⟩
  · rintro c c' hu hu' ⟨j, g1, g2⟩ ⟨j', g1', g2'⟩
    rcases Nat.lt_trichotomy (place c j) (place c' j') with hlt | e | hlt
    · exact absurd hlt (only hu g1 g2 _ (got_at h3 hu' g1'))
    · exact (h3.distinct c c' j j' hu hu' (got_shown g1) (got_shown g1') e).1
    · exact absurd hlt (only hu' g1' g2' _ (got_at h3 hu g1))
  · rintro c hu ⟨j, g1, g2⟩
    refine lock_ends h1 hk' (got_at h3 hu g1) fun q x hq hx hm => ?_
    obtain ⟨c2, i2, j2, p2, k1, k2, k3, k4⟩ := freed q x hx hm
    rcases Nat.lt_trichotomy p2 (place c j) with hlt | e | hlt
    · exact lock_alone won between inj order first q c2 j2 p2 i2 k2 (fun i q' hl hq => order _ _ _ _ _ k1 hl hq) k4 _ hlt hq (got_at h3 hu g1)
    · obtain ⟨rfl, rfl⟩ := inj _ _ _ _ _ ⟨hu, g1, e.symm⟩ k2
      obtain ⟨-, -, ⟨l, m1, m2⟩, -⟩ := id k1
      exact g2 i2 l (first _ _ _ _ _ k2 k1 k3) m1 m2
    · exact only hu g1 g2 p2 (won _ _ _ k2) hlt
  · intro hm
    have never : ∀ (q : Nat) x, qs[q]? = some x → ¬ Means x (.srem k [m]) := by
      intro q
      induction q using Nat.strongRecOn with
      | _ q ih =>
        intro x hx hs
        obtain ⟨c, i, j, p2, -, k2, k3, -⟩ := freed q x hx hs
        obtain ⟨q', x', e1, e2, e3⟩ := lock_kept h1 hk' hm (won _ _ _ k2)
        exact ih q' (by omega) x' e2 e3
    refine ⟨lock_stays h1 (fun q hq hw => (hk' q hq hw).resolve_right ?_) hm, fun p hp => ?_⟩
    · obtain ⟨i, hi, rfl⟩ := List.getElem_of_mem hq
      exact never i _ (List.getElem?_eq_getElem hi)
    · obtain ⟨q', x', -, e2, e3⟩ := lock_kept h1 hk' hm hp
      exact never q' x' e2 e3

/-- C97 (lock): if nothing but SADD and SREM of one element is ever done to a set, SREM only by users who have the lock, then at most one user has it at any
time. -/
theorem C97_lock {a0 : DB} (h0 : Abs st a0) {tr : List Desk.Ev} {s : Desk.Sys} (h : Exec (Desk.Step ω U) (Desk.new d st) tr s)
    (ho : ∀ x ∈ doneIn (seenIn (serverOf tr)), x.2.1.ord.Fair ∧ Sized x.2.2) {k m : Bytes}
    (hk : ∀ objs, Ran tr objs → Writes .set objs k → Means objs (.sadd k [m]) ∨ Means objs (.srem k [m]))
    (hr : ∀ c n o objs, (n, o) ∈ askedBy c (seenIn (serverOf tr)) → ArrayOf o objs → Means objs (.srem k [m]) → U c = true)
    (hd : ∀ before c l after, tr = before ++ .typed c l :: after → Says l (.srem k [m]) → HasLock before k m c)
    {c c' : Nat} (hu : U c = true) (hu' : U c' = true) (hc : HasLock tr k m c) (hc' : HasLock tr k m c') : c = c' := by
  obtain ⟨qs, a, place, h1, h2, h3, h4, h5⟩ := on_record h0 h ho
  exact (lock_record ⟨h3, h4, h5, fun before c l after e => by subst e; exact typed_when h0 h ho⟩ h1 hk hr hd).1 c c' hu hu' hc hc'

/-! ### Examples -/

/-- What was executed in a play. -/
theorem ran_play {xs : List Script.Line} {tr : List Desk.Ev} (h : seenIn (serverOf tr) = Script.whole xs) {c n : Nat} {o : Resp} {objs : List Resp}
    (hq : (n, o) ∈ askedBy c (seenIn (serverOf tr))) (ha : ArrayOf o objs) : ∃ x ∈ xs, x.1 = c ∧ objs = req x.2.1 := by
  have e : askedBy c (seenIn (serverOf tr)) = ((xs.zipIdx 0).filter fun y => y.1.1 == c).map fun y => (y.2, .array (req y.1.2.1)) := by
    rw [h, ← Script.asked_rounds]; rfl
  rw [e] at hq
  obtain ⟨y, h1, h2⟩ := List.mem_map.1 hq
  obtain ⟨h3, h4⟩ := List.mem_filter.1 h1
  cases h2
  refine ⟨y.1, List.fst_mem_of_mem_zipIdx h3, by simpa using h4, ?_⟩
  rcases ha with ha | ⟨ha, -⟩
  · exact (Resp.array.inj ha).symm
  · cases ha

theorem ran_in_play {xs : List Script.Line} {tr : List Desk.Ev} (h : seenIn (serverOf tr) = Script.whole xs) {objs : List Resp} (hr : Ran tr objs) :
    ∃ x ∈ xs, objs = req x.2.1 := by
  obtain ⟨e, -, c, o, h1, h2⟩ := hr
  obtain ⟨x, h3, -, h4⟩ := ran_play h h1 h2
  exact ⟨x, h3, h4⟩

/-- What a user got in a play. -/
theorem got_play {xs : List Script.Line} {tr : List Desk.Ev} {c : Nat} (h1 : shownTo c tr = (xs.filter fun x => x.1 == c).map (fun x => x.2.2))
    (h2 : List.Forall₂ Words (typedBy c tr) ((xs.filter fun x => x.1 == c).map fun x => x.2.1)) {i : Nat} {ws : List Bytes} {r : Resp} {x : Command}
    (hi : (xs.filter fun x => x.1 == c)[i]? = some (c, ws, r)) (hm : Means (req ws) x) : Got tr c i x r := by
  have hl : i < (typedBy c tr).length := by rw [h2.length_eq, List.length_map]; exact (List.getElem?_eq_some_iff.1 hi).1
  refine ⟨(typedBy c tr)[i], List.getElem?_eq_getElem hl, ⟨ws, ?_, hm⟩, by rw [h1, List.getElem?_map, hi]; rfl⟩
  have := (List.forall₂_iff_get.1 h2).2 i hl (by rw [← h2.length_eq]; exact hl)
  simp only [List.get_eq_getElem, List.getElem_map] at this
  rwa [show ((xs.filter fun x => x.1 == c)[i]'(List.getElem?_eq_some_iff.1 hi).1) = (c, ws, r) from (List.getElem?_eq_some_iff.1 hi).2] at this

/-- Plain words can be typed. -/
theorem typable_words {l : Bytes} {ws : List Bytes} (h1 : Line l) (h2 : ∀ p, l ≠ p ++ [13]) (h3 : ¬ Quits l) (h4 : Words l ws) : Typable (Script.sent ws) :=
  ⟨l, l, ws, h1, .same h2, h3, h4, rfl⟩

/-- The number 5 is stored at `n`. -/
def five : State := ⟨[(b!"n", Str.new b!"5")], [], [], []⟩

theorem five_abs : Abs five (DB.empty.setStr b!"n" b!"5") := by
  obtain ⟨out, hs, hob⟩ := handle_refines abs_empty env0_fair (objs := req [b!"set", b!"n", b!"5"]) (c := .set b!"n" b!"5") (command_means rfl)
  simp only [Step] at hs
  subst hs
  obtain ⟨st', e, ha⟩ := hob
  have : handle env0 State.empty (req [b!"set", b!"n", b!"5"]) = .ok (five, .simple b!"OK") := rfl
  rw [this] at e
  cases e
  exact ha

/-- Two users draw a number. -/
abbrev drawing : List Script.Line := [(7, [b!"incr", b!"n"], .int 6), (8, [b!"incr", b!"n"], .int 7)]

theorem incr_typable : Typable (Script.sent [b!"incr", b!"n"]) :=
  typable_words (l := b!"incr n") (by simp [Line]) (fun p h => by
    have := congrArg List.getLast? h
    simp at this) (by simp [Quits]) (.space (w := b!"incr") (rest := b!"n") (by simp [Plain]) (.last (w := b!"n") (by simp [Plain])))

theorem incr_parses : parse (Script.sent [b!"incr", b!"n"]) = .ok (.array (req [b!"incr", b!"n"])) [] := by rfl

theorem incr_means : Means (req [b!"incr", b!"n"]) (.incr b!"n" b!"1") := command_means rfl

theorem draw_one {st : State} {a : DB} (h : Abs st a) {s : Bytes} {v : Int} (hs : a.strs b!"n" = some s) (hv : IsInt s v) (hb : InInt64 (v + 1)) :
    ∃ st1 a1 s', handle env0 st (req [b!"incr", b!"n"]) = .ok (st1, .int (v + 1)) ∧ Abs st1 a1 ∧ a1.strs b!"n" = some s' ∧ IsInt s' (v + 1) := by
  obtain ⟨out, h1, h2⟩ := handle_refines h env0_fair incr_means
  match out, h1, h2 with
  | none, h1, h2 => rcases h1 with ⟨_, _, _, _, _, -, -, -, -, -, h⟩ | ⟨-, _, h⟩ | ⟨-, -, h⟩ | ⟨-, -, h⟩ <;> cases h
  | some (a1, .ok r), h1, h2 =>
    obtain ⟨w, s', rfl, g1, g2, g3⟩ := incr_step hs hv (.inl h1)
    cases wraps_exact g1 hb
    obtain ⟨st1, g4, g5⟩ := h2
    exact ⟨st1, a1, s', g4, g5, g2, g3⟩
  | some (a1, .error e), h1, h2 =>
    obtain ⟨w, s', g, -⟩ := incr_step (r := .error []) hs hv (.inr ⟨e, [], h1, rfl⟩)
    cases g

theorem isInt_five : IsInt b!"5" 5 := isInt_iff.2 (by decide +kernel)

theorem drawing_plays : Script.Plays five drawing := by
  obtain ⟨st1, a1, s1, h1, h2, h3, h4⟩ := draw_one five_abs (s := b!"5") (v := 5) (by simp [DB.setStr]) isInt_five (by decide)
  obtain ⟨st2, a2, s2, h5, h6, -⟩ := draw_one h2 h3 h4 (by decide)
  exact .cons rfl h1 incr_parses incr_typable (.int (by omega) (by omega)) (.cons rfl h5 incr_parses incr_typable (.int (by omega) (by omega)) (.nil _))

/-- Two users draw a number each, and get different ones. -/
example : ∃ (tr : List Desk.Ev) (s : Desk.Sys), Exec (Desk.Step ω Script.isUser) (Desk.new d five) tr s ∧
    (∀ x ∈ doneIn (seenIn (serverOf tr)), x.2.1.ord.Fair ∧ Sized x.2.2) ∧
    (∀ objs, Ran tr objs → Writes .str objs b!"n" → Means objs (.incr b!"n" b!"1")) ∧ (5 : Int) + (doneIn (seenIn (serverOf tr))).length < 2 ^ 63 ∧
    Got tr 7 0 (.incr b!"n" b!"1") (.int 6) ∧ Got tr 8 0 (.incr b!"n" b!"1") (.int 7) := by
  obtain ⟨tr, s, h1, h2, h3, h4⟩ := Script.played (ω := ω) (d := d) drawing_plays five_abs
  refine ⟨tr, s, h1, h3, fun objs ho _ => ?_, ?_, got_play (h4 7 rfl).1 (h4 7 rfl).2 (xs := drawing) (ws := [b!"incr", b!"n"]) rfl incr_means,
    got_play (h4 8 rfl).1 (h4 8 rfl).2 (xs := drawing) (ws := [b!"incr", b!"n"]) rfl incr_means⟩
  · obtain ⟨x, h5, rfl⟩ := ran_in_play h2 ho
    simp only [List.mem_cons, List.not_mem_nil, or_false] at h5
    rcases h5 with rfl | rfl <;> exact incr_means
  · rw [h2, show doneIn (Script.whole drawing) = doneIn (Script.rounds 0 drawing) from rfl, Script.done_rounds]
    simp

/-- One user puts something into a queue, another one takes it out. -/
abbrev handing : List Script.Line := [(7, [b!"rpush", b!"q", b!"x"], .int 1), (8, [b!"lpop", b!"q"], .bulk b!"x")]

theorem rpush_typable : Typable (Script.sent [b!"rpush", b!"q", b!"x"]) :=
  typable_words (l := b!"rpush q x") (by simp [Line]) (fun p h => by
    have := congrArg List.getLast? h
    simp at this) (by simp [Quits]) (.space (w := b!"rpush") (rest := b!"q x") (by simp [Plain])
      (.space (w := b!"q") (rest := b!"x") (by simp [Plain]) (.last (w := b!"x") (by simp [Plain]))))

theorem lpop_typable : Typable (Script.sent [b!"lpop", b!"q"]) :=
  typable_words (l := b!"lpop q") (by simp [Line]) (fun p h => by
    have := congrArg List.getLast? h
    simp at this) (by simp [Quits]) (.space (w := b!"lpop") (rest := b!"q") (by simp [Plain]) (.last (w := b!"q") (by simp [Plain])))

theorem rpush_parses : parse (Script.sent [b!"rpush", b!"q", b!"x"]) = .ok (.array (req [b!"rpush", b!"q", b!"x"])) [] := by rfl
theorem lpop_parses : parse (Script.sent [b!"lpop", b!"q"]) = .ok (.array (req [b!"lpop", b!"q"])) [] := by rfl

theorem handing_plays : Script.Plays State.empty handing := by
  obtain ⟨st1, h1, st2, h2⟩ : ∃ st1, handle env0 State.empty (req [b!"rpush", b!"q", b!"x"]) = .ok (st1, .int 1) ∧
      ∃ st2, handle env0 st1 (req [b!"lpop", b!"q"]) = .ok (st2, .bulk b!"x") := ⟨_, rfl, _, rfl⟩
  exact .cons rfl h1 rpush_parses rpush_typable (.int (by omega) (by omega)) (.cons rfl h2 lpop_parses lpop_typable (.bulk (by simp)) (.nil _))

/-- One user puts something into a queue, another one takes it out. -/
example : ∃ (tr : List Desk.Ev) (s : Desk.Sys), Exec (Desk.Step ω Script.isUser) (Desk.new d State.empty) tr s ∧
    (∀ x ∈ doneIn (seenIn (serverOf tr)), x.2.1.ord.Fair ∧ Sized x.2.2) ∧
    (∀ objs, Ran tr objs → Writes .list objs b!"q" → (∃ vs, Means objs (.rpush b!"q" vs)) ∨ Means objs (.lpop b!"q")) ∧
    Got tr 7 0 (.rpush b!"q" [b!"x"]) (.int 1) ∧ Got tr 8 0 (.lpop b!"q") (.bulk b!"x") := by
  obtain ⟨tr, s, h1, h2, h3, h4⟩ := Script.played (ω := ω) (d := d) handing_plays abs_empty
  have m1 : Means (req [b!"rpush", b!"q", b!"x"]) (.rpush b!"q" [b!"x"]) := command_means rfl
  have m2 : Means (req [b!"lpop", b!"q"]) (.lpop b!"q") := command_means rfl
  refine ⟨tr, s, h1, h3, fun objs ho _ => ?_, got_play (h4 7 rfl).1 (h4 7 rfl).2 (xs := handing) rfl m1, got_play (h4 8 rfl).1 (h4 8 rfl).2 (xs := handing) rfl m2⟩
  obtain ⟨x, h5, rfl⟩ := ran_in_play h2 ho
  simp only [List.mem_cons, List.not_mem_nil, or_false] at h5
  rcases h5 with rfl | rfl
  · exact .inl ⟨_, m1⟩
  · exact .inr m2

/-- One user takes a lock and frees it, then another one takes it. -/
abbrev locking : List Script.Line := [(7, [b!"sadd", b!"l", b!"m"], .int 1), (7, [b!"srem", b!"l", b!"m"], .int 1), (8, [b!"sadd", b!"l", b!"m"], .int 1)]

theorem sadd_typable : Typable (Script.sent [b!"sadd", b!"l", b!"m"]) :=
  typable_words (l := b!"sadd l m") (by simp [Line]) (fun p h => by
    have := congrArg List.getLast? h
    simp at this) (by simp [Quits]) (.space (w := b!"sadd") (rest := b!"l m") (by simp [Plain])
      (.space (w := b!"l") (rest := b!"m") (by simp [Plain]) (.last (w := b!"m") (by simp [Plain]))))

theorem srem_typable : Typable (Script.sent [b!"srem", b!"l", b!"m"]) :=
  typable_words (l := b!"srem l m") (by simp [Line]) (fun p h => by
    have := congrArg List.getLast? h
    simp at this) (by simp [Quits]) (.space (w := b!"srem") (rest := b!"l m") (by simp [Plain])
      (.space (w := b!"l") (rest := b!"m") (by simp [Plain]) (.last (w := b!"m") (by simp [Plain]))))

theorem sadd_parses : parse (Script.sent [b!"sadd", b!"l", b!"m"]) = .ok (.array (req [b!"sadd", b!"l", b!"m"])) [] := by rfl
theorem srem_parses : parse (Script.sent [b!"srem", b!"l", b!"m"]) = .ok (.array (req [b!"srem", b!"l", b!"m"])) [] := by rfl

theorem locking_plays : Script.Plays State.empty locking := by
  obtain ⟨st1, h1, st2, h2, st3, h3⟩ : ∃ st1, handle env0 State.empty (req [b!"sadd", b!"l", b!"m"]) = .ok (st1, .int 1) ∧
      ∃ st2, handle env0 st1 (req [b!"srem", b!"l", b!"m"]) = .ok (st2, .int 1) ∧
      ∃ st3, handle env0 st2 (req [b!"sadd", b!"l", b!"m"]) = .ok (st3, .int 1) := ⟨_, rfl, _, rfl, _, rfl⟩
  exact .cons rfl h1 sadd_parses sadd_typable (.int (by omega) (by omega)) (.cons rfl h2 srem_parses srem_typable (.int (by omega) (by omega))
    (.cons rfl h3 sadd_parses sadd_typable (.int (by omega) (by omega)) (.nil _)))

/-- A line has one meaning. -/
theorem says_means {l : Bytes} {ws : List Bytes} (h : Words l ws) {x : Command} (hs : Says l x) : requestCommand (ws.map .bulk) = .ok x := by
  obtain ⟨ws', h1, h2⟩ := hs
  cases C52_words_unique h h1
  exact means_command h2

/-- One user takes a lock and frees it, then another one takes it. -/
example : ∃ (tr : List Desk.Ev) (s : Desk.Sys), Exec (Desk.Step ω Script.isUser) (Desk.new d State.empty) tr s ∧
    (∀ x ∈ doneIn (seenIn (serverOf tr)), x.2.1.ord.Fair ∧ Sized x.2.2) ∧
    (∀ objs, Ran tr objs → Writes .set objs b!"l" → Means objs (.sadd b!"l" [b!"m"]) ∨ Means objs (.srem b!"l" [b!"m"])) ∧
    (∀ c n o objs, (n, o) ∈ askedBy c (seenIn (serverOf tr)) → ArrayOf o objs → Means objs (.srem b!"l" [b!"m"]) → Script.isUser c = true) ∧
    (∀ before c l after, tr = before ++ .typed c l :: after → Says l (.srem b!"l" [b!"m"]) → HasLock before b!"l" b!"m" c) ∧
    Got tr 7 0 (.sadd b!"l" [b!"m"]) (.int 1) ∧ HasLock tr b!"l" b!"m" 8 := by
  obtain ⟨tr, s, h1, h2, h3, h4⟩ := Script.played (ω := ω) (d := d) locking_plays abs_empty
  have m1 : Means (req [b!"sadd", b!"l", b!"m"]) (.sadd b!"l" [b!"m"]) := command_means rfl
  have m2 : Means (req [b!"srem", b!"l", b!"m"]) (.srem b!"l" [b!"m"]) := command_means rfl
  have g7 : Got tr 7 0 (.sadd b!"l" [b!"m"]) (.int 1) := got_play (h4 7 rfl).1 (h4 7 rfl).2 (xs := locking) rfl m1
  have g8 : Got tr 8 0 (.sadd b!"l" [b!"m"]) (.int 1) := got_play (h4 8 rfl).1 (h4 8 rfl).2 (xs := locking) rfl m1
  refine ⟨tr, s, h1, h3, fun objs ho _ => ?_, fun c n o objs ha hb _ => ?_, ?_, g7, 0, g8, fun j l hj hl => ?_⟩
  · obtain ⟨x, h5, rfl⟩ := ran_in_play h2 ho
    simp only [List.mem_cons, List.not_mem_nil, or_false] at h5
    rcases h5 with rfl | rfl | rfl
    · exact .inl m1
    · exact .inr m2
    · exact .inl m1
  · obtain ⟨x, h5, rfl, -⟩ := ran_play h2 ha hb
    simp only [List.mem_cons, List.not_mem_nil, or_false] at h5
    rcases h5 with rfl | rfl | rfl <;> rfl
  · rintro before c l after rfl hs
    have hu : Script.isUser c = true := by
      obtain ⟨s1, -, h⟩ := h1.split
      obtain ⟨s2, h, -⟩ := Exec.split (before := [Desk.Ev.typed c l]) h
      cases exec_single h with
      | typed => assumption
    have hw := typed_when abs_empty h1 h3
    obtain ⟨-, h6⟩ := h4 c hu
    have hl : (typedBy c (before ++ .typed c l :: after))[(typedBy c before).length]? = some l := by simp [typedBy]
    have hn : (typedBy c before).length < (typedBy c (before ++ .typed c l :: after)).length := (List.getElem?_eq_some_iff.1 hl).1
    have h7 := (List.forall₂_iff_get.1 h6).2 _ hn (by rw [← h6.length_eq]; exact hn)
    rw [List.get_eq_getElem, List.get_eq_getElem, (List.getElem?_eq_some_iff.1 hl).2] at h7
    have h8 := says_means h7 hs
    rw [h6.length_eq] at hn
    have hc : c = 7 ∧ (typedBy c before).length = 1 := by
      generalize (typedBy c before).length = j at *
      have : c = 7 ∨ c = 8 := by simpa [Script.isUser] using hu
      rcases this with rfl | rfl
      · match j, hn with
        | 0, _ => cases h8
        | 1, _ => exact ⟨rfl, rfl⟩
      · match j, hn with
        | 0, _ => cases h8
    obtain ⟨rfl, hc⟩ := hc
    obtain ⟨l0, g1, g2, g3⟩ := g7
    rw [typedBy_append, List.getElem?_append_left (by omega)] at g1
    rw [shownTo_append, List.getElem?_append_left (by omega)] at g3
    refine ⟨0, ⟨l0, g1, g2, g3⟩, fun j l hj hl => ?_⟩
    have := (List.getElem?_eq_some_iff.1 hl).1
    omega
  · have h5 : (typedBy 8 tr).length = 1 := (h4 8 rfl).2.length_eq
    have := (List.getElem?_eq_some_iff.1 hl).1
    omega

end Verif.Props
