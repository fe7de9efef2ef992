import Verif.Spec.Row
import Verif.Props.Journal
import Verif.Props.Register

/-! # C104 – keys that are only written together -/

namespace Verif.Props

open Spec
open Fut (upd)

variable {ω : Nat → Nat} {U : Nat → Bool} {d : Bytes} {st : State}

/-! ### The values the keys have one after the other -/

open Classical in
/-- How many of the requests are an MSET of the keys. -/
noncomputable def timesMset (ks : List Bytes) (qs : List (List Resp)) (rs : List Resp) : Nat :=
  (qs.zip rs).countP fun y => decide (∃ vs, Means y.1 (.mset ks vs))

/-- What becomes of keys that are only written together. -/
structure Changes (ks : List Bytes) (qs : List (List Resp)) (rs : List Resp) (init final : Bytes → Option Bytes) (rows : List (Bytes → Option Bytes)) (ver : Nat → Nat) : Prop where
  begins : ∃ w, rows[0]? = some w ∧ ∀ k ∈ ks, w k = init k
  ends : ∃ w, rows.getLast? = some w ∧ ∀ k ∈ ks, w k = final k
  count : rows.length = timesMset ks qs rs + 1
  reads : ∀ p ks' r, (∀ k ∈ ks', k ∈ ks) → Placed qs rs p (.mget ks') r → ∃ w, rows[ver p]? = some w ∧ r = .array (ks'.map fun k => bulk? (w k))
  looks : ∀ p k r, k ∈ ks → Placed qs rs p (.get k) r → ∃ w, rows[ver p]? = some w ∧ r = bulk? (w k)
  writes : ∀ p vs r, Placed qs rs p (.mset ks vs) r → r = okReply ∧ 0 < ver p ∧ ∃ w, rows[ver p]? = some w ∧ ks.map w = vs.map some
  ordered : ∀ p p', p < p' → p' < qs.length → ver p ≤ ver p'
  anew : ∀ p p' vs r, p < p' → Placed qs rs p' (.mset ks vs) r → ver p < ver p'
  made : ∀ n w, rows[n + 1]? = some w → ∃ q ∈ qs, ∃ vs, ks.map w = vs.map some ∧ Means q (.mset ks vs)

theorem changes_end (ks : List Bytes) (init : Bytes → Option Bytes) : Changes ks [] [] init init [init] (fun _ => 0) := by
  have none : ∀ {p x r}, ¬ Placed [] [] p x r := by
    rintro p x r ⟨q, h, -⟩
    simp at h
  exact ⟨⟨_, rfl, fun _ _ => rfl⟩, ⟨_, rfl, fun _ _ => rfl⟩, rfl, fun _ _ _ _ h => absurd h none, fun _ _ _ _ h => absurd h none, fun _ _ _ h => absurd h none,
    fun _ _ _ h => by simp at h, fun _ _ _ _ _ h => absurd h none, fun _ _ h => by simp at h⟩

/-- The keys are set. -/
theorem Changes.set {ks : List Bytes} {q : List Resp} {qs : List (List Resp)} {rs : List Resp} {vs : List Bytes} {init init' final : Bytes → Option Bytes}
    {rows : List (Bytes → Option Bytes)} {ver : Nat → Nat} (h : Changes ks qs rs init final rows ver) (hq : Means q (.mset ks vs)) (hv : ks.map init = vs.map some) :
    Changes ks (q :: qs) (okReply :: rs) init' final (init' :: rows) (shifted 1 fun p => ver p + 1) := by
  obtain ⟨w0, b1, b2⟩ := h.begins
  have b3 : ks.map w0 = vs.map some := hv ▸ List.map_congr_left b2
  refine ⟨⟨_, rfl, fun _ _ => rfl⟩, ?_, ?_, ?_, ?_, ?_, ?_, ?_, ?_⟩
  · obtain ⟨w, e1, e2⟩ := h.ends
    exact ⟨w, by rw [List.getLast?_cons, e1]; rfl, e2⟩
  · have : ∃ vs, Means q (.mset ks vs) := ⟨vs, hq⟩
    simp only [timesMset, List.zip_cons_cons, List.length_cons, h.count]
    rw [List.countP_cons_of_pos (by simpa using this)]
  · intro p ks' r hk hp
    cases p with
    | zero => cases means_unique hq (at_zero hp).1
    | succ p =>
      obtain ⟨v, h1, h2⟩ := h.reads p ks' r hk (at_succ hp)
      exact ⟨v, by simpa [shifted] using h1, h2⟩
  · intro p k r hk hp
    cases p with
    | zero => cases means_unique hq (at_zero hp).1
    | succ p =>
      obtain ⟨v, h1, h2⟩ := h.looks p k r hk (at_succ hp)
      exact ⟨v, by simpa [shifted] using h1, h2⟩
  · intro p vs' r hp
    cases p with
    | zero =>
      obtain ⟨h1, rfl⟩ := at_zero hp
      cases means_unique hq h1
      exact ⟨rfl, by simp [shifted], w0, by simpa [shifted] using b1, b3⟩
    | succ p =>
      obtain ⟨h1, h2, w, h3, h4⟩ := h.writes p vs' r (at_succ hp)
      exact ⟨h1, by simp [shifted], w, by simpa [shifted] using h3, h4⟩
  · intro p p' hlt hp'
    cases p' with
    | zero => omega
    | succ p' =>
      cases p with
      | zero => simp [shifted]
      | succ p =>
        have := h.ordered p p' (by omega) (by simpa using hp')
        simpa [shifted] using this
  · intro p p' vs' r hlt hp'
    cases p' with
    | zero => omega
    | succ p' =>
      cases p with
      | zero =>
        have := (h.writes p' vs' r (at_succ hp')).2.1
        simp only [shifted]
        omega
      | succ p =>
        have := h.anew p p' vs' r (by omega) (at_succ hp')
        simpa [shifted] using this
  · intro n w hn
    rw [List.getElem?_cons_succ] at hn
    cases n with
    | zero =>
      rw [b1] at hn
      cases hn
      exact ⟨q, by simp, vs, b3, hq⟩
    | succ n =>
      obtain ⟨q', h1, h2⟩ := h.made n w hn
      exact ⟨q', by simp [h1], h2⟩

/-- The keys stay as they are. -/
theorem Changes.keep {ks : List Bytes} {q : List Resp} {qs : List (List Resp)} {r : Resp} {rs : List Resp} {init init' final : Bytes → Option Bytes}
    {rows : List (Bytes → Option Bytes)} {ver : Nat → Nat} (h : Changes ks qs rs init final rows ver) (hi : ∀ k ∈ ks, init k = init' k)
    (hs : ∀ vs, ¬ Means q (.mset ks vs)) (hm : ∀ ks', Means q (.mget ks') → r = .array (ks'.map fun k => bulk? (init' k))) (hg : ∀ k, Means q (.get k) → r = bulk? (init' k)) :
    Changes ks (q :: qs) (r :: rs) init' final rows (shifted 0 ver) := by
  obtain ⟨w0, b1, b2⟩ := h.begins
  have b3 : ∀ k ∈ ks, w0 k = init' k := fun k hk => (b2 k hk).trans (hi k hk)
  refine ⟨⟨w0, b1, b3⟩, h.ends, ?_, ?_, ?_, ?_, ?_, ?_, fun n v hn => ?_⟩
  · rw [h.count]
    simp only [timesMset, List.zip_cons_cons]
    rw [List.countP_cons_of_neg (by simpa using hs)]
  · intro p ks' r' hk hp
    cases p with
    | zero =>
      obtain ⟨h1, rfl⟩ := at_zero hp
      refine ⟨w0, b1, (hm _ h1).trans ?_⟩
      congr 1
      exact List.map_congr_left fun k hk' => by rw [b3 k (hk k hk')]
    | succ p => exact h.reads p ks' r' hk (at_succ hp)
  · intro p k r' hk hp
    cases p with
    | zero =>
      obtain ⟨h1, rfl⟩ := at_zero hp
      exact ⟨w0, b1, by rw [hg _ h1, b3 k hk]⟩
    | succ p => exact h.looks p k r' hk (at_succ hp)
  · intro p vs r' hp
    cases p with
    | zero => exact absurd (at_zero hp).1 (hs vs)
    | succ p => exact h.writes p vs r' (at_succ hp)
  · intro p p' hlt hp'
    cases p' with
    | zero => omega
    | succ p' =>
      cases p with
      | zero => simp [shifted]
      | succ p => exact h.ordered p p' (by omega) (by simpa using hp')
  · intro p p' vs r' hlt hp'
    cases p' with
    | zero => omega
    | succ p' =>
      cases p with
      | zero => exact (h.writes p' vs r' (at_succ hp')).2.1
      | succ p => exact h.anew p p' vs r' (by omega) (at_succ hp')
  · obtain ⟨q', h1, h2⟩ := h.made n v hn
    exact ⟨q', by simp [h1], h2⟩

/-- Setting keys in a row leaves other keys alone. -/
theorem setRow_other {ps : List (Bytes × Bytes)} {a : DB} {k : Bytes} (h : ∀ p ∈ ps, p.1 ≠ k) : (ps.foldl (fun a p => a.setStr p.1 p.2) a).strs k = a.strs k := by
  induction ps generalizing a with
  | nil => rfl
  | cons p ps ih =>
    rw [List.foldl_cons, ih fun p' hp => h p' (by simp [hp])]
    simp [DB.setStr, Function.update_of_ne (h p (by simp)).symm]

/-- What distinct keys are after they were set in a row. -/
theorem setRow {ks vs : List Bytes} {a : DB} (hn : ks.Nodup) (hl : ks.length = vs.length) :
    ks.map ((ks.zip vs).foldl (fun a p => a.setStr p.1 p.2) a).strs = vs.map some := by
  induction ks generalizing vs a with
  | nil => cases vs <;> simp_all
  | cons k ks ih =>
    obtain _ | ⟨v, vs⟩ := vs
    · simp at hl
    · obtain ⟨h1, h2⟩ := List.nodup_cons.1 hn
      simp only [List.zip_cons_cons, List.foldl_cons, List.map_cons]
      rw [ih h2 (by simpa using hl), setRow_other]
      · simp [DB.setStr]
      · rintro p hp rfl
        exact h1 (List.of_mem_zip hp).1

theorem changes {a a' : DB} {qs : List (List Resp)} {rs : List Resp} {ks : List Bytes} (ht : Trace a qs rs a') (hn : ks.Nodup) (h0 : ks ≠ [])
    (hk : ∀ q ∈ qs, ∀ k ∈ ks, Writes .str q k → ∃ vs, Means q (.mset ks vs)) :
    ∃ rows ver, Changes ks qs rs a.strs a'.strs rows ver := by
  induction qs generalizing a rs with
  | nil => cases ht; exact ⟨_, _, changes_end ks _⟩
  | cons q qs ih =>
    obtain ⟨a1, r, rs, rfl, h1, f1, -, -, h2⟩ := trace_first ht
    obtain ⟨rows, ver, hv⟩ := ih h1 fun q hq => hk q (by simp [hq])
    by_cases hs : ∃ vs, Means q (.mset ks vs)
    · obtain ⟨vs, hm⟩ := hs
      rcases h2 _ hm with g | ⟨e, t, g, rfl⟩
      · simp only [Step, if_neg h0] at g
        cases g
        exact ⟨_, _, hv.set hm (setRow hn hm.1)⟩
      · simp only [Step, if_neg h0] at g
        cases g
    · refine ⟨_, _, hv.keep (fun k hk' => f1 k fun hw => hs (hk q (by simp) k hk' hw)) (fun v h => hs ⟨v, h⟩) (fun ks' hm => ?_) fun k hm => ?_⟩
      · rcases h2 _ hm with g | ⟨e, t, g, rfl⟩ <;> cases g
        rfl
      · rcases h2 _ hm with g | ⟨e, t, g, rfl⟩ <;> cases g
        rfl

/-! ### What the users see -/

/-- C104: if nothing but one MSET of all of them ever writes any of some keys, the keys have one row of values after the other, one more for every such MSET, the last of them is what
they have at the end; every MGET of some of them, and every GET of one, shows one of these rows and never half of one, every MSET makes one, and they follow the order in which the
users see replies and type lines. -/
theorem C104_rows {a0 : DB} (h0 : Abs st a0) {tr : List Desk.Ev} {s : Desk.Sys} (h : Exec (Desk.Step ω U) (Desk.new d st) tr s)
    (ho : ∀ x ∈ doneIn (seenIn (serverOf tr)), x.2.1.ord.Fair ∧ Sized x.2.2) {ks : List Bytes} (hn : ks.Nodup) (hne : ks ≠ [])
    (hk : ∀ objs, Ran tr objs → ∀ k ∈ ks, Writes .str objs k → ∃ vs, Means objs (.mset ks vs)) :
    ∃ rows ver a, Rows U tr ks rows ver ∧ (∃ w, rows[0]? = some w ∧ ks.map w = ks.map a0.strs) ∧
      (∀ n w, rows[n + 1]? = some w → ∃ objs vs, Ran tr objs ∧ ks.map w = vs.map some ∧ Means objs (.mset ks vs)) ∧
      Abs s.full.whole.hub.db a ∧ (∃ w, rows.getLast? = some w ∧ ks.map w = ks.map a.strs) ∧
      rows.length = (timesRan tr fun objs _ => ∃ vs, Means objs (.mset ks vs)) + 1 := by
  obtain ⟨nt, hnt, -⟩ := (C82_parts (C85_parts h)).2.1
  obtain ⟨qs, a, place, h1, h2, h3, h4, -⟩ := on_record h0 h ho
  obtain ⟨rows, ver, hv⟩ := changes h1 hn hne fun q hq => hk q (ran_of h4 q hq)
  have ats : ∀ {c i x r}, U c = true → Got tr c i x r → Placed qs _ (place c i) x r := fun hu hg => got_at h3 hu hg
  obtain ⟨w0, b1, b2⟩ := hv.begins
  obtain ⟨w1, b3, b4⟩ := hv.ends
  refine ⟨rows, fun c i => ver (place c i), a, ?_, ⟨w0, b1, List.map_congr_left b2⟩, fun n v hn => ?_, h2, ⟨w1, b3, List.map_congr_left b4⟩,
    by rw [hv.count, timesRan_eq hnt h4]; rfl⟩
  · refine ⟨fun c i ks' r hu hk' hg => hv.reads _ ks' r hk' (ats hu hg), fun c i k r hu hk' hg => hv.looks _ k r hk' (ats hu hg),
      fun c i vs r hu hg => hv.writes _ vs r (ats hu hg), fun c c' i j v w r r' hu hu' hg hg' he => ?_,
      fun c c' i j hu hu' hj he => ?_, fun c c' i j v r hu hu' hg he => ?_⟩
    · refine h3.distinct c c' i j hu hu' (got_shown hg) (got_shown hg') ?_
      rcases Nat.lt_trichotomy (place c i) (place c' j) with hlt | e | hlt
      · have := hv.anew _ _ w r' hlt (ats hu' hg')
        omega
      · exact e
      · have := hv.anew _ _ v r hlt (ats hu hg)
        omega
    · obtain ⟨before, after, g1, g2, g3⟩ := he
      refine hv.ordered _ _ (h3.inTime before after c c' i j g1 hu hu' g2 g3 hj) ?_
      obtain ⟨_, _, -, -, g, -⟩ := h3.each c' j _ hu' (List.getElem?_eq_getElem hj)
      exact (List.getElem?_eq_some_iff.1 g).1
    · exact hv.anew _ _ v r (got_later h3 hu hu' he hg) (ats hu' hg)
  · obtain ⟨q, g1, vs, g2, g3⟩ := hv.made n v hn
    exact ⟨q, vs, ran_of h4 q g1, g2, g3⟩

/-- C104: keys that are alike at the beginning and only ever set alike, all together, are seen alike by everybody. -/
theorem C104_alike {a0 : DB} (h0 : Abs st a0) {tr : List Desk.Ev} {s : Desk.Sys} (h : Exec (Desk.Step ω U) (Desk.new d st) tr s)
    (ho : ∀ x ∈ doneIn (seenIn (serverOf tr)), x.2.1.ord.Fair ∧ Sized x.2.2) {ks : List Bytes} (hn : ks.Nodup) (hne : ks ≠ [])
    (hk : ∀ objs, Ran tr objs → ∀ k ∈ ks, Writes .str objs k → ∃ v, Means objs (.mset ks (List.replicate ks.length v)))
    {x0 : Option Bytes} (hb : ∀ k ∈ ks, a0.strs k = x0) {c i : Nat} {ks' : List Bytes} {r : Resp} (hu : U c = true) (hk' : ∀ k ∈ ks', k ∈ ks)
    (hg : Got tr c i (.mget ks') r) : ∃ x, r = .array (List.replicate ks'.length (bulk? x)) := by
  obtain ⟨rows, ver, a, hr, ⟨w0, b1, b2⟩, hm, -⟩ := C104_rows h0 h ho hn hne fun objs ho k hk' hw => ⟨_, (hk objs ho k hk' hw).choose_spec⟩
  obtain ⟨w, h1, rfl⟩ := hr.reads c i ks' r hu hk' hg
  have same : ∃ x, ∀ k ∈ ks, w k = x := by
    obtain e | ⟨n, e⟩ : ver c i = 0 ∨ ∃ n, ver c i = n + 1 := by
      cases ver c i with
      | zero => exact .inl rfl
      | succ n => exact .inr ⟨n, rfl⟩
    · rw [e, b1] at h1
      cases h1
      exact ⟨x0, fun k hk => (List.map_inj_left.1 b2 k hk).trans (hb k hk)⟩
    · rw [e] at h1
      obtain ⟨objs, vs, g1, g2, g3⟩ := hm n w h1
      obtain ⟨k0, hk0⟩ := List.exists_mem_of_ne_nil ks hne
      obtain ⟨v, g4⟩ := hk objs g1 k0 hk0 (strKeys_writes g3 (by simpa [strKeys] using hk0))
      cases means_unique g3 g4
      refine ⟨some v, fun k hk => ?_⟩
      have : w k ∈ ks.map w := List.mem_map_of_mem hk
      rw [g2, List.map_replicate] at this
      exact (List.mem_replicate.1 this).2
  obtain ⟨x, hx⟩ := same
  refine ⟨x, ?_⟩
  rw [List.map_congr_left (g := fun _ => bulk? x) fun k hk => by rw [hx k (hk' k hk)]]
  simp

/-! ### Setting the keys one after the other -/

/-- A user sets two keys alike, one after the other; in between another one reads both. -/
abbrev tearing : List Script.Line :=
  [(7, [b!"set", b!"a", b!"1"], okReply), (8, [b!"mget", b!"a", b!"b"], .array [.bulk b!"1", .nullBulk]), (7, [b!"set", b!"b", b!"1"], okReply)]

theorem seta_typable : Typable (Script.sent [b!"set", b!"a", b!"1"]) :=
  typable_words (l := b!"set a 1") (by simp [Line]) (fun p h => by
    have := congrArg List.getLast? h
    simp at this) (by simp [Quits]) (.space (w := b!"set") (rest := b!"a 1") (by simp [Plain])
      (.space (w := b!"a") (rest := b!"1") (by simp [Plain]) (.last (w := b!"1") (by simp [Plain]))))

theorem setb_typable : Typable (Script.sent [b!"set", b!"b", b!"1"]) :=
  typable_words (l := b!"set b 1") (by simp [Line]) (fun p h => by
    have := congrArg List.getLast? h
    simp at this) (by simp [Quits]) (.space (w := b!"set") (rest := b!"b 1") (by simp [Plain])
      (.space (w := b!"b") (rest := b!"1") (by simp [Plain]) (.last (w := b!"1") (by simp [Plain]))))

theorem mget_typable : Typable (Script.sent [b!"mget", b!"a", b!"b"]) :=
  typable_words (l := b!"mget a b") (by simp [Line]) (fun p h => by
    have := congrArg List.getLast? h
    simp at this) (by simp [Quits]) (.space (w := b!"mget") (rest := b!"a b") (by simp [Plain])
      (.space (w := b!"a") (rest := b!"b") (by simp [Plain]) (.last (w := b!"b") (by simp [Plain]))))

theorem mset_typable : Typable (Script.sent [b!"mset", b!"a", b!"1", b!"b", b!"1"]) :=
  typable_words (l := b!"mset a 1 b 1") (by simp [Line]) (fun p h => by
    have := congrArg List.getLast? h
    simp at this) (by simp [Quits]) (.space (w := b!"mset") (rest := b!"a 1 b 1") (by simp [Plain])
      (.space (w := b!"a") (rest := b!"1 b 1") (by simp [Plain]) (.space (w := b!"1") (rest := b!"b 1") (by simp [Plain])
        (.space (w := b!"b") (rest := b!"1") (by simp [Plain]) (.last (w := b!"1") (by simp [Plain]))))))

theorem mget_parses : parse (Script.sent [b!"mget", b!"a", b!"b"]) = .ok (.array (req [b!"mget", b!"a", b!"b"])) [] := by rfl
theorem mset_parses : parse (Script.sent [b!"mset", b!"a", b!"1", b!"b", b!"1"]) = .ok (.array (req [b!"mset", b!"a", b!"1", b!"b", b!"1"])) [] := by rfl

theorem mget_means : Means (req [b!"mget", b!"a", b!"b"]) (.mget [b!"a", b!"b"]) := command_means rfl
theorem mset_means : Means (req [b!"mset", b!"a", b!"1", b!"b", b!"1"]) (.mset [b!"a", b!"b"] [b!"1", b!"1"]) := command_means rfl

theorem tearing_plays : Script.Plays State.empty tearing := by
  obtain ⟨st1, h1, st2, h2, st3, h3⟩ : ∃ st1, handle env0 State.empty (req [b!"set", b!"a", b!"1"]) = .ok (st1, okReply) ∧
      ∃ st2, handle env0 st1 (req [b!"mget", b!"a", b!"b"]) = .ok (st2, .array [.bulk b!"1", .nullBulk]) ∧
      ∃ st3, handle env0 st2 (req [b!"set", b!"b", b!"1"]) = .ok (st3, okReply) := ⟨_, rfl, _, rfl, _, rfl⟩
  exact .cons rfl h1 rfl seta_typable .simple (.cons rfl h2 mget_parses mget_typable
    (.array (by simp) (by simp; exact ⟨.bulk (by simp), .nullBulk⟩)) (.cons rfl h3 rfl setb_typable .simple (.nil _)))

/-- C104: keys that are set alike one after the other are not seen alike: a user sets two of them to the same, and another one sees only the first of them set. -/
theorem C104_torn : ∃ (tr : List Desk.Ev) (s : Desk.Sys), Exec (Desk.Step ω Script.isUser) (Desk.new d State.empty) tr s ∧
    Got tr 7 0 (.set b!"a" b!"1") okReply ∧ Got tr 7 1 (.set b!"b" b!"1") okReply ∧ Got tr 8 0 (.mget [b!"a", b!"b"]) (.array [.bulk b!"1", .nullBulk]) := by
  obtain ⟨tr, s, h1, -, -, h4⟩ := Script.played (ω := ω) (d := d) tearing_plays abs_empty
  exact ⟨tr, s, h1, got_play (h4 7 rfl).1 (h4 7 rfl).2 (xs := tearing) rfl (command_means rfl), got_play (h4 7 rfl).1 (h4 7 rfl).2 (xs := tearing) rfl (command_means rfl),
    got_play (h4 8 rfl).1 (h4 8 rfl).2 (xs := tearing) rfl mget_means⟩

/-! ### Example -/

/-- A user reads two keys before and after another one sets them. -/
abbrev pairing : List Script.Line :=
  [(8, [b!"mget", b!"a", b!"b"], .array [.nullBulk, .nullBulk]), (7, [b!"mset", b!"a", b!"1", b!"b", b!"1"], okReply),
    (8, [b!"mget", b!"a", b!"b"], .array [.bulk b!"1", .bulk b!"1"])]

theorem pairing_plays : Script.Plays State.empty pairing := by
  obtain ⟨st1, h1, st2, h2, st3, h3⟩ : ∃ st1, handle env0 State.empty (req [b!"mget", b!"a", b!"b"]) = .ok (st1, .array [.nullBulk, .nullBulk]) ∧
      ∃ st2, handle env0 st1 (req [b!"mset", b!"a", b!"1", b!"b", b!"1"]) = .ok (st2, okReply) ∧
      ∃ st3, handle env0 st2 (req [b!"mget", b!"a", b!"b"]) = .ok (st3, .array [.bulk b!"1", .bulk b!"1"]) := ⟨_, rfl, _, rfl, _, rfl⟩
  exact .cons rfl h1 mget_parses mget_typable (.array (by simp) (by simp; exact .nullBulk)) (.cons rfl h2 mset_parses mset_typable .simple
    (.cons rfl h3 mget_parses mget_typable (.array (by simp) (by simp; exact .bulk (by simp))) (.nil _)))

/-- The hypotheses of `C104_rows` and `C104_alike` can be met. -/
example : ∃ (tr : List Desk.Ev) (s : Desk.Sys), Exec (Desk.Step ω Script.isUser) (Desk.new d State.empty) tr s ∧
    (∀ x ∈ doneIn (seenIn (serverOf tr)), x.2.1.ord.Fair ∧ Sized x.2.2) ∧
    (∀ objs, Ran tr objs → ∀ k ∈ [b!"a", b!"b"], Writes .str objs k → ∃ v, Means objs (.mset [b!"a", b!"b"] (List.replicate 2 v))) ∧
    Got tr 8 0 (.mget [b!"a", b!"b"]) (.array [.nullBulk, .nullBulk]) ∧ Got tr 7 0 (.mset [b!"a", b!"b"] [b!"1", b!"1"]) okReply ∧
    Got tr 8 1 (.mget [b!"a", b!"b"]) (.array [.bulk b!"1", .bulk b!"1"]) := by
  obtain ⟨tr, s, h1, h2, h3, h4⟩ := Script.played (ω := ω) (d := d) pairing_plays abs_empty
  refine ⟨tr, s, h1, h3, fun objs ho k _ hw => ?_, got_play (h4 8 rfl).1 (h4 8 rfl).2 (xs := pairing) rfl mget_means,
    got_play (h4 7 rfl).1 (h4 7 rfl).2 (xs := pairing) rfl mset_means, got_play (h4 8 rfl).1 (h4 8 rfl).2 (xs := pairing) rfl mget_means⟩
  obtain ⟨x, h5, rfl⟩ := ran_in_play h2 ho
  simp only [List.mem_cons, List.not_mem_nil, or_false] at h5
  rcases h5 with rfl | rfl | rfl
  · exact absurd hw (only_reads (by decide) (by decide))
  · exact ⟨b!"1", mset_means⟩
  · exact absurd hw (only_reads (by decide) (by decide))

end Verif.Props
