import Verif.Spec.Register
import Verif.Props.Recipe

/-! # C99 – a key read with GET and written with SET -/

namespace Verif.Props

open Spec
open Fut (upd)

variable {ω : Nat → Nat} {U : Nat → Bool} {d : Bytes} {st : State}

/-! ### The values a key has one after the other -/

open Classical in
/-- How many of the requests are a SET of the key. -/
noncomputable def timesSet (k : Bytes) (qs : List (List Resp)) (rs : List Resp) : Nat :=
  (qs.zip rs).countP fun y => decide (∃ v, Means y.1 (.set k v))

/-- What becomes of a key that is only written with SET. -/
structure Versions (k : Bytes) (qs : List (List Resp)) (rs : List Resp) (init final : Option Bytes) (vals : List (Option Bytes)) (ver : Nat → Nat) : Prop where
  begins : vals[0]? = some init
  ends : vals.getLast? = some final
  count : vals.length = timesSet k qs rs + 1
  reads : ∀ p r, Placed qs rs p (.get k) r → ∃ v, vals[ver p]? = some v ∧ r = bulk? v
  writes : ∀ p v r, Placed qs rs p (.set k v) r → r = okReply ∧ 0 < ver p ∧ vals[ver p]? = some (some v)
  ordered : ∀ p p', p < p' → p' < qs.length → ver p ≤ ver p'
  anew : ∀ p p' v r, p < p' → Placed qs rs p' (.set k v) r → ver p < ver p'
  made : ∀ n v, vals[n + 1]? = some v → ∃ q ∈ qs, ∃ w, v = some w ∧ Means q (.set k w)

theorem versions_end (k : Bytes) (init : Option Bytes) : Versions k [] [] init init [init] (fun _ => 0) := by
  have none : ∀ {p x r}, ¬ Placed [] [] p x r := by
    rintro p x r ⟨q, h, -⟩
    simp at h
  exact ⟨rfl, rfl, rfl, fun _ _ h => absurd h none, fun _ _ _ h => absurd h none, fun _ _ _ h => by simp at h, fun _ _ _ _ _ h => absurd h none,
    fun _ _ h => by simp at h⟩

/-- The key is set. -/
theorem Versions.set {k : Bytes} {q : List Resp} {qs : List (List Resp)} {rs : List Resp} {x : Bytes} {init' final : Option Bytes} {vals : List (Option Bytes)}
    {ver : Nat → Nat} (h : Versions k qs rs (some x) final vals ver) (hq : Means q (.set k x)) :
    Versions k (q :: qs) (okReply :: rs) init' final (init' :: vals) (shifted 1 fun p => ver p + 1) := by
  refine ⟨rfl, ?_, ?_, ?_, ?_, ?_, ?_, ?_⟩
  · rw [List.getLast?_cons, h.ends]; rfl
  · have : ∃ v, Means q (.set k v) := ⟨x, hq⟩
    simp only [timesSet, List.zip_cons_cons, List.length_cons, h.count]
    rw [List.countP_cons_of_pos (by simpa using this)]
  · intro p r hp
    cases p with
    | zero => cases means_unique hq (at_zero hp).1
    | succ p =>
      obtain ⟨v, h1, h2⟩ := h.reads p r (at_succ hp)
      exact ⟨v, by simpa [shifted] using h1, h2⟩
  · intro p v r hp
    cases p with
    | zero =>
      obtain ⟨h1, rfl⟩ := at_zero hp
      cases means_unique hq h1
      exact ⟨rfl, by simp [shifted], by simpa [shifted] using h.begins⟩
    | succ p =>
      obtain ⟨h1, h2, h3⟩ := h.writes p v r (at_succ hp)
      exact ⟨h1, by simp [shifted], by simpa [shifted] using h3⟩
  · intro p p' hlt hp'
    cases p' with
    | zero => omega
    | succ p' =>
      cases p with
      | zero => simp [shifted]
      | succ p =>
        have := h.ordered p p' (by omega) (by simpa using hp')
        simpa [shifted] using this
  · intro p p' v r hlt hp'
    cases p' with
    | zero => omega
    | succ p' =>
      cases p with
      | zero =>
        have := (h.writes p' v r (at_succ hp')).2.1
        simp only [shifted]
        omega
      | succ p =>
        have := h.anew p p' v r (by omega) (at_succ hp')
        simpa [shifted] using this
  · intro n v hn
    rw [List.getElem?_cons_succ] at hn
    cases n with
    | zero =>
      rw [h.begins] at hn
      cases hn
      exact ⟨q, by simp, x, rfl, hq⟩
    | succ n =>
      obtain ⟨q', h1, h2⟩ := h.made n v hn
      exact ⟨q', by simp [h1], h2⟩

/-- The key stays as it is. -/
theorem Versions.keep {k : Bytes} {q : List Resp} {qs : List (List Resp)} {r : Resp} {rs : List Resp} {init final : Option Bytes} {vals : List (Option Bytes)}
    {ver : Nat → Nat} (h : Versions k qs rs init final vals ver) (hs : ∀ v, ¬ Means q (.set k v)) (hg : Means q (.get k) → r = bulk? init) :
    Versions k (q :: qs) (r :: rs) init final vals (shifted 0 ver) := by
  refine ⟨h.begins, h.ends, ?_, ?_, ?_, ?_, ?_, fun n v hn => ?_⟩
  · rw [h.count]
    simp only [timesSet, List.zip_cons_cons]
    rw [List.countP_cons_of_neg (by simpa using hs)]
  · intro p r' hp
    cases p with
    | zero =>
      obtain ⟨h1, rfl⟩ := at_zero hp
      exact ⟨_, h.begins, hg h1⟩
    | succ p => exact h.reads p r' (at_succ hp)
  · intro p v r' hp
    cases p with
    | zero => exact absurd (at_zero hp).1 (hs v)
    | succ p => exact h.writes p v r' (at_succ hp)
  · intro p p' hlt hp'
    cases p' with
    | zero => omega
    | succ p' =>
      cases p with
      | zero => simp [shifted]
      | succ p => exact h.ordered p p' (by omega) (by simpa using hp')
  · intro p p' v r' hlt hp'
    cases p' with
    | zero => omega
    | succ p' =>
      cases p with
      | zero => exact (h.writes p' v r' (at_succ hp')).2.1
      | succ p => exact h.anew p p' v r' (by omega) (at_succ hp')
  · obtain ⟨q', h1, h2⟩ := h.made n v hn
    exact ⟨q', by simp [h1], h2⟩

theorem versions {a a' : DB} {qs : List (List Resp)} {rs : List Resp} {k : Bytes} (ht : Trace a qs rs a') (hk : ∀ q ∈ qs, Writes .str q k → ∃ v, Means q (.set k v)) :
    ∃ vals ver, Versions k qs rs (a.strs k) (a'.strs k) vals ver := by
  induction qs generalizing a rs with
  | nil => cases ht; exact ⟨_, _, versions_end k _⟩
  | cons q qs ih =>
    obtain ⟨a1, r, rs, rfl, h1, f1, -, -, h2⟩ := trace_first ht
    obtain ⟨vals, ver, hv⟩ := ih h1 fun q hq => hk q (by simp [hq])
    by_cases hs : ∃ v, Means q (.set k v)
    · obtain ⟨v, hm⟩ := hs
      rcases h2 _ hm with g | ⟨e, t, g, rfl⟩
      · cases g
        have : (a.setStr k v).strs k = some v := by simp [DB.setStr]
        rw [this] at hv
        exact ⟨_, _, hv.set hm⟩
      · cases g
    · rw [f1 k fun hw => hs (hk q (by simp) hw)] at hv
      refine ⟨_, _, hv.keep (fun v h => hs ⟨v, h⟩) fun hm => ?_⟩
      rcases h2 _ hm with g | ⟨e, t, g, rfl⟩ <;> cases g
      rfl

/-! ### What the users see -/

/-- C99: if nothing but SET is ever done to write a key, the key has one value after the other, one more for every SET, the last of them is what it has at the end; every GET of
a user shows one of these values, every SET makes one, and they follow the order in which the users see replies and type lines: nobody sees an old value after somebody has seen,
or been told of, a newer one. -/
theorem C99_register {a0 : DB} (h0 : Abs st a0) {tr : List Desk.Ev} {s : Desk.Sys} (h : Exec (Desk.Step ω U) (Desk.new d st) tr s)
    (ho : ∀ x ∈ doneIn (seenIn (serverOf tr)), x.2.1.ord.Fair ∧ Sized x.2.2) {k : Bytes}
    (hk : ∀ objs, Ran tr objs → Writes .str objs k → ∃ v, Means objs (.set k v)) :
    ∃ vals ver a, Register U tr k vals ver ∧ vals[0]? = some (a0.strs k) ∧ (∀ n v, vals[n + 1]? = some v → ∃ objs w, Ran tr objs ∧ v = some w ∧ Means objs (.set k w)) ∧
      Abs s.full.whole.hub.db a ∧ vals.getLast? = some (a.strs k) ∧
      vals.length = (timesRan tr fun objs _ => ∃ v, Means objs (.set k v)) + 1 := by
  obtain ⟨nt, hn, -⟩ := (C82_parts (C85_parts h)).2.1
  obtain ⟨qs, a, place, h1, h2, h3, h4, -⟩ := on_record h0 h ho
  obtain ⟨vals, ver, hv⟩ := versions h1 fun q hq => hk q (ran_of h4 q hq)
  have ats : ∀ {c i x r}, U c = true → Got tr c i x r → Placed qs _ (place c i) x r := fun hu hg => got_at h3 hu hg
  refine ⟨vals, fun c i => ver (place c i), a, ?_, hv.begins, fun n v hn => ?_, h2, hv.ends, by rw [hv.count, timesRan_eq hn h4]; rfl⟩
  refine ⟨fun c i r hu hg => hv.reads _ r (ats hu hg), fun c i v r hu hg => hv.writes _ v r (ats hu hg), fun c c' i j v w r r' hu hu' hg hg' he => ?_,
    fun c c' i j hu hu' hj he => ?_, fun c c' i j v r hu hu' hg he => ?_⟩
  · refine h3.distinct c c' i j hu hu' (got_shown hg) (got_shown hg') ?_
    rcases Nat.lt_trichotomy (place c i) (place c' j) with hlt | e | hlt
    · have := hv.anew _ _ w r' hlt (ats hu' hg')
      omega
    · exact e
    · have := hv.anew _ _ v r hlt (ats hu hg)
      omega
  · obtain ⟨before, after, g1, g2, g3⟩ := he
    refine hv.ordered _ _ (h3.inTime before after c c' i j g1 hu hu' g2 g3 hj) ?_
    obtain ⟨_, _, -, -, g, -⟩ := h3.each c' j _ hu' (List.getElem?_eq_getElem hj)
    exact (List.getElem?_eq_some_iff.1 g).1
  · exact hv.anew _ _ v r (got_later h3 hu hu' he hg) (ats hu' hg)
  · obtain ⟨q, g1, w, g2, g3⟩ := hv.made n v hn
    exact ⟨q, w, ran_of h4 q g1, g2, g3⟩

/-- C99: if everybody who sets the key sets it to the same, whoever asks after one of them was told `OK` sees it. -/
theorem C99_told {a0 : DB} (h0 : Abs st a0) {tr : List Desk.Ev} {s : Desk.Sys} (h : Exec (Desk.Step ω U) (Desk.new d st) tr s)
    (ho : ∀ x ∈ doneIn (seenIn (serverOf tr)), x.2.1.ord.Fair ∧ Sized x.2.2) {k v : Bytes}
    (hk : ∀ objs, Ran tr objs → Writes .str objs k → Means objs (.set k v))
    {c c' i j : Nat} {r r' : Resp} (hu : U c = true) (hu' : U c' = true) (hs : Got tr c i (.set k v) r) (hg : Got tr c' j (.get k) r')
    (he : Earlier tr c i c' j) : r = okReply ∧ r' = .bulk v := by
  obtain ⟨vals, ver, a, hr, -, hm, -⟩ := C99_register h0 h ho fun objs h1 h2 => ⟨v, hk objs h1 h2⟩
  obtain ⟨h2, h3, -⟩ := hr.writes c i v r hu hs
  obtain ⟨w, h5, h6⟩ := hr.reads c' j r' hu' hg
  have h7 := hr.ordered c c' i j hu hu' (got_shown hg) he
  obtain ⟨n, e⟩ : ∃ n, ver c' j = n + 1 := ⟨ver c' j - 1, by omega⟩
  obtain ⟨objs, w', g1, rfl, g2⟩ := hm n w (e ▸ h5)
  cases means_unique g2 (hk objs g1 (strKeys_writes g2 (by simp [strKeys])))
  exact ⟨h2, h6⟩

/-! ### Reading and writing back -/

/-- Two users read a number, and both write back the next one. -/
abbrev writingBack : List Script.Line :=
  [(7, [b!"get", b!"n"], .bulk b!"5"), (8, [b!"get", b!"n"], .bulk b!"5"), (7, [b!"set", b!"n", b!"6"], okReply), (8, [b!"set", b!"n", b!"6"], okReply)]

theorem getn_typable : Typable (Script.sent [b!"get", b!"n"]) :=
  typable_words (l := b!"get n") (by simp [Line]) (fun p h => by
    have := congrArg List.getLast? h
    simp at this) (by simp [Quits]) (.space (w := b!"get") (rest := b!"n") (by simp [Plain]) (.last (w := b!"n") (by simp [Plain])))

theorem set6_typable : Typable (Script.sent [b!"set", b!"n", b!"6"]) :=
  typable_words (l := b!"set n 6") (by simp [Line]) (fun p h => by
    have := congrArg List.getLast? h
    simp at this) (by simp [Quits]) (.space (w := b!"set") (rest := b!"n 6") (by simp [Plain])
      (.space (w := b!"n") (rest := b!"6") (by simp [Plain]) (.last (w := b!"6") (by simp [Plain]))))

theorem getn_parses : parse (Script.sent [b!"get", b!"n"]) = .ok (.array (req [b!"get", b!"n"])) [] := by rfl
theorem set6_parses : parse (Script.sent [b!"set", b!"n", b!"6"]) = .ok (.array (req [b!"set", b!"n", b!"6"])) [] := by rfl

theorem getn_means : Means (req [b!"get", b!"n"]) (.get b!"n") := command_means rfl
theorem set6_means : Means (req [b!"set", b!"n", b!"6"]) (.set b!"n" b!"6") := command_means rfl

theorem getn_reads : ¬ Writes .str (req [b!"get", b!"n"]) b!"n" := by
  rintro (⟨name, hn, o, os, ⟨p, n', e, ht, hf⟩, ht'⟩ | ⟨-, os, i, o, ⟨p, n', e, ht, hf⟩, -⟩)
  · cases e; cases ht
    have := folds_toLower hf
    subst this
    exact absurd hn (by decide)
  · cases e; cases ht
    have := folds_toLower hf
    exact absurd this (by decide)

theorem writingBack_plays : Script.Plays five writingBack := by
  obtain ⟨st1, h1, st2, h2, st3, h3, st4, h4⟩ : ∃ st1, handle env0 five (req [b!"get", b!"n"]) = .ok (st1, .bulk b!"5") ∧
      ∃ st2, handle env0 st1 (req [b!"get", b!"n"]) = .ok (st2, .bulk b!"5") ∧
      ∃ st3, handle env0 st2 (req [b!"set", b!"n", b!"6"]) = .ok (st3, okReply) ∧
      ∃ st4, handle env0 st3 (req [b!"set", b!"n", b!"6"]) = .ok (st4, okReply) := ⟨_, rfl, _, rfl, _, rfl, _, rfl⟩
  have ok : Sized okReply := .simple
  exact .cons rfl h1 getn_parses getn_typable (.bulk (by simp)) (.cons rfl h2 getn_parses getn_typable (.bulk (by simp))
    (.cons rfl h3 set6_parses set6_typable ok (.cons rfl h4 set6_parses set6_typable ok (.nil _))))

/-- C99: adding one by reading with GET and writing back with SET is not counting: two users read 5 and write back 6, both are told `OK`, and the key has 6. With INCR it would
have 7 (`C97_tickets`). -/
theorem C99_lost_update : ∃ (tr : List Desk.Ev) (s : Desk.Sys) (a : DB), Exec (Desk.Step ω Script.isUser) (Desk.new d five) tr s ∧
    Got tr 7 0 (.get b!"n") (.bulk b!"5") ∧ Got tr 8 0 (.get b!"n") (.bulk b!"5") ∧ Got tr 7 1 (.set b!"n" b!"6") okReply ∧ Got tr 8 1 (.set b!"n" b!"6") okReply ∧
    Abs s.full.whole.hub.db a ∧ a.strs b!"n" = some b!"6" := by
  obtain ⟨tr, s, h1, h2, h3, h4⟩ := Script.played (ω := ω) (d := d) writingBack_plays five_abs
  have g7 : Got tr 7 1 (.set b!"n" b!"6") okReply := got_play (h4 7 rfl).1 (h4 7 rfl).2 (xs := writingBack) rfl set6_means
  have hk : ∀ objs, Ran tr objs → ∀ v, Means objs (.set b!"n" v) → v = b!"6" := fun objs ho v hv => by
    obtain ⟨x, h5, rfl⟩ := ran_in_play h2 ho
    simp only [List.mem_cons, List.not_mem_nil, or_false] at h5
    rcases h5 with rfl | rfl | rfl | rfl
    · cases means_unique hv getn_means
    · cases means_unique hv getn_means
    · cases means_unique hv set6_means; rfl
    · cases means_unique hv set6_means; rfl
  obtain ⟨vals, ver, a, hr, -, hm, ha, hl, -⟩ := C99_register five_abs h1 h3 (k := b!"n") fun objs ho hw => by
    obtain ⟨x, h5, rfl⟩ := ran_in_play h2 ho
    simp only [List.mem_cons, List.not_mem_nil, or_false] at h5
    rcases h5 with rfl | rfl | rfl | rfl
    · exact absurd hw getn_reads
    · exact absurd hw getn_reads
    · exact ⟨_, set6_means⟩
    · exact ⟨_, set6_means⟩
  refine ⟨tr, s, a, h1, got_play (h4 7 rfl).1 (h4 7 rfl).2 (xs := writingBack) rfl getn_means, got_play (h4 8 rfl).1 (h4 8 rfl).2 (xs := writingBack) rfl getn_means, g7,
    got_play (h4 8 rfl).1 (h4 8 rfl).2 (xs := writingBack) rfl set6_means, ha, ?_⟩
  obtain ⟨-, g1, g2⟩ := hr.writes 7 1 _ _ rfl g7
  have g3 := (List.getElem?_eq_some_iff.1 g2).1
  rw [List.getLast?_eq_getElem?] at hl
  obtain ⟨n, e⟩ : ∃ n, vals.length - 1 = n + 1 := ⟨vals.length - 2, by omega⟩
  obtain ⟨objs, w, k1, k2, k3⟩ := hm n _ (e ▸ hl)
  rw [k2, hk objs k1 w k3]

/-! ### Examples -/

/-- The lines of one user come one after the other. -/
theorem own_lines {a0 : DB} (h0 : Abs st a0) {tr : List Desk.Ev} {s : Desk.Sys} (h : Exec (Desk.Step ω U) (Desk.new d st) tr s)
    (ho : ∀ x ∈ doneIn (seenIn (serverOf tr)), x.2.1.ord.Fair ∧ Sized x.2.2) {c i j : Nat} (hij : i < j) (hj : j < (typedBy c tr).length) : Earlier tr c i c j := by
  have cut : ∀ (tr : List Desk.Ev) (j : Nat), j < (typedBy c tr).length → ∃ before l after, tr = before ++ .typed c l :: after ∧ (typedBy c before).length = j := by
    intro tr
    induction tr with
    | nil => intro j hj; simp [typedBy] at hj
    | cons e tr ih =>
      intro j hj
      by_cases he : ∃ l, e = .typed c l
      · obtain ⟨l, rfl⟩ := he
        cases j with
        | zero => exact ⟨[], l, tr, rfl, rfl⟩
        | succ j =>
          obtain ⟨b, l', a, rfl, e⟩ := ih j (by simpa [typedBy] using hj)
          exact ⟨.typed c l :: b, l', a, rfl, by simpa [typedBy] using e⟩
      · have e1 : ∀ x, typedBy c (e :: x) = typedBy c x := by
          intro x
          cases e <;> try rfl
          next c' l =>
            have : c' ≠ c := fun e => he ⟨l, by rw [e]⟩
            simp [typedBy, this]
        rw [e1] at hj
        obtain ⟨b, l', a, rfl, e2⟩ := ih j hj
        exact ⟨e :: b, l', a, rfl, by rw [e1, e2]⟩
  obtain ⟨b, l, a, rfl, e⟩ := cut tr j hj
  exact ⟨b, _, rfl, by rw [typed_when h0 h ho, e]; exact hij, by omega⟩

/-- A user sets a key and reads it; another one reads it too. -/
abbrev reading : List Script.Line := [(8, [b!"get", b!"n"], .bulk b!"5"), (7, [b!"set", b!"n", b!"6"], okReply), (7, [b!"get", b!"n"], .bulk b!"6")]

theorem reading_plays : Script.Plays five reading := by
  obtain ⟨st1, h1, st2, h2, st3, h3⟩ : ∃ st1, handle env0 five (req [b!"get", b!"n"]) = .ok (st1, .bulk b!"5") ∧
      ∃ st2, handle env0 st1 (req [b!"set", b!"n", b!"6"]) = .ok (st2, okReply) ∧
      ∃ st3, handle env0 st2 (req [b!"get", b!"n"]) = .ok (st3, .bulk b!"6") := ⟨_, rfl, _, rfl, _, rfl⟩
  exact .cons rfl h1 getn_parses getn_typable (.bulk (by simp)) (.cons rfl h2 set6_parses set6_typable .simple
    (.cons rfl h3 getn_parses getn_typable (.bulk (by simp)) (.nil _)))

/-- The hypotheses of `C99_register` and `C99_told` can be met. -/
example : ∃ (tr : List Desk.Ev) (s : Desk.Sys), Exec (Desk.Step ω Script.isUser) (Desk.new d five) tr s ∧
    (∀ x ∈ doneIn (seenIn (serverOf tr)), x.2.1.ord.Fair ∧ Sized x.2.2) ∧ (∀ objs, Ran tr objs → Writes .str objs b!"n" → Means objs (.set b!"n" b!"6")) ∧
    Got tr 8 0 (.get b!"n") (.bulk b!"5") ∧ Got tr 7 0 (.set b!"n" b!"6") okReply ∧ Got tr 7 1 (.get b!"n") (.bulk b!"6") ∧ Earlier tr 7 0 7 1 := by
  obtain ⟨tr, s, h1, h2, h3, h4⟩ := Script.played (ω := ω) (d := d) reading_plays five_abs
  refine ⟨tr, s, h1, h3, fun objs ho hw => ?_, got_play (h4 8 rfl).1 (h4 8 rfl).2 (xs := reading) rfl getn_means,
    got_play (h4 7 rfl).1 (h4 7 rfl).2 (xs := reading) rfl set6_means, got_play (h4 7 rfl).1 (h4 7 rfl).2 (xs := reading) rfl getn_means,
    own_lines five_abs h1 h3 (by omega) ?_⟩
  · obtain ⟨x, h5, rfl⟩ := ran_in_play h2 ho
    simp only [List.mem_cons, List.not_mem_nil, or_false] at h5
    rcases h5 with rfl | rfl | rfl
    · exact absurd hw getn_reads
    · exact set6_means
    · exact absurd hw getn_reads
  · rw [(h4 7 rfl).2.length_eq]
    decide

end Verif.Props
