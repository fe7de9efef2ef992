import Verif.Spec.Roll
import Verif.Props.Journal

/-! # C103 – a set that is only added to -/

namespace Verif.Props

open Spec
open Fut (upd)

variable {ω : Nat → Nat} {U : Nat → Bool} {d : Bytes} {st : State}

/-! ### What becomes of a set that is only added to -/

/-- What becomes of a set that is only added to. -/
structure Gathers (k : Bytes) (qs : List (List Resp)) (rs : List Resp) (init final : List Bytes) (seen : Nat → Nat) : Prop where
  begins : init <+: final
  least : ∀ p, p < qs.length → init.length ≤ seen p
  within : ∀ p, p < qs.length → seen p ≤ final.length
  asks : ∀ p m r, m ≠ [] → Placed qs rs p (.sismember k m) r → r = .int (if m ∈ final.take (seen p) then 1 else 0)
  counts : ∀ p r, Placed qs rs p (.scard k) r → r = .int (seen p)
  lists : ∀ p r, Placed qs rs p (.smembers k) r → seen p = 0 ∧ r = .nullArray ∨ ∃ ms : List Bytes, ms.Perm (final.take (seen p)) ∧ r = .array (ms.map .bulk)
  adds : ∀ p ms r, Placed qs rs p (.sadd k ms) r → ∃ t : Nat, r = .int t ∧ init.length + t ≤ seen p ∧ (∀ m ∈ ms, m ∈ final.take (seen p)) ∧
    ∀ m ∈ (final.take (seen p)).drop (seen p - t), m ∈ ms
  ordered : ∀ p p', p < p' → p' < qs.length → seen p ≤ seen p'
  anew : ∀ p p' ms (t : Nat), p < p' → Placed qs rs p' (.sadd k ms) (.int t) → seen p + t ≤ seen p'
  made : ∀ m ∈ final, m ∈ init ∨ ∃ q ∈ qs, ∃ ms, Means q (.sadd k ms) ∧ m ∈ ms

theorem gathers_end (k : Bytes) (init : List Bytes) : Gathers k [] [] init init (fun _ => 0) := by
  have none : ∀ {p x r}, ¬ Placed [] [] p x r := by
    rintro p x r ⟨q, h, -⟩
    simp at h
  exact ⟨List.prefix_refl _, fun _ h => by simp at h, fun _ h => by simp at h, fun _ _ _ _ h => absurd h none, fun _ _ h => absurd h none, fun _ _ h => absurd h none,
    fun _ _ _ h => absurd h none, fun _ _ _ h => by simp at h, fun _ _ _ _ _ h => absurd h none, fun _ h => .inl h⟩

/-- Some request after which the names are `mid`. -/
theorem Gathers.step {k : Bytes} {q : List Resp} {qs : List (List Resp)} {r : Resp} {rs : List Resp} {init mid final : List Bytes} {seen : Nat → Nat}
    (h : Gathers k qs rs mid final seen) (hm : init <+: mid) (h1 : ∀ m, m ≠ [] → Means q (.sismember k m) → r = .int (if m ∈ mid then 1 else 0))
    (h2 : Means q (.scard k) → r = .int mid.length) (h3 : Means q (.smembers k) → mid.length = 0 ∧ r = .nullArray ∨ ∃ ms : List Bytes, ms.Perm mid ∧ r = .array (ms.map .bulk))
    (h4 : ∀ ms, Means q (.sadd k ms) → ∃ t : Nat, r = .int t ∧ mid.length = init.length + t ∧ (∀ m ∈ ms, m ∈ mid) ∧ ∀ m ∈ mid.drop init.length, m ∈ ms)
    (h5 : (∃ ms, Means q (.sadd k ms)) ∨ mid = init) :
    Gathers k (q :: qs) (r :: rs) init final (shifted mid.length seen) := by
  have ht : final.take mid.length = mid := (List.prefix_iff_eq_take.1 h.begins).symm
  have hml := hm.length_le
  have hfl := h.begins.length_le
  have split : ∀ m ∈ mid, m ∈ init ∨ m ∈ mid.drop init.length := fun m hmm => by
    obtain ⟨t, rfl⟩ := hm
    simpa using hmm
  refine ⟨hm.trans h.begins, ?_, ?_, ?_, ?_, ?_, ?_, ?_, ?_, ?_⟩
  · intro p hp
    cases p with
    | zero => exact hml
    | succ p => exact hml.trans (h.least p (by simpa using hp))
  · intro p hp
    cases p with
    | zero => exact hfl
    | succ p => exact h.within p (by simpa using hp)
  · intro p m r' hne hp
    cases p with
    | zero =>
      obtain ⟨g, rfl⟩ := at_zero hp
      simp only [shifted, ht]
      exact h1 m hne g
    | succ p => exact h.asks p m r' hne (at_succ hp)
  · intro p r' hp
    cases p with
    | zero => obtain ⟨g, rfl⟩ := at_zero hp; exact h2 g
    | succ p => exact h.counts p r' (at_succ hp)
  · intro p r' hp
    cases p with
    | zero =>
      obtain ⟨g, rfl⟩ := at_zero hp
      simp only [shifted, ht]
      exact h3 g
    | succ p => exact h.lists p r' (at_succ hp)
  · intro p ms r' hp
    cases p with
    | zero =>
      obtain ⟨g, rfl⟩ := at_zero hp
      obtain ⟨t, g1, g2, g3, g4⟩ := h4 ms g
      simp only [shifted, ht]
      exact ⟨t, g1, by omega, g3, by rw [show mid.length - t = init.length by omega]; exact g4⟩
    | succ p =>
      obtain ⟨t, g1, g2, g3, g4⟩ := h.adds p ms r' (at_succ hp)
      exact ⟨t, g1, by simp only [shifted]; omega, g3, g4⟩
  · intro p p' hlt hp'
    cases p' with
    | zero => omega
    | succ p' =>
      cases p with
      | zero => exact h.least p' (by simpa using hp')
      | succ p => exact h.ordered p p' (by omega) (by simpa using hp')
  · intro p p' ms t hlt hp'
    cases p' with
    | zero => omega
    | succ p' =>
      cases p with
      | zero =>
        obtain ⟨t', g1, g2, -⟩ := h.adds p' ms _ (at_succ hp')
        simp only [Resp.int.injEq] at g1
        simp only [shifted]
        omega
      | succ p => exact h.anew p p' ms t (by omega) (at_succ hp')
  · intro m hmf
    rcases h.made m hmf with g | ⟨q', g1, ms, g2, g3⟩
    · rcases split m g with g | g
      · exact .inl g
      · rcases h5 with ⟨ms, hq⟩ | rfl
        · obtain ⟨t, -, -, -, g4⟩ := h4 ms hq
          exact .inr ⟨q, by simp, ms, hq, g4 m g⟩
        · simp at g
    · exact .inr ⟨q', by simp [g1], ms, g2, g3⟩

theorem gathers {a a' : DB} {qs : List (List Resp)} {rs : List Resp} {k : Bytes} (ht : Trace a qs rs a') (hk : ∀ q ∈ qs, Writes .set q k → ∃ ms, Means q (.sadd k ms))
    {init : List Bytes} (hn : init.Nodup) (hi : init.toFinset = a.setAt k) :
    ∃ final seen, Gathers k qs rs init final seen ∧ final.Nodup ∧ final.toFinset = a'.setAt k := by
  induction qs generalizing a rs init with
  | nil => cases ht; exact ⟨_, _, gathers_end k _, hn, hi⟩
  | cons q qs ih =>
    obtain ⟨a1, r, rs, rfl, h1, -, -, f1, h2⟩ := trace_first ht
    have hk' := fun q hq => hk q (List.mem_cons_of_mem _ hq)
    have only : ∀ {x y}, Means q x → Means q y → x ≠ y → False := fun h h' e => e (means_unique h h')
    have mem : ∀ m, m ∈ init ↔ m ∈ a.setAt k := fun m => by rw [← hi, List.mem_toFinset]
    by_cases hs : ∃ ms, Means q (.sadd k ms)
    · obtain ⟨ms, hm⟩ := hs
      have step : a1 = a.setSet k (a.setAt k ∪ ms.toFinset) ∧ r = .int (ms.toFinset \ a.setAt k).card := by
        rcases h2 _ hm with g | ⟨e, t, g, rfl⟩
        · simp only [Step] at g
          split at g
          · cases g
          · cases g; exact ⟨rfl, rfl⟩
        · simp only [Step] at g
          split at g <;> cases g
      obtain ⟨rfl, rfl⟩ := step
      have hnew : (ms.dedup.filter (· ∉ init)).Nodup := (List.nodup_dedup ms).filter _
      have hmid : (init ++ ms.dedup.filter (· ∉ init)).Nodup := by
        refine List.nodup_append.2 ⟨hn, hnew, ?_⟩
        rintro x hx y hy rfl
        exact absurd hx (by simpa using (List.mem_filter.1 hy).2)
      have hlen : (ms.toFinset \ a.setAt k).card = (ms.dedup.filter (· ∉ init)).length := by
        rw [← List.toFinset_card_of_nodup hnew]
        congr 1
        ext x
        simp [mem]
      obtain ⟨final, seen, hv, g1, g2⟩ := ih h1 hk' hmid (by
        ext x
        simp only [DB.setAt, DB.setSet, Function.update_self, Option.getD_some, Finset.mem_union, List.mem_toFinset, List.mem_append, List.mem_filter, List.mem_dedup, decide_eq_true_eq]
        have := mem x
        rw [DB.setAt] at this
        rw [← this]
        by_cases hx : x ∈ init <;> simp [hx])
      refine ⟨final, _, hv.step (List.prefix_append _ _) (fun _ _ h => (only hm h (by simp)).elim) (fun h => (only hm h (by simp)).elim)
        (fun h => (only hm h (by simp)).elim) (fun ms' h => ?_) (.inl ⟨_, hm⟩), g1, g2⟩
      cases means_unique hm h
      refine ⟨_, rfl, by simp [hlen], fun m hmm => ?_, fun m hmm => ?_⟩
      · by_cases hx : m ∈ init <;> simp [hx, hmm]
      · rw [List.drop_left] at hmm
        exact List.mem_dedup.1 (List.mem_filter.1 hmm).1
    · have e : a1.setAt k = a.setAt k := by rw [DB.setAt, DB.setAt, f1 k fun hw => hs (hk q (by simp) hw)]
      obtain ⟨final, seen, hv, g1, g2⟩ := ih h1 hk' hn (by rw [e]; exact hi)
      refine ⟨final, _, hv.step (List.prefix_refl _) (fun m hne hm => ?_) (fun hm => ?_) (fun hm => ?_) (fun ms h => absurd ⟨ms, h⟩ hs) (.inr rfl), g1, g2⟩
      · rcases h2 _ hm with g | ⟨e, t, g, rfl⟩
        · simp only [Step] at g
          have hmem := mem m
          rw [DB.setAt] at hmem
          split at g
          · rename_i hnone
            cases g
            rw [hnone] at hmem
            simp only [Option.getD_none, Finset.notMem_empty, iff_false] at hmem
            simp [hmem]
          · rename_i s hsome
            rw [if_neg hne] at g
            cases g
            rw [hsome] at hmem
            simp only [Option.getD_some] at hmem
            simp [hmem]
        · simp only [Step] at g
          split at g
          · cases g
          · rw [if_neg hne] at g
            cases g
      · rcases h2 _ hm with g | ⟨e, t, g, rfl⟩ <;> cases g
        rw [← hi, List.toFinset_card_of_nodup hn]
      · rcases h2 _ hm with g | ⟨e, t, g, rfl⟩
        · simp only [Step] at g
          have hmem := mem
          simp only [DB.setAt] at hmem
          split at g
          · rename_i hnone
            cases g
            rw [hnone] at hmem
            refine .inl ⟨?_, rfl⟩
            rw [List.length_eq_zero_iff, List.eq_nil_iff_forall_not_mem]
            exact fun m hx => by simpa using (hmem m).1 hx
          · rename_i s hsome
            obtain ⟨ms, ⟨j1, j2⟩, j3⟩ := g
            cases j3
            rw [hsome] at hmem
            simp only [Option.getD_some] at hmem
            exact .inr ⟨ms, (List.perm_ext_iff_of_nodup j1 hn).2 fun m => by rw [j2, hmem], rfl⟩
        · simp only [Step] at g
          split at g
          · cases g
          · obtain ⟨_, _, j3⟩ := g
            cases j3

/-! ### What the users see -/

/-- C103: if nothing but SADD is ever done to write a set, then what is stored in it at the end, in the order in which it came, is a roll that all users read alike: every line that
reads it finds a first part of it, every line that adds to it finds its names there and is told how many of them were new, and these are the last it finds; nothing is on the roll
twice, nor without having been there or added; and lines typed after a reply was seen find all that had been found. -/
theorem C103_roll {a0 : DB} (h0 : Abs st a0) {tr : List Desk.Ev} {s : Desk.Sys} (h : Exec (Desk.Step ω U) (Desk.new d st) tr s)
    (ho : ∀ x ∈ doneIn (seenIn (serverOf tr)), x.2.1.ord.Fair ∧ Sized x.2.2) {k : Bytes}
    (hk : ∀ objs, Ran tr objs → Writes .set objs k → ∃ ms, Means objs (.sadd k ms)) :
    ∃ names seen a, Abs s.full.whole.hub.db a ∧ Roll U tr k names seen ∧ (∀ m, m ∈ names ↔ m ∈ a.setAt k) ∧
      (∀ m, m ∈ names.take (a0.setAt k).card ↔ m ∈ a0.setAt k) ∧ (∀ c i, U c = true → i < (shownTo c tr).length → (a0.setAt k).card ≤ seen c i) ∧
      (∀ c i ms (t : Nat), U c = true → Got tr c i (.sadd k ms) (.int t) → (a0.setAt k).card + t ≤ seen c i) ∧
      ∀ m ∈ names, m ∈ a0.setAt k ∨ ∃ objs ms, Ran tr objs ∧ Means objs (.sadd k ms) ∧ m ∈ ms := by
  obtain ⟨qs, a, place, h1, h2, h3, h4, -⟩ := on_record h0 h ho
  have hi : (a0.setAt k).toList.toFinset = a0.setAt k := Finset.toList_toFinset _
  obtain ⟨names, seen, hv, hn, hf⟩ := gathers h1 (fun q hq => hk q (ran_of h4 q hq)) (Finset.nodup_toList (a0.setAt k)) hi
  have ats : ∀ {c i x r}, U c = true → Got tr c i x r → Placed qs _ (place c i) x r := fun hu hg => got_at h3 hu hg
  have lt : ∀ {c i}, U c = true → i < (shownTo c tr).length → place c i < qs.length := fun hu hj => by
    obtain ⟨_, _, -, -, g, -⟩ := h3.each _ _ _ hu (List.getElem?_eq_getElem hj)
    exact (List.getElem?_eq_some_iff.1 g).1
  refine ⟨names, fun c i => seen (place c i), a, h2, ?_, fun m => by rw [← hf, List.mem_toFinset], fun m => ?_, fun c i hu hj => ?_, fun c i ms t hu hg => ?_, fun m hm => ?_⟩
  · refine ⟨hn, fun c i hu hj => hv.within _ (lt hu hj), fun c i m r hne hu hg => hv.asks _ m r hne (ats hu hg), fun c i r hu hg => hv.counts _ r (ats hu hg),
      fun c i r hu hg => hv.lists _ r (ats hu hg), fun c i ms r hu hg => ?_, fun c c' i j hu hu' hj he => ?_,
      fun c c' i j ms t hu hu' hg he => hv.anew _ _ ms t (got_later h3 hu hu' he hg) (ats hu' hg), fun c c' i j ms ms' t t' hu hu' hg hg' => ?_⟩
    · obtain ⟨t, g1, g2, g3⟩ := hv.adds _ ms r (ats hu hg)
      exact ⟨t, g1, by omega, g3⟩
    · obtain ⟨before, after, g1, g2, g3⟩ := he
      exact hv.ordered _ _ (h3.inTime before after c c' i j g1 hu hu' g2 g3 hj) (lt hu' hj)
    · rcases Nat.lt_trichotomy (place c i) (place c' j) with hlt | e | hlt
      · exact .inl (hv.anew _ _ ms' t' hlt (ats hu' hg'))
      · exact .inr (.inr (h3.distinct c c' i j hu hu' (got_shown hg) (got_shown hg') e))
      · exact .inr (.inl (hv.anew _ _ ms t hlt (ats hu hg)))
  · rw [← Finset.length_toList, ← List.prefix_iff_eq_take.1 hv.begins, Finset.mem_toList]
  · rw [← Finset.length_toList]; exact hv.least _ (lt hu hj)
  · obtain ⟨t', g1, g2, -⟩ := hv.adds _ ms _ (ats hu hg)
    simp only [Resp.int.injEq] at g1
    rw [← Finset.length_toList]
    show _ ≤ seen (place c i)
    omega
  · rcases hv.made m hm with g | ⟨q, g1, ms, g2, g3⟩
    · exact .inl (Finset.mem_toList.1 g)
    · exact .inr ⟨q, ms, ran_of h4 q g1, g2, g3⟩

/-- C103: of all lines that add a name alone, at most one is told that it was the one who added it, and none if the name was there at the beginning. -/
theorem C103_first {a0 : DB} (h0 : Abs st a0) {tr : List Desk.Ev} {s : Desk.Sys} (h : Exec (Desk.Step ω U) (Desk.new d st) tr s)
    (ho : ∀ x ∈ doneIn (seenIn (serverOf tr)), x.2.1.ord.Fair ∧ Sized x.2.2) {k : Bytes}
    (hk : ∀ objs, Ran tr objs → Writes .set objs k → ∃ ms, Means objs (.sadd k ms)) {c i : Nat} {m : Bytes} (hu : U c = true) (hc : Got tr c i (.sadd k [m]) (.int 1)) :
    m ∉ a0.setAt k ∧ ∀ c' j, U c' = true → Got tr c' j (.sadd k [m]) (.int 1) → c = c' ∧ i = j := by
  obtain ⟨names, seen, a, -, hr, -, hb, -, hl, -⟩ := C103_roll h0 h ho hk
  have last : ∀ {c i}, U c = true → Got tr c i (.sadd k [m]) (.int 1) → 0 < seen c i ∧ names[seen c i - 1]? = some m := fun {c i} hu hg => by
    obtain ⟨t, g1, g2, -, g4⟩ := hr.adds c i [m] _ hu hg
    simp only [Resp.int.injEq] at g1
    have ht : t = 1 := by omega
    subst ht
    have hw := hr.within c i hu (got_shown hg)
    have hlt : seen c i - 1 < names.length := by omega
    have := g4 names[seen c i - 1] (List.mem_iff_getElem?.2 ⟨0, by rw [List.getElem?_drop, List.getElem?_take_of_lt (by omega), Nat.add_zero]; exact List.getElem?_eq_getElem hlt⟩)
    rw [List.mem_singleton] at this
    exact ⟨by omega, by rw [List.getElem?_eq_getElem hlt, this]⟩
  have same : ∀ {p p' : Nat}, names[p]? = some m → names[p']? = some m → p = p' := fun {p p'} g g' => by
    obtain ⟨l1, e1⟩ := List.getElem?_eq_some_iff.1 g
    obtain ⟨l2, e2⟩ := List.getElem?_eq_some_iff.1 g'
    exact (List.Nodup.getElem_inj_iff hr.distinct).1 (e1.trans e2.symm)
  obtain ⟨p1, p2⟩ := last hu hc
  refine ⟨fun hm => ?_, fun c' j hu' hc' => ?_⟩
  · obtain ⟨q, hq⟩ := List.mem_iff_getElem?.1 ((hb m).2 hm)
    rw [List.getElem?_take] at hq
    split at hq
    · have := hl c i [m] 1 hu hc
      have := same hq p2
      omega
    · cases hq
  · obtain ⟨p3, p4⟩ := last hu' hc'
    have := same p2 p4
    rcases hr.apart c c' i j [m] [m] 1 1 hu hu' hc hc' with g | g | g
    · omega
    · omega
    · exact g

/-! ### Example -/

/-- Two users sign with the same name; one of them is told that it was new. -/
abbrev signing : List Script.Line := [(7, [b!"sadd", b!"l", b!"m"], .int 1), (8, [b!"sadd", b!"l", b!"m"], .int 0), (8, [b!"smembers", b!"l"], .array [.bulk b!"m"])]

theorem smembers_typable : Typable (Script.sent [b!"smembers", b!"l"]) :=
  typable_words (l := b!"smembers l") (by simp [Line]) (fun p h => by
    have := congrArg List.getLast? h
    simp at this) (by simp [Quits]) (.space (w := b!"smembers") (rest := b!"l") (by simp [Plain]) (.last (w := b!"l") (by simp [Plain])))

theorem smembers_parses : parse (Script.sent [b!"smembers", b!"l"]) = .ok (.array (req [b!"smembers", b!"l"])) [] := by rfl

theorem signing_plays : Script.Plays State.empty signing := by
  obtain ⟨st1, h1, st2, h2, st3, h3⟩ : ∃ st1, handle env0 State.empty (req [b!"sadd", b!"l", b!"m"]) = .ok (st1, .int 1) ∧
      ∃ st2, handle env0 st1 (req [b!"sadd", b!"l", b!"m"]) = .ok (st2, .int 0) ∧
      ∃ st3, handle env0 st2 (req [b!"smembers", b!"l"]) = .ok (st3, .array [.bulk b!"m"]) := ⟨_, rfl, _, rfl, _, rfl⟩
  exact .cons rfl h1 sadd_parses sadd_typable (.int (by omega) (by omega)) (.cons rfl h2 sadd_parses sadd_typable (.int (by omega) (by omega))
    (.cons rfl h3 smembers_parses smembers_typable (.array (by simp) (by simp; exact .bulk (by simp))) (.nil _)))

/-- The hypotheses of `C103_roll` and `C103_first` can be met. -/
example : ∃ (tr : List Desk.Ev) (s : Desk.Sys), Exec (Desk.Step ω Script.isUser) (Desk.new d State.empty) tr s ∧
    (∀ x ∈ doneIn (seenIn (serverOf tr)), x.2.1.ord.Fair ∧ Sized x.2.2) ∧ (∀ objs, Ran tr objs → Writes .set objs b!"l" → ∃ ms, Means objs (.sadd b!"l" ms)) ∧
    Got tr 7 0 (.sadd b!"l" [b!"m"]) (.int 1) ∧ Got tr 8 0 (.sadd b!"l" [b!"m"]) (.int 0) ∧ Got tr 8 1 (.smembers b!"l") (.array [.bulk b!"m"]) := by
  obtain ⟨tr, s, h1, h2, h3, h4⟩ := Script.played (ω := ω) (d := d) signing_plays abs_empty
  have m1 : Means (req [b!"sadd", b!"l", b!"m"]) (.sadd b!"l" [b!"m"]) := command_means rfl
  have m2 : Means (req [b!"smembers", b!"l"]) (.smembers b!"l") := command_means rfl
  refine ⟨tr, s, h1, h3, fun objs ho hw => ?_, got_play (h4 7 rfl).1 (h4 7 rfl).2 (xs := signing) rfl m1,
    got_play (h4 8 rfl).1 (h4 8 rfl).2 (xs := signing) rfl m1, got_play (h4 8 rfl).1 (h4 8 rfl).2 (xs := signing) rfl m2⟩
  obtain ⟨x, h5, rfl⟩ := ran_in_play h2 ho
  simp only [List.mem_cons, List.not_mem_nil, or_false] at h5
  rcases h5 with rfl | rfl | rfl
  · exact ⟨_, m1⟩
  · exact ⟨_, m1⟩
  · exact absurd hw (only_reads (by decide) (by decide))

end Verif.Props
