import Verif.Spec.Journal
import Verif.Props.Recipe

/-! # C100 – a list that is only appended to -/

namespace Verif.Props

open Spec
open Fut (upd)

variable {ω : Nat → Nat} {U : Nat → Bool} {d : Bytes} {st : State}

/-! ### What becomes of a list that is only appended to -/

/-- `LRANGE 0 -1` shows the whole list. -/
theorem whole_window {xs : List Bytes} {i j : Nat} (h : ListWindow 0 (-1) xs.length i j) : slice xs i j = xs := by
  unfold ListWindow Window Denotes at h
  split at h
  · omega
  · obtain ⟨h1, h2, h3⟩ := h
    have e1 : i = 0 := by omega
    have e2 : j + 1 = xs.length := by omega
    unfold slice
    rw [e1, show ((j:Int) + 1 - (0:Nat)).toNat = xs.length by omega]
    simp

theorem has_window {xs : List Bytes} (h : xs ≠ []) : ∃ i j : Nat, ListWindow 0 (-1) xs.length i j := by
  have := List.length_pos_iff.2 h
  refine ⟨0, xs.length - 1, ?_⟩
  unfold ListWindow Window Denotes
  rw [if_neg (by omega)]
  omega

/-- What becomes of a list that is only appended to. -/
structure Appended (k : Bytes) (qs : List (List Resp)) (rs : List Resp) (init final : List Bytes) (seen : Nat → Nat) : Prop where
  begins : init <+: final
  least : ∀ p, p < qs.length → init.length ≤ seen p
  within : ∀ p, p < qs.length → seen p ≤ final.length
  counts : ∀ p r, Placed qs rs p (.llen k) r → r = .int (seen p)
  looks : ∀ p (n : Nat) r, Placed qs rs p (.lindex k n) r → r = bulk? (final.take (seen p))[n]?
  lists : ∀ p r, Placed qs rs p (.lrange k 0 (-1)) r → r = if seen p = 0 then .nullArray else .array ((final.take (seen p)).map .bulk)
  appends : ∀ p vs n, Placed qs rs p (.rpush k vs) (.int n) →
    n = seen p ∧ init.length + vs.length ≤ seen p ∧ (final.drop (seen p - vs.length)).take vs.length = vs
  ordered : ∀ p p', p < p' → p' < qs.length → seen p ≤ seen p'
  anew : ∀ p p' vs n, p < p' → Placed qs rs p' (.rpush k vs) (.int n) → seen p + vs.length ≤ seen p'

theorem appended_end (k : Bytes) (init : List Bytes) : Appended k [] [] init init (fun _ => 0) := by
  have none : ∀ {p x r}, ¬ Placed [] [] p x r := by
    rintro p x r ⟨q, h, -⟩
    simp at h
  exact ⟨List.prefix_refl _, fun _ h => by simp at h, fun _ h => by simp at h, fun _ _ h => absurd h none, fun _ _ _ h => absurd h none, fun _ _ h => absurd h none,
    fun _ _ _ h => absurd h none, fun _ _ _ h => by simp at h, fun _ _ _ _ _ h => absurd h none⟩

/-- Some request after which the list is `mid`. -/
theorem Appended.step {k : Bytes} {q : List Resp} {qs : List (List Resp)} {r : Resp} {rs : List Resp} {init mid final : List Bytes} {seen : Nat → Nat}
    (h : Appended k qs rs mid final seen) (hm : init <+: mid) (h1 : Means q (.llen k) → r = .int mid.length) (h2 : ∀ n : Nat, Means q (.lindex k n) → r = bulk? mid[n]?)
    (h3 : Means q (.lrange k 0 (-1)) → r = if mid.length = 0 then .nullArray else .array (mid.map .bulk))
    (h4 : ∀ vs n, Means q (.rpush k vs) → r = .int n → n = mid.length ∧ mid = init ++ vs) :
    Appended k (q :: qs) (r :: rs) init final (shifted mid.length seen) := by
  have ht : final.take mid.length = mid := (List.prefix_iff_eq_take.1 h.begins).symm
  have hml := hm.length_le
  have hfl := h.begins.length_le
  refine ⟨hm.trans h.begins, ?_, ?_, ?_, ?_, ?_, ?_, ?_, ?_⟩
  · intro p hp
    cases p with
    | zero => exact hml
    | succ p => exact hml.trans (h.least p (by simpa using hp))
  · intro p hp
    cases p with
    | zero => exact hfl
    | succ p => exact h.within p (by simpa using hp)
  · intro p r' hp
    cases p with
    | zero => obtain ⟨g, rfl⟩ := at_zero hp; exact h1 g
    | succ p => exact h.counts p r' (at_succ hp)
  · intro p n r' hp
    cases p with
    | zero =>
      obtain ⟨g, rfl⟩ := at_zero hp
      simp only [shifted, ht]
      exact h2 n g
    | succ p => exact h.looks p n r' (at_succ hp)
  · intro p r' hp
    cases p with
    | zero =>
      obtain ⟨g, rfl⟩ := at_zero hp
      simp only [shifted, ht]
      exact h3 g
    | succ p => exact h.lists p r' (at_succ hp)
  · intro p vs n hp
    cases p with
    | zero =>
      obtain ⟨g, e⟩ := at_zero hp
      obtain ⟨g1, g2⟩ := h4 vs n g e.symm
      obtain ⟨t, rfl⟩ := h.begins
      have : mid.length = init.length + vs.length := by rw [g2]; simp
      refine ⟨g1, by simp only [shifted]; omega, ?_⟩
      simp only [shifted]
      rw [this, Nat.add_sub_cancel, g2, List.append_assoc, List.drop_left, List.take_left]
    | succ p =>
      obtain ⟨g1, g2, g3⟩ := h.appends p vs n (at_succ hp)
      exact ⟨g1, by simp only [shifted]; omega, g3⟩
  · intro p p' hlt hp'
    cases p' with
    | zero => omega
    | succ p' =>
      cases p with
      | zero => exact h.least p' (by simpa using hp')
      | succ p => exact h.ordered p p' (by omega) (by simpa using hp')
  · intro p p' vs n hlt hp'
    cases p' with
    | zero => omega
    | succ p' =>
      cases p with
      | zero => exact (h.appends p' vs n (at_succ hp')).2.1
      | succ p => exact h.anew p p' vs n (by omega) (at_succ hp')

theorem appended {a a' : DB} {qs : List (List Resp)} {rs : List Resp} {k : Bytes} (ht : Trace a qs rs a') (hk : ∀ q ∈ qs, Writes .list q k → ∃ vs, Means q (.rpush k vs)) :
    ∃ seen, Appended k qs rs (a.listAt k) (a'.listAt k) seen := by
  induction qs generalizing a rs with
  | nil => cases ht; exact ⟨_, appended_end k _⟩
  | cons q qs ih =>
    obtain ⟨a1, r, rs, rfl, h1, -, f1, -, h2⟩ := trace_first ht
    obtain ⟨seen, hv⟩ := ih h1 fun q hq => hk q (by simp [hq])
    have only : ∀ {x y}, Means q x → Means q y → x ≠ y → False := fun h h' e => e (means_unique h h')
    by_cases hs : ∃ vs, Means q (.rpush k vs)
    · obtain ⟨vs, hm⟩ := hs
      refine ⟨_, hv.step ?_ (fun h => (only hm h (by simp)).elim) (fun _ h => (only hm h (by simp)).elim) (fun h => (only hm h (by simp)).elim) fun ws n h e => ?_⟩
      · rcases h2 _ hm with g | ⟨e, t, g, rfl⟩
        · simp only [Step] at g
          split at g
          · obtain ⟨m, g⟩ := g
            cases g
          · cases g
            simp [DB.listAt, DB.setList]
        · simp only [Step] at g
          split at g
          · obtain ⟨m, g⟩ := g
            cases g
            exact List.prefix_refl _
          · cases g
      · cases means_unique hm h
        subst e
        rcases h2 _ hm with g | ⟨e, t, g, e'⟩
        · simp only [Step] at g
          split at g
          · obtain ⟨m, g⟩ := g
            cases g
          · cases g
            simp [DB.listAt, DB.setList]
            omega
        · cases e'
    · have e : a1.listAt k = a.listAt k := by rw [DB.listAt, DB.listAt, f1 k fun hw => hs (hk q (by simp) hw)]
      rw [e] at hv
      refine ⟨_, hv.step (List.prefix_refl _) (fun hm => ?_) (fun n hm => ?_) (fun hm => ?_) fun ws n h _ => absurd ⟨ws, h⟩ hs⟩
      · rcases h2 _ hm with g | ⟨e, t, g, rfl⟩ <;> cases g
        rfl
      · rcases h2 _ hm with g | ⟨e, t, g, rfl⟩
        · rcases g with ⟨p, x, g1, g2, g3⟩ | ⟨g1, g2⟩
          · cases g3
            have : p = n := by unfold Denotes at g1; omega
            rw [← this, g2]
            rfl
          · cases g2
            have : (a.listAt k)[n]? = none := by
              rw [List.getElem?_eq_none_iff]
              by_contra hc
              exact g1 ⟨n, by unfold Denotes; omega⟩
            rw [this]
            rfl
        · rcases g with ⟨p, x, g1, g2, g3⟩ | ⟨g1, g2⟩
          · cases g3
          · cases g2
      · rcases h2 _ hm with g | ⟨e, t, g, rfl⟩
        · rcases g with ⟨i, j, g1, g2⟩ | ⟨g1, g2⟩
          · cases g2
            have : (a.listAt k).length ≠ 0 := by
              intro h0
              rw [h0] at g1
              unfold ListWindow Window Denotes at g1
              split at g1 <;> omega
            rw [if_neg this, whole_window g1]
          · cases g2
            have : (a.listAt k).length = 0 := by
              by_contra hc
              exact g1 (has_window (by intro h0; simp [h0] at hc))
            rw [if_pos this]
        · rcases g with ⟨p, x, g1, g3⟩ | ⟨g1, g2⟩
          · cases g3
          · cases g2

/-! ### What the users see -/

/-- C100: if nothing but RPUSH is ever done to write a list, then what is stored in it at the end is a log that all users read alike: every line that reads it finds a first part of it,
every line that appends to it finds its entries there, together and at the place it was told, and lines typed after a reply was seen find all that had been found, and their own
entries after it. -/
theorem C100_journal {a0 : DB} (h0 : Abs st a0) {tr : List Desk.Ev} {s : Desk.Sys} (h : Exec (Desk.Step ω U) (Desk.new d st) tr s)
    (ho : ∀ x ∈ doneIn (seenIn (serverOf tr)), x.2.1.ord.Fair ∧ Sized x.2.2) {k : Bytes}
    (hk : ∀ objs, Ran tr objs → Writes .list objs k → ∃ vs, Means objs (.rpush k vs)) :
    ∃ seen a, Abs s.full.whole.hub.db a ∧ Journal U tr k (a.listAt k) seen ∧ a0.listAt k <+: a.listAt k ∧
      ∀ c i, U c = true → i < (shownTo c tr).length → (a0.listAt k).length ≤ seen c i := by
  obtain ⟨qs, a, place, h1, h2, h3, h4, -⟩ := on_record h0 h ho
  obtain ⟨seen, hv⟩ := appended h1 fun q hq => hk q (ran_of h4 q hq)
  have ats : ∀ {c i x r}, U c = true → Got tr c i x r → Placed qs _ (place c i) x r := fun hu hg => got_at h3 hu hg
  have lt : ∀ {c i}, U c = true → i < (shownTo c tr).length → place c i < qs.length := fun hu hi => by
    obtain ⟨_, _, -, -, g, -⟩ := h3.each _ _ _ hu (List.getElem?_eq_getElem hi)
    exact (List.getElem?_eq_some_iff.1 g).1
  refine ⟨fun c i => seen (place c i), a, h2, ?_, hv.begins, fun c i hu hi => hv.least _ (lt hu hi)⟩
  refine ⟨fun c i hu hi => hv.within _ (lt hu hi), fun c i r hu hg => hv.counts _ r (ats hu hg), fun c i n r hu hg => hv.looks _ n r (ats hu hg),
    fun c i r hu hg => hv.lists _ r (ats hu hg), fun c i vs n hu hg => ?_, fun c c' i j hu hu' hj he => ?_,
    fun c c' i j vs n hu hu' hg he => hv.anew _ _ vs n (got_later h3 hu hu' he hg) (ats hu' hg), fun c c' i j vs ws n m hu hu' hg hg' => ?_⟩
  · obtain ⟨g1, g2, g3⟩ := hv.appends _ vs n (ats hu hg)
    exact ⟨g1, by omega, g3⟩
  · obtain ⟨before, after, g1, g2, g3⟩ := he
    exact hv.ordered _ _ (h3.inTime before after c c' i j g1 hu hu' g2 g3 hj) (lt hu' hj)
  · rcases Nat.lt_trichotomy (place c i) (place c' j) with hlt | e | hlt
    · exact .inl (hv.anew _ _ ws m hlt (ats hu' hg'))
    · exact .inr (.inr (h3.distinct c c' i j hu hu' (got_shown hg) (got_shown hg') e))
    · exact .inr (.inl (hv.anew _ _ vs n hlt (ats hu hg)))

/-- C100: of two users who read the whole list one sees what the other sees, and perhaps more after it. -/
theorem C100_alike {a0 : DB} (h0 : Abs st a0) {tr : List Desk.Ev} {s : Desk.Sys} (h : Exec (Desk.Step ω U) (Desk.new d st) tr s)
    (ho : ∀ x ∈ doneIn (seenIn (serverOf tr)), x.2.1.ord.Fair ∧ Sized x.2.2) {k : Bytes}
    (hk : ∀ objs, Ran tr objs → Writes .list objs k → ∃ vs, Means objs (.rpush k vs)) {c c' i j : Nat} {xs ys : List Resp} (hu : U c = true) (hu' : U c' = true)
    (hx : Got tr c i (.lrange k 0 (-1)) (.array xs)) (hy : Got tr c' j (.lrange k 0 (-1)) (.array ys)) :
    (xs <+: ys ∨ ys <+: xs) ∧ (Earlier tr c i c' j → xs <+: ys) := by
  obtain ⟨seen, a, -, hj, -⟩ := C100_journal h0 h ho hk
  have e1 := hj.lists c i _ hu hx
  have e2 := hj.lists c' j _ hu' hy
  split at e1
  · cases e1
  split at e2
  · cases e2
  cases e1
  cases e2
  have key : ∀ {m n : Nat}, m ≤ n → ((a.listAt k).take m).map Resp.bulk <+: ((a.listAt k).take n).map Resp.bulk := fun hle =>
    (List.take_prefix_take_left hle).map _
  refine ⟨?_, fun he => key (hj.ordered c c' i j hu hu' (got_shown hy) he)⟩
  rcases Nat.le_total (seen c i) (seen c' j) with hle | hle
  · exact .inl (key hle)
  · exact .inr (key hle)

/-! ### Example -/

/-- One user appends to a list, both read it. -/
abbrev noting : List Script.Line := [(7, [b!"rpush", b!"q", b!"x"], .int 1), (8, [b!"lrange", b!"q", b!"0", b!"-1"], .array [.bulk b!"x"]),
  (7, [b!"lrange", b!"q", b!"0", b!"-1"], .array [.bulk b!"x"]), (7, [b!"llen", b!"q"], .int 1)]

theorem lrange_typable : Typable (Script.sent [b!"lrange", b!"q", b!"0", b!"-1"]) :=
  typable_words (l := b!"lrange q 0 -1") (by simp [Line]) (fun p h => by
    have := congrArg List.getLast? h
    simp at this) (by simp [Quits]) (.space (w := b!"lrange") (rest := b!"q 0 -1") (by simp [Plain]) (.space (w := b!"q") (rest := b!"0 -1") (by simp [Plain])
      (.space (w := b!"0") (rest := b!"-1") (by simp [Plain]) (.last (w := b!"-1") (by simp [Plain])))))

theorem llen_typable : Typable (Script.sent [b!"llen", b!"q"]) :=
  typable_words (l := b!"llen q") (by simp [Line]) (fun p h => by
    have := congrArg List.getLast? h
    simp at this) (by simp [Quits]) (.space (w := b!"llen") (rest := b!"q") (by simp [Plain]) (.last (w := b!"q") (by simp [Plain])))

theorem lrange_parses : parse (Script.sent [b!"lrange", b!"q", b!"0", b!"-1"]) = .ok (.array (req [b!"lrange", b!"q", b!"0", b!"-1"])) [] := by rfl
theorem llen_parses : parse (Script.sent [b!"llen", b!"q"]) = .ok (.array (req [b!"llen", b!"q"])) [] := by rfl

theorem lrange_means : Means (req [b!"lrange", b!"q", b!"0", b!"-1"]) (.lrange b!"q" 0 (-1)) := command_means rfl
theorem llen_means : Means (req [b!"llen", b!"q"]) (.llen b!"q") := command_means rfl

theorem noting_plays : Script.Plays State.empty noting := by
  obtain ⟨st1, h1, st2, h2, st3, h3, st4, h4⟩ : ∃ st1, handle env0 State.empty (req [b!"rpush", b!"q", b!"x"]) = .ok (st1, .int 1) ∧
      ∃ st2, handle env0 st1 (req [b!"lrange", b!"q", b!"0", b!"-1"]) = .ok (st2, .array [.bulk b!"x"]) ∧
      ∃ st3, handle env0 st2 (req [b!"lrange", b!"q", b!"0", b!"-1"]) = .ok (st3, .array [.bulk b!"x"]) ∧
      ∃ st4, handle env0 st3 (req [b!"llen", b!"q"]) = .ok (st4, .int 1) := ⟨_, rfl, _, rfl, _, rfl, _, rfl⟩
  have hx : Sized (.array [.bulk b!"x"]) := .array (by simp) (by simp; exact .bulk (by simp))
  exact .cons rfl h1 rpush_parses rpush_typable (.int (by omega) (by omega)) (.cons rfl h2 lrange_parses lrange_typable hx
    (.cons rfl h3 lrange_parses lrange_typable hx (.cons rfl h4 llen_parses llen_typable (.int (by omega) (by omega)) (.nil _))))

theorem only_reads {n : Bytes} {args : List Bytes} {sp : Space} {k : Bytes} (h1 : toLower n ∉ writers sp) (h2 : toLower n ≠ b!"mset") : ¬ Writes sp (req (n :: args)) k := by
  rintro (⟨name, hn, o, os, ⟨p, n', e, ht, hf⟩, ht'⟩ | ⟨-, os, i, o, ⟨p, n', e, ht, hf⟩, -⟩)
  · obtain ⟨rfl, -⟩ := List.cons.inj e
    cases ht
    exact h1 (folds_toLower hf ▸ hn)
  · cases e; cases ht
    exact h2 (folds_toLower hf)

/-- The hypotheses of `C100_journal` and `C100_alike` can be met. -/
example : ∃ (tr : List Desk.Ev) (s : Desk.Sys), Exec (Desk.Step ω Script.isUser) (Desk.new d State.empty) tr s ∧
    (∀ x ∈ doneIn (seenIn (serverOf tr)), x.2.1.ord.Fair ∧ Sized x.2.2) ∧ (∀ objs, Ran tr objs → Writes .list objs b!"q" → ∃ vs, Means objs (.rpush b!"q" vs)) ∧
    Got tr 7 0 (.rpush b!"q" [b!"x"]) (.int 1) ∧ Got tr 8 0 (.lrange b!"q" 0 (-1)) (.array [.bulk b!"x"]) ∧
    Got tr 7 1 (.lrange b!"q" 0 (-1)) (.array [.bulk b!"x"]) ∧ Got tr 7 2 (.llen b!"q") (.int 1) := by
  obtain ⟨tr, s, h1, h2, h3, h4⟩ := Script.played (ω := ω) (d := d) noting_plays abs_empty
  refine ⟨tr, s, h1, h3, fun objs ho hw => ?_, got_play (h4 7 rfl).1 (h4 7 rfl).2 (xs := noting) rfl (command_means rfl),
    got_play (h4 8 rfl).1 (h4 8 rfl).2 (xs := noting) rfl lrange_means, got_play (h4 7 rfl).1 (h4 7 rfl).2 (xs := noting) rfl lrange_means,
    got_play (h4 7 rfl).1 (h4 7 rfl).2 (xs := noting) rfl llen_means⟩
  obtain ⟨x, h5, rfl⟩ := ran_in_play h2 ho
  simp only [List.mem_cons, List.not_mem_nil, or_false] at h5
  rcases h5 with rfl | rfl | rfl | rfl
  · exact ⟨_, command_means rfl⟩
  · exact absurd hw (only_reads (by decide) (by decide))
  · exact absurd hw (only_reads (by decide) (by decide))
  · exact absurd hw (only_reads (by decide) (by decide))

end Verif.Props
