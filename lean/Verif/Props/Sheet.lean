import Verif.Spec.Sheet
import Verif.Props.Journal

/-! # C105 – what many users see of a hash -/

namespace Verif.Props

open Spec
open Fut (upd)

variable {ω : Nat → Nat} {U : Nat → Bool} {d : Bytes} {st : State}

/-! ### What is in some place one after the other -/

section
variable {S : Type} (R : Command → (S → Resp → Prop) → Prop) (W : Command → (S → S → Resp → Prop) → Prop)

open Classical in
/-- How many of the requests write the place. -/
noncomputable def timesWritten (qs : List (List Resp)) (rs : List Resp) : Nat :=
  (qs.zip rs).countP fun y => decide (∃ x P, Means y.1 x ∧ W x P)

/-- What becomes of a place that `R` read and `W` write. -/
structure Passes (qs : List (List Resp)) (rs : List Resp) (init final : S) (ms : List S) (ver : Nat → Nat) : Prop where
  begins : ms[0]? = some init
  ends : ms.getLast? = some final
  count : ms.length = timesWritten W qs rs + 1
  reads : ∀ p x P r, R x P → Placed qs rs p x r → ∃ m, ms[ver p]? = some m ∧ P m r
  writes : ∀ p x P r, W x P → Placed qs rs p x r → ∃ n m m', ver p = n + 1 ∧ ms[n]? = some m ∧ ms[n + 1]? = some m' ∧ P m m' r
  ordered : ∀ p p', p < p' → p' < qs.length → ver p ≤ ver p'
  anew : ∀ p p' x P r, p < p' → W x P → Placed qs rs p' x r → ver p < ver p'
  made : ∀ n m m', ms[n]? = some m → ms[n + 1]? = some m' → ∃ q ∈ qs, ∃ x P r, Means q x ∧ W x P ∧ P m m' r

variable {R W}

theorem passes_end (init : S) : Passes R W [] [] init init [init] (fun _ => 0) := by
  have none : ∀ {p x r}, ¬ Placed [] [] p x r := by
    rintro p x r ⟨q, h, -⟩
    simp at h
  exact ⟨rfl, rfl, rfl, fun _ _ _ _ _ h => absurd h none, fun _ _ _ _ _ h => absurd h none, fun _ _ _ h => by simp at h, fun _ _ _ _ _ _ _ h => absurd h none,
    fun _ _ _ _ h => by simp at h⟩

/-- The place is written. -/
theorem Passes.put {q : List Resp} {qs : List (List Resp)} {r : Resp} {rs : List Resp} {init init' final : S} {ms : List S} {ver : Nat → Nat}
    (h : Passes R W qs rs init final ms ver) {x : Command} {P : S → S → Resp → Prop} (hx : Means q x) (hw : W x P) (hp : ∀ P', W x P' → P' init' init r) (hr : ∀ P, ¬ R x P) :
    Passes R W (q :: qs) (r :: rs) init' final (init' :: ms) (shifted 1 fun p => ver p + 1) := by
  refine ⟨rfl, ?_, ?_, ?_, ?_, ?_, ?_, ?_⟩
  · rw [List.getLast?_cons, h.ends]; rfl
  · have : ∃ x P, Means q x ∧ W x P := ⟨x, P, hx, hw⟩
    simp only [timesWritten, List.zip_cons_cons, List.length_cons, h.count]
    rw [List.countP_cons_of_pos (by simpa using this)]
  · intro p y Q r' hy hp
    cases p with
    | zero =>
      cases means_unique hx (at_zero hp).1
      exact absurd hy (hr _)
    | succ p =>
      obtain ⟨v, h1, h2⟩ := h.reads p y Q r' hy (at_succ hp)
      exact ⟨v, by simpa [shifted] using h1, h2⟩
  · intro p y Q r' hy hpl
    cases p with
    | zero =>
      obtain ⟨h1, rfl⟩ := at_zero hpl
      cases means_unique hx h1
      exact ⟨0, init', init, rfl, rfl, by simpa using h.begins, hp Q hy⟩
    | succ p =>
      obtain ⟨n, m, m', h1, h2, h3, h4⟩ := h.writes p y Q r' hy (at_succ hpl)
      exact ⟨n + 1, m, m', by simp [shifted, h1], by simpa using h2, by simpa using h3, h4⟩
  · intro p p' hlt hp'
    cases p' with
    | zero => omega
    | succ p' =>
      cases p with
      | zero => simp [shifted]
      | succ p =>
        have := h.ordered p p' (by omega) (by simpa using hp')
        simpa [shifted] using this
  · intro p p' y Q r' hlt hy hp'
    cases p' with
    | zero => omega
    | succ p' =>
      cases p with
      | zero =>
        obtain ⟨n, -, -, h1, -⟩ := h.writes p' y Q r' hy (at_succ hp')
        simp only [shifted]
        omega
      | succ p =>
        have := h.anew p p' y Q r' (by omega) hy (at_succ hp')
        simpa [shifted] using this
  · intro n m m' hm hm'
    rw [List.getElem?_cons_succ] at hm'
    cases n with
    | zero =>
      rw [h.begins] at hm'
      cases hm; cases hm'
      exact ⟨q, by simp, x, P, r, hx, hw, hp P hw⟩
    | succ n =>
      obtain ⟨q', h1, h2⟩ := h.made n m m' (by simpa using hm) hm'
      exact ⟨q', by simp [h1], h2⟩

/-- The place stays as it is. -/
theorem Passes.keep {q : List Resp} {qs : List (List Resp)} {r : Resp} {rs : List Resp} {init final : S} {ms : List S} {ver : Nat → Nat}
    (h : Passes R W qs rs init final ms ver) (hs : ∀ x P, Means q x → ¬ W x P) (hr : ∀ x P, Means q x → R x P → P init r) :
    Passes R W (q :: qs) (r :: rs) init final ms (shifted 0 ver) := by
  refine ⟨h.begins, h.ends, ?_, ?_, ?_, ?_, ?_, fun n m m' hm hm' => ?_⟩
  · rw [h.count]
    simp only [timesWritten, List.zip_cons_cons]
    rw [List.countP_cons_of_neg (by simp only [decide_eq_true_eq]; exact fun ⟨x, P, h, h'⟩ => hs x P h h')]
  · intro p x P r' hx hp
    cases p with
    | zero =>
      obtain ⟨h1, rfl⟩ := at_zero hp
      exact ⟨_, h.begins, hr x P h1 hx⟩
    | succ p => exact h.reads p x P r' hx (at_succ hp)
  · intro p x P r' hx hp
    cases p with
    | zero => exact absurd hx (hs x P (at_zero hp).1)
    | succ p => exact h.writes p x P r' hx (at_succ hp)
  · intro p p' hlt hp'
    cases p' with
    | zero => omega
    | succ p' =>
      cases p with
      | zero => simp [shifted]
      | succ p => exact h.ordered p p' (by omega) (by simpa using hp')
  · intro p p' x P r' hlt hx hp'
    cases p' with
    | zero => omega
    | succ p' =>
      cases p with
      | zero =>
        obtain ⟨n, -, -, h1, -⟩ := h.writes p' x P r' hx (at_succ hp')
        simp only [shifted]
        omega
      | succ p => exact h.anew p p' x P r' (by omega) hx (at_succ hp')
  · obtain ⟨q', h1, h2⟩ := h.made n m m' hm hm'
    exact ⟨q', by simp [h1], h2⟩

/-- The command, done on `a`, leads to `a1` and is answered `r`. -/
def Replies (a : DB) (x : Command) (a1 : DB) (r : Resp) : Prop := Step a x (done a1 r) ∨ ∃ e, Step a x (fails a1 e) ∧ ErrorReply e r

/-- A place that each command writes, reads or leaves. -/
theorem passes {f : DB → S} (hW : ∀ {a a1 : DB} {x : Command} {r P}, W x P → Replies a x a1 r → P (f a) (f a1) r)
    (hR : ∀ {a a1 : DB} {x : Command} {r P}, R x P → Replies a x a1 r → P (f a) r) (hRW : ∀ {x P P'}, R x P → ¬ W x P')
    (hK : ∀ {a a1 : DB} {x : Command} {o}, Valid x → (¬ ∃ P, W x P) → Step a x (some (a1, o)) → f a1 = f a)
    {a a' : DB} {qs : List (List Resp)} {rs : List Resp} (ht : Trace a qs rs a') : ∃ ms ver, Passes R W qs rs (f a) (f a') ms ver := by
  induction qs generalizing a rs with
  | nil => cases ht; exact ⟨_, _, passes_end _⟩
  | cons q qs ih =>
    obtain ⟨a1, r, rs, rfl, h1, h2⟩ := trace_uncons ht
    obtain ⟨ms, ver, hv⟩ := ih h1
    have both : (∃ x, Means q x ∧ Replies a x a1 r ∧ ∃ o, Step a x (some (a1, o))) ∨ (¬ ∃ c, Means q c) ∧ a1 = a := by
      rcases h2 with ⟨x, g1, g2⟩ | ⟨x, e, g1, g2, g3⟩ | ⟨g1, rfl, -⟩
      · exact .inl ⟨x, g1, .inl g2, _, g2⟩
      · exact .inl ⟨x, g1, .inr ⟨e, g2, g3⟩, _, g2⟩
      · exact .inr ⟨g1, rfl⟩
    rcases both with ⟨x, g1, g2, o, g3⟩ | ⟨g1, rfl⟩
    · by_cases hw : ∃ P, W x P
      · obtain ⟨P, hw⟩ := hw
        exact ⟨_, _, hv.put g1 hw (fun P' h => hW h g2) fun P' h => hRW h hw⟩
      · rw [hK (requestCommand_valid (means_command g1)) hw g3] at hv
        exact ⟨_, _, hv.keep (fun y P h h' => hw ⟨P, means_unique h g1 ▸ h'⟩) fun y P h h' => hR h' (means_unique g1 h ▸ g2)⟩
    · exact ⟨_, _, hv.keep (fun y P h _ => g1 ⟨y, h⟩) fun y P h _ => absurd ⟨y, h⟩ g1⟩

/-- And what the users see of it. -/
theorem contents {f : DB → S} (hp : ∀ {a a' : DB} {qs : List (List Resp)} {rs : List Resp}, Trace a qs rs a' → ∃ ms ver, Passes R W qs rs (f a) (f a') ms ver)
    {a0 : DB} (h0 : Abs st a0) {tr : List Desk.Ev} {s : Desk.Sys} (h : Exec (Desk.Step ω U) (Desk.new d st) tr s)
    (ho : ∀ x ∈ doneIn (seenIn (serverOf tr)), x.2.1.ord.Fair ∧ Sized x.2.2) :
    ∃ ms ver a, Contents U tr R W ms ver ∧ ms[0]? = some (f a0) ∧
      (∀ n m m', ms[n]? = some m → ms[n + 1]? = some m' → ∃ objs x P r, Ran tr objs ∧ Means objs x ∧ W x P ∧ P m m' r) ∧
      Abs s.full.whole.hub.db a ∧ ms.getLast? = some (f a) ∧ ms.length = (timesRan tr fun objs _ => ∃ x P, Means objs x ∧ W x P) + 1 := by
  obtain ⟨nt, hnt, -⟩ := (C82_parts (C85_parts h)).2.1
  obtain ⟨qs, a, place, h1, h2, h3, h4, -⟩ := on_record h0 h ho
  obtain ⟨ms, ver, hv⟩ := hp h1
  have ats : ∀ {c i x r}, U c = true → Got tr c i x r → Placed qs _ (place c i) x r := fun hu hg => got_at h3 hu hg
  refine ⟨ms, fun c i => ver (place c i), a, ?_, hv.begins, fun n m m' hm hm' => ?_, h2, hv.ends, by rw [hv.count, timesRan_eq hnt h4]; rfl⟩
  · refine ⟨fun c i x P r hu hx hg => hv.reads _ x P r hx (ats hu hg), fun c i x P r hu hx hg => hv.writes _ x P r hx (ats hu hg),
      fun c c' i j x x' P P' r r' hu hu' hx hx' hg hg' he => ?_, fun c c' i j hu hu' hj he => ?_, fun c c' i j x P r hu hu' hx hg he => ?_⟩
    · refine h3.distinct c c' i j hu hu' (got_shown hg) (got_shown hg') ?_
      rcases Nat.lt_trichotomy (place c i) (place c' j) with hlt | e | hlt
      · have := hv.anew _ _ x' P' r' hlt hx' (ats hu' hg')
        omega
      · exact e
      · have := hv.anew _ _ x P r hlt hx (ats hu hg)
        omega
    · obtain ⟨before, after, g1, g2, g3⟩ := he
      refine hv.ordered _ _ (h3.inTime before after c c' i j g1 hu hu' g2 g3 hj) ?_
      obtain ⟨_, _, -, -, g, -⟩ := h3.each c' j _ hu' (List.getElem?_eq_getElem hj)
      exact (List.getElem?_eq_some_iff.1 g).1
    · exact hv.anew _ _ x P r (got_later h3 hu hu' he hg) hx (ats hu' hg)
  · obtain ⟨q, g1, x, P, r, g2, g3, g4⟩ := hv.made n m m' hm hm'
    exact ⟨q, x, P, r, ran_of h4 q g1, g2, g3, g4⟩
end

/-! ### Hashes -/

theorem lookup_puts {ps : List (Bytes × Bytes)} {m : Hash} {f : Bytes} : (ps.foldl (fun m p => m.insert p.1 p.2) m).lookup f = (lastGiven ps f).or (m.lookup f) := by
  induction ps generalizing m with
  | nil => simp [lastGiven]
  | cons p ps ih =>
    rw [List.foldl_cons, ih]
    simp only [lastGiven, List.reverse_cons, List.find?_append, List.find?_singleton]
    by_cases h : p.1 = f
    · subst h
      simp only [Finmap.lookup_insert, decide_true, if_true]
      cases (ps.reverse.find? fun q => q.1 = p.1) <;> simp
    · rw [Finmap.lookup_insert_of_ne _ (Ne.symm h)]
      simp [h]

theorem lookup_dels {fs : List Bytes} {m : Hash} {f : Bytes} : (fs.foldl (fun m f => m.erase f) m).lookup f = if f ∈ fs then none else m.lookup f := by
  induction fs generalizing m with
  | nil => simp
  | cons g fs ih =>
    rw [List.foldl_cons, ih]
    by_cases h : f = g
    · subst h; simp [Finmap.lookup_erase]
    · simp [h, Finmap.lookup_erase_ne h]

theorem hash_written {a a1 : DB} {k : Bytes} {x : Command} {o : Except CmdErr Resp} {P : Hash → Hash → Resp → Prop} (h : WritesHash k x P) (hs : Step a x (some (a1, o))) :
    ∃ r, o = .ok r ∧ P (a.hashAt k) (a1.hashAt k) r := by
  cases h with
  | @hset fs vs hf =>
    simp only [Step] at hs
    split at hs
    · cases hs
    · cases hs
      refine ⟨_, rfl, fun f => ?_, ?_⟩
      · rw [DB.hashAt, DB.setHash]
        simp only [Function.update_self, Option.getD_some]
        exact lookup_puts
      · congr 3
        ext f
        simp [Finmap.lookup_eq_none, Finmap.mem_keys]
  | @hdel fs =>
    simp only [Step] at hs
    split at hs
    · rename_i e
      cases hs
      refine ⟨_, rfl, fun f => ?_, ?_⟩
      · simp [DB.hashAt, e]
      · simp [DB.hashAt, e]
    · rename_i m e
      cases hs
      refine ⟨_, rfl, fun f => ?_, ?_⟩
      · simp only [DB.hashAt, DB.setHash, Function.update_self, Option.getD_some, e]
        exact lookup_dels
      · simp only [DB.hashAt, e, Option.getD_some]
        congr 3
        ext f
        simp [Finmap.lookup_eq_none, Finmap.mem_keys]

theorem hash_read {a a1 : DB} {k : Bytes} {x : Command} {o : Except CmdErr Resp} {P : Hash → Resp → Prop} (h : ReadsHash k x P) (hs : Step a x (some (a1, o))) :
    ∃ r, o = .ok r ∧ P (a.hashAt k) r := by
  cases h with
  | hget hf | hexists hf | hstrlen hf =>
    simp only [Step, DB.hashAt] at hs ⊢
    split at hs
    · rename_i e
      cases hs
      exact ⟨_, rfl, by simp [e, bulk?]⟩
    · rename_i m e
      rw [if_neg hf] at hs
      cases hs
      refine ⟨_, rfl, ?_⟩
      simp only [e, Option.getD_some]
      try (simp only [Finmap.lookup_eq_none]; split <;> simp_all)
  | hmget => cases hs; exact ⟨_, rfl, rfl⟩
  | hlen => cases hs; exact ⟨_, rfl, rfl⟩
  | hgetall | hkeys | hvals =>
    simp only [Step, DB.hashAt] at hs ⊢
    split at hs
    · rename_i e
      cases hs
      exact ⟨_, rfl, .inl ⟨by simp [e], rfl⟩⟩
    · rename_i m e
      obtain ⟨ps, h1, h2⟩ := hs
      cases h2
      exact ⟨_, rfl, .inr ⟨ps, by simpa [e] using h1, rfl⟩⟩

theorem hash_kept {a a1 : DB} {k : Bytes} {x : Command} {o : Except CmdErr Resp} (hv : Valid x) (hn : ¬ ∃ P, WritesHash k x P) (hs : Step a x (some (a1, o))) :
    a1.hashAt k = a.hashAt k := by
  by_cases hk : k ∈ hashKeys x
  · cases x <;> simp only [hashKeys, List.mem_singleton, List.not_mem_nil] at hk
    case hset fs vs =>
      subst hk
      by_cases hf : fs = []
      · simp only [Step, if_pos hf] at hs
        split at hs
        · cases hs
        · cases hs
          simp [DB.hashAt, DB.setHash]
      · exact absurd ⟨_, .hset hf⟩ hn
    case hdel fs => subst hk; exact absurd ⟨_, .hdel⟩ hn
  · have ho := step_outline hv hs
    generalize hy : (some (a1, o) : Out) = y at ho
    cases ho with
    | done _ hsb _ => cases hy; rw [DB.hashAt, DB.hashAt, hsb.2.2.1 k hk]
    | fails _ => cases hy; rfl
    | bare e _ =>
      subst e
      cases hy
      simp only [hashKeys, List.mem_singleton] at hk
      simp [DB.hashAt, DB.setHash, Function.update_of_ne hk]
    | crash _ => cases hy

theorem hash_passes {a a' : DB} {qs : List (List Resp)} {rs : List Resp} (k : Bytes) (ht : Trace a qs rs a') :
    ∃ ms ver, Passes (ReadsHash k) (WritesHash k) qs rs (a.hashAt k) (a'.hashAt k) ms ver :=
  passes (f := fun a => a.hashAt k)
    (fun h hs => by rcases hs with g | ⟨e, g, -⟩ <;> obtain ⟨_, e', g'⟩ := hash_written h g <;> cases e'; exact g')
    (fun h hs => by rcases hs with g | ⟨e, g, -⟩ <;> obtain ⟨_, e', g'⟩ := hash_read h g <;> cases e'; exact g') (fun h h' => by cases h <;> cases h') hash_kept ht

/-! ### What the users see -/

/-- C105: whatever users and other clients do, a hash has one content after the other, one more for every HSET and HDEL, the last of them is what is in it at the end; every
command that reads it shows one of them, and all of it from the same; every HSET and HDEL makes one, all of its fields at once, and is told how many were new or there; and they follow
the order in which the users see replies and type lines. -/
theorem C105_sheet {a0 : DB} (h0 : Abs st a0) {tr : List Desk.Ev} {s : Desk.Sys} (h : Exec (Desk.Step ω U) (Desk.new d st) tr s)
    (ho : ∀ x ∈ doneIn (seenIn (serverOf tr)), x.2.1.ord.Fair ∧ Sized x.2.2) (k : Bytes) :
    ∃ ms ver a, Sheet U tr k ms ver ∧ ms[0]? = some (a0.hashAt k) ∧
      (∀ n m m', ms[n]? = some m → ms[n + 1]? = some m' → ∃ objs x P r, Ran tr objs ∧ Means objs x ∧ WritesHash k x P ∧ P m m' r) ∧
      Abs s.full.whole.hub.db a ∧ ms.getLast? = some (a.hashAt k) ∧ ms.length = (timesRan tr fun objs _ => ∃ x P, Means objs x ∧ WritesHash k x P) + 1 :=
  contents (f := fun a => a.hashAt k) (hash_passes k) h0 h ho

/-- Fields that are all given one value each. -/
theorem lastGiven_row {fs vs : List Bytes} (hn : fs.Nodup) (hl : fs.length = vs.length) : fs.map (lastGiven (fs.zip vs)) = vs.map some := by
  refine List.ext_getElem (by simp [hl]) fun i h1 h2 => ?_
  simp only [List.length_map] at h1 h2
  simp only [List.getElem_map, lastGiven]
  have hz : i < (fs.zip vs).length := by simp; omega
  have hm : (fs[i], vs[i]) ∈ (fs.zip vs).reverse := List.mem_reverse.2 (List.mem_iff_getElem.2 ⟨i, hz, by simp⟩)
  cases e : (fs.zip vs).reverse.find? fun p => p.1 = fs[i] with
  | none =>
    have := List.find?_eq_none.1 e _ hm
    simp at this
  | some p =>
    have h3 : p.1 = fs[i] := by simpa using List.find?_some e
    obtain ⟨j, hj, e2⟩ := List.mem_iff_getElem.1 (List.mem_reverse.1 (List.mem_of_find?_eq_some e))
    rw [List.getElem_zip] at e2
    subst e2
    simp only [List.length_zip] at hj
    have := (List.Nodup.getElem_inj_iff hn (hi := by omega) (hj := by omega)).1 h3
    subst this
    rfl

/-- C105: if nothing but HSET of the same fields, all together, is ever done to write a hash that is empty at the beginning, everybody who reads them together sees either none of them or
the values of one HSET. -/
theorem C105_together {a0 : DB} (h0 : Abs st a0) {tr : List Desk.Ev} {s : Desk.Sys} (h : Exec (Desk.Step ω U) (Desk.new d st) tr s)
    (ho : ∀ x ∈ doneIn (seenIn (serverOf tr)), x.2.1.ord.Fair ∧ Sized x.2.2) {k : Bytes} {fs : List Bytes} (hn : fs.Nodup)
    (hk : ∀ objs, Ran tr objs → Writes .hash objs k → ∃ vs, Means objs (.hset k fs vs)) (hb : a0.hashAt k = ∅) {c i : Nat} {r : Resp} (hu : U c = true)
    (hg : Got tr c i (.hmget k fs) r) :
    r = .array (fs.map fun _ => .nullBulk) ∨ ∃ objs vs, Ran tr objs ∧ Means objs (.hset k fs vs) ∧ r = .array (vs.map .bulk) := by
  obtain ⟨ms, ver, a, hs, b1, b2, -⟩ := C105_sheet h0 h ho k
  obtain ⟨m, h1, rfl⟩ := hs.reads c i _ _ r hu .hmget hg
  cases e : ver c i with
  | zero =>
    rw [e, b1, hb] at h1
    cases h1
    exact .inl (by simp [bulk?])
  | succ n =>
    rw [e] at h1
    have hlt := (List.getElem?_eq_some_iff.1 h1).1
    obtain ⟨objs, x, P, r, g1, g2, g3, g4⟩ := b2 n ms[n] m (List.getElem?_eq_getElem (by omega)) h1
    have hw : Writes .hash objs k := hashKeys_writes g2 (by cases g3 <;> simp [hashKeys])
    obtain ⟨vs, g5⟩ := hk objs g1 hw
    cases means_unique g2 g5
    cases g3
    refine .inr ⟨objs, vs, g1, g2, ?_⟩
    have row := lastGiven_row hn g5.1
    have e : fs.map (fun f => m.lookup f) = vs.map some := by
      rw [← row]
      refine List.map_congr_left fun f hf => ?_
      have h2 : lastGiven (fs.zip vs) f ∈ fs.map (lastGiven (fs.zip vs)) := List.mem_map_of_mem hf
      rw [row] at h2
      obtain ⟨v, -, h3⟩ := List.mem_map.1 h2
      rw [g4.1 f, ← h3]
      rfl
    have := congrArg (List.map bulk?) e
    rw [List.map_map, List.map_map] at this
    exact congrArg Resp.array this

/-! ### Example -/

/-- A user reads two fields before and after another one sets them. -/
abbrev filing : List Script.Line :=
  [(8, [b!"hmget", b!"h", b!"f", b!"g"], .array [.nullBulk, .nullBulk]), (7, [b!"hset", b!"h", b!"f", b!"1", b!"g", b!"2"], .int 2),
    (8, [b!"hmget", b!"h", b!"f", b!"g"], .array [.bulk b!"1", .bulk b!"2"])]

theorem hmget_typable : Typable (Script.sent [b!"hmget", b!"h", b!"f", b!"g"]) :=
  typable_words (l := b!"hmget h f g") (by simp [Line]) (fun p h => by
    have := congrArg List.getLast? h
    simp at this) (by simp [Quits]) (.space (w := b!"hmget") (rest := b!"h f g") (by simp [Plain])
      (.space (w := b!"h") (rest := b!"f g") (by simp [Plain]) (.space (w := b!"f") (rest := b!"g") (by simp [Plain]) (.last (w := b!"g") (by simp [Plain])))))

theorem hset_typable : Typable (Script.sent [b!"hset", b!"h", b!"f", b!"1", b!"g", b!"2"]) :=
  typable_words (l := b!"hset h f 1 g 2") (by simp [Line]) (fun p h => by
    have := congrArg List.getLast? h
    simp at this) (by simp [Quits]) (.space (w := b!"hset") (rest := b!"h f 1 g 2") (by simp [Plain])
      (.space (w := b!"h") (rest := b!"f 1 g 2") (by simp [Plain]) (.space (w := b!"f") (rest := b!"1 g 2") (by simp [Plain])
        (.space (w := b!"1") (rest := b!"g 2") (by simp [Plain]) (.space (w := b!"g") (rest := b!"2") (by simp [Plain]) (.last (w := b!"2") (by simp [Plain])))))))

theorem hmget_parses : parse (Script.sent [b!"hmget", b!"h", b!"f", b!"g"]) = .ok (.array (req [b!"hmget", b!"h", b!"f", b!"g"])) [] := by rfl
theorem hset_parses : parse (Script.sent [b!"hset", b!"h", b!"f", b!"1", b!"g", b!"2"]) = .ok (.array (req [b!"hset", b!"h", b!"f", b!"1", b!"g", b!"2"])) [] := by rfl

theorem hmget_means : Means (req [b!"hmget", b!"h", b!"f", b!"g"]) (.hmget b!"h" [b!"f", b!"g"]) := command_means rfl
theorem hset_means : Means (req [b!"hset", b!"h", b!"f", b!"1", b!"g", b!"2"]) (.hset b!"h" [b!"f", b!"g"] [b!"1", b!"2"]) := command_means rfl

theorem filing_plays : Script.Plays State.empty filing := by
  obtain ⟨st1, h1, st2, h2, st3, h3⟩ : ∃ st1, handle env0 State.empty (req [b!"hmget", b!"h", b!"f", b!"g"]) = .ok (st1, .array [.nullBulk, .nullBulk]) ∧
      ∃ st2, handle env0 st1 (req [b!"hset", b!"h", b!"f", b!"1", b!"g", b!"2"]) = .ok (st2, .int 2) ∧
      ∃ st3, handle env0 st2 (req [b!"hmget", b!"h", b!"f", b!"g"]) = .ok (st3, .array [.bulk b!"1", .bulk b!"2"]) := ⟨_, rfl, _, rfl, _, rfl⟩
  exact .cons rfl h1 hmget_parses hmget_typable (.array (by simp) (by simp; exact .nullBulk)) (.cons rfl h2 hset_parses hset_typable (.int (by omega) (by omega))
    (.cons rfl h3 hmget_parses hmget_typable (.array (by simp) (by simp; exact ⟨.bulk (by simp), .bulk (by simp)⟩)) (.nil _)))

/-- The hypotheses of `C105_sheet` and `C105_together` can be met. -/
example : ∃ (tr : List Desk.Ev) (s : Desk.Sys), Exec (Desk.Step ω Script.isUser) (Desk.new d State.empty) tr s ∧
    (∀ x ∈ doneIn (seenIn (serverOf tr)), x.2.1.ord.Fair ∧ Sized x.2.2) ∧
    (∀ objs, Ran tr objs → Writes .hash objs b!"h" → ∃ vs, Means objs (.hset b!"h" [b!"f", b!"g"] vs)) ∧
    Got tr 8 0 (.hmget b!"h" [b!"f", b!"g"]) (.array [.nullBulk, .nullBulk]) ∧ Got tr 7 0 (.hset b!"h" [b!"f", b!"g"] [b!"1", b!"2"]) (.int 2) ∧
    Got tr 8 1 (.hmget b!"h" [b!"f", b!"g"]) (.array [.bulk b!"1", .bulk b!"2"]) := by
  obtain ⟨tr, s, h1, h2, h3, h4⟩ := Script.played (ω := ω) (d := d) filing_plays abs_empty
  refine ⟨tr, s, h1, h3, fun objs ho hw => ?_, got_play (h4 8 rfl).1 (h4 8 rfl).2 (xs := filing) rfl hmget_means,
    got_play (h4 7 rfl).1 (h4 7 rfl).2 (xs := filing) rfl hset_means, got_play (h4 8 rfl).1 (h4 8 rfl).2 (xs := filing) rfl hmget_means⟩
  obtain ⟨x, h5, rfl⟩ := ran_in_play h2 ho
  simp only [List.mem_cons, List.not_mem_nil, or_false] at h5
  rcases h5 with rfl | rfl | rfl
  · exact absurd hw (only_reads (by decide) (by decide))
  · exact ⟨_, hset_means⟩
  · exact absurd hw (only_reads (by decide) (by decide))

end Verif.Props
