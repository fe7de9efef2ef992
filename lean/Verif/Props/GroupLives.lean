import Verif.Spec.GroupLives
import Verif.Props.Group
import Verif.Props.RecipeLives
import Verif.Props.RegisterLives

/-! # C98 – users who keep to their own keys, over restarts -/

namespace Verif.Props

open Spec
open Fut (upd)

variable {m : Bool} {ω : Nat → Nat} {U : Nat → Bool} {d : Bytes} {st : State}

/-- What the group did in one life. -/
structure GroupSegment (U G : Nat → Bool) (tr : List Site.Ev) (es : List (Bool × List Resp × Resp)) : Prop where
  one : ∃ place, OneDatabase (fun c => U c && G c) (deskOf tr) ((es.filter (·.1)).map fun e => e.2.1) ((es.filter (·.1)).map fun e => e.2.2) place
  asker : ∀ e ∈ es, ∃ c, G c = e.1 ∧ RanBy (deskOf tr) c e.2.1

/-- What the users of each process saw, and what the group asked. -/
theorem group_records {G : Nat → Bool} {trs : List (List Site.Ev)} {d : Bytes} (hl : SiteLives m U trs d) (hq : ∀ tr ∈ trs, Plainly (wholeOf (fullOf (procOf tr))))
    (hz : ∀ tr ∈ trs, ∀ x ∈ doneIn (seenOver (procOf tr)), Sized x.2.2) {hs : List (List Req)}
    (h1 : List.Forall₂ (fun tr h => Executed (seenOver (procOf tr)) h) trs hs) :
    List.Forall₂ (fun tr (h : List Req) => ∃ es, GroupSegment U G tr es ∧ es.map (fun e => e.2.1) = h.map Req.objs ∧
      es.map (fun e => e.2.2) = (doneIn (seenOver (procOf tr))).map fun x => x.2.2) trs hs := by
  induction hl generalizing hs with
  | none => cases h1; exact .nil
  | @next trs d st ω tr s hl hb hx _ ih =>
    obtain ⟨zs, y, rfl, g1, g2⟩ := forall₂_append_inv h1
    refine List.rel_append (ih (fun tr ht => hq tr (by simp [ht])) (fun tr ht => hz tr (by simp [ht])) g1) (.cons ?_ .nil)
    obtain ⟨envs, dbs, k1, k2, rfl⟩ := hb
    obtain ⟨-, a0, dbs', -, -, k3, k4⟩ := C84_invisible_partial (site_procs hl) (fun tr ht => by
      obtain ⟨tr', ht', rfl⟩ := List.mem_map.1 ht
      exact hq tr' (by simp [ht'])) k1
    rw [k2] at k3
    cases k3
    obtain ⟨-, p2, p3⟩ := C86_parts hx
    have e1 : seenIn (serverOf (deskOf tr)) = seenOver (procOf tr) := by rw [p3]; rfl
    have ho : ∀ x ∈ doneIn (seenIn (serverOf (deskOf tr))), x.2.1.ord.Fair ∧ Sized x.2.2 := by
      rw [e1]
      exact fun x hx => ⟨(hq tr (by simp)).2 x hx, hz tr (by simp) x hx⟩
    have hy : List.Forall₂ (RequestOf (deskOf tr)) (doneIn (seenIn (serverOf (deskOf tr)))) (y.map Req.objs) := by
      unfold RequestOf
      rw [e1, List.forall₂_map_right_iff]
      exact g2.imp fun _ _ h => h.2
    obtain ⟨n, hn, -⟩ := (C82_parts (C85_parts p2)).2.1
    obtain ⟨place, f1, -, f2, -⟩ := explains_all (U := U) k4 p2 ho hy
    exact ⟨flagged G (deskOf tr) (y.map Req.objs), ⟨⟨_, flagged_one hy f1 f2⟩, flagged_by hn hy⟩, flagged_requests hy.length_eq, by rw [← e1]; exact flagged_replies hy.length_eq⟩

/-- C98 (own keys): over processes that are stopped well, if nobody outside a group writes to the group's keys, the users of the group see what they would see if only the group's
requests had ever been asked, and the group's keys end up as they would then. -/
theorem C98_group_partial {trs : List (List Site.Ev)} {d : Bytes} (hl : SiteLives m U trs d) (hq : ∀ tr ∈ trs, Plainly (wholeOf (fullOf (procOf tr))))
    (hz : ∀ tr ∈ trs, ∀ x ∈ doneIn (seenOver (procOf tr)), Sized x.2.2) {G : Nat → Bool} (hg : KeepsOwnIn G trs)
    {envs : Nat → Env} (hfair : ∀ i, (envs i).ord.Fair) :
    ∃ qs rs place a b dbs, Trace DB.empty qs rs b ∧ OneDatabaseIn (fun c => U c && G c) trs qs rs place ∧
      (∀ q ∈ qs, ∃ tr ∈ trs, ∃ c, G c = true ∧ RanBy (deskOf tr) c q) ∧ fromFile noDBs envs d = .ok dbs ∧ Abs (dbs 1) a ∧ AgreeOn (KeyOfGroupIn G trs) a b := by
  obtain ⟨hs, a, dbs, h1, h2, h3, h4⟩ := C84_invisible_partial (site_procs hl) (fun tr ht => by
    obtain ⟨tr', ht', rfl⟩ := List.mem_map.1 ht
    exact hq tr' ht') hfair
  rw [List.forall₂_map_left_iff] at h1
  rw [List.flatMap_map] at h2
  have key : ∃ ess, List.Forall₂ (GroupSegment U G) trs ess ∧ (ess.flatten).map (fun e => e.2.1) = hs.flatten.map Req.objs ∧
      (ess.flatten).map (fun e => e.2.2) = trs.flatMap fun tr => (doneIn (seenOver (procOf tr))).map fun x => x.2.2 := by
    have h5 := group_records (G := G) hl hq hz h1
    clear hq hz hl h1 h2 hg
    induction h5 with
    | nil => exact ⟨[], .nil, rfl, rfl⟩
    | cons h _ ih =>
      obtain ⟨ess, g1, g2, g3⟩ := ih
      obtain ⟨es, k1, k2, k3⟩ := h
      exact ⟨es :: ess, .cons k1 g1, by simp [g2, k2], by simp [g3, k3]⟩
  obtain ⟨ess, g1, g2, g3⟩ := key
  have hby : ∀ e ∈ ess.flatten, ∃ tr ∈ trs, ∃ c, G c = e.1 ∧ RanBy (deskOf tr) c e.2.1 := by
    clear hq hz hl h1 h2 hg g2 g3
    induction g1 with
    | nil => simp
    | @cons tr es trs ess h _ ih =>
      intro e he
      rw [List.flatten_cons, List.mem_append] at he
      rcases he with he | he
      · exact ⟨tr, by simp, h.asker e he⟩
      · obtain ⟨t, ht, h⟩ := ih e he
        exact ⟨t, by simp [ht], h⟩
  obtain ⟨b, t1, t2⟩ := group_trace (P := KeyOfGroupIn G trs) (es := ess.flatten) (b := DB.empty) (by rw [g2, g3]; exact h2) .refl
    (fun e he hb sp k hk => by obtain ⟨tr, ht, c, k1, k2⟩ := hby e he; exact ⟨tr, ht, c, _, k1.trans hb, k2, hk⟩)
    (fun e he hb sp k hk => by obtain ⟨tr, ht, c, k1, k2⟩ := hby e he; exact hg tr ht c _ sp k (k1.trans hb) k2 hk)
  have hj : List.Forall₂ (Joinable fun c => U c && G c) trs (ess.map fun es => ((es.filter (·.1)).map (fun e => e.2.1), (es.filter (·.1)).map fun e => e.2.2)) := by
    rw [List.forall₂_map_right_iff]
    refine g1.imp fun tr es h => ⟨h.one, fun q hq => ?_, by simp⟩
    obtain ⟨e, he, rfl⟩ := List.mem_map.1 hq
    obtain ⟨c, -, x, hx, o, k1, k2⟩ := h.asker e (List.mem_filter.1 he).1
    exact ⟨x, hx, c, o, k1, k2⟩
  obtain ⟨-, place, hp⟩ := joined_of hj
  have e1 : (ess.map fun es => ((es.filter (·.1)).map (fun e => e.2.1), (es.filter (·.1)).map fun e => e.2.2)).flatMap (·.1) = ((ess.flatten).filter (·.1)).map fun e => e.2.1 := by
    simp [List.flatMap_map, List.filter_flatten, List.map_flatten, List.flatMap_def, Function.comp_def]
  have e2 : (ess.map fun es => ((es.filter (·.1)).map (fun e => e.2.1), (es.filter (·.1)).map fun e => e.2.2)).flatMap (·.2) = ((ess.flatten).filter (·.1)).map fun e => e.2.2 := by
    simp [List.flatMap_map, List.filter_flatten, List.map_flatten, List.flatMap_def, Function.comp_def]
  rw [e1, e2] at hp
  refine ⟨_, _, place, a, b, dbs, t1, ⟨fun n c i x r hu hg => hp.each hu hg, fun n n' c c' i j x x' r r' hu hu' hg hg' => hp.distinct hu hu' hg hg',
    fun n n' c c' i j x x' r r' hu hu' hg hg' => hp.inTime hu hu' hg hg'⟩, fun q hq => ?_, h3, h4, t2⟩
  obtain ⟨e, he, rfl⟩ := List.mem_map.1 hq
  obtain ⟨k1, k2⟩ := List.mem_filter.1 he
  obtain ⟨tr, ht, c, k3, k4⟩ := hby e k1
  exact ⟨tr, ht, c, k3.trans k2, k4⟩

/-- The full claim: a process exits when no writer waits and nothing has failed at the file, the next begins with the file, and in neither anybody outside the group writes to the
group's keys; then the users of the group see what they would see if only the group's requests had ever been asked. -/
def GroupLasts : Prop := ∀ (ω : Nat → Nat) (U G : Nat → Bool) (st' : State) (tr tr' : List Site.Ev) (s s' : Site.Sys),
  Exec (Site.Step true ω U) (Site.new [] State.empty) tr s → s.proc.stop.exited = true → s.proc.full.whole.begun = none →
  s.proc.full.whole.pending = [] → s.proc.full.whole.file.failed = false → Begins s.proc.full.whole.file.disk st' →
  Exec (Site.Step true ω U) (Site.new s.proc.full.whole.file.disk st') tr' s' → KeepsOwnIn G [tr, tr'] →
  ∃ qs rs place b, Trace DB.empty qs rs b ∧ OneDatabaseIn (fun c => U c && G c) [tr, tr'] qs rs place ∧
    ∀ q ∈ qs, ∃ t ∈ [tr, tr'], ∃ c, G c = true ∧ RanBy (deskOf t) c q

/-- C98 (own keys): it is not so, also when the group is everybody: they see a key lost that they have set. -/
theorem C98_group_false : ¬ GroupLasts := by
  refine fun hc => C98_register_false ?_
  intro ω U st' tr tr' s s' k v c c' i j r h1 h2 h3 h4 h5 h6 h7 hk hu hu' hg hg'
  obtain ⟨qs, rs, place, b, t, one, by'⟩ := hc ω U (fun _ => true) st' tr tr' s s' h1 h2 h3 h4 h5 h6 h7 (fun _ _ _ _ _ _ h => by cases h)
  have hset : ∀ q ∈ qs, Writes .str q k → Means q (.set k v) := fun q hq hw => by
    obtain ⟨x, hx, c, -, e, he, o, g1, g2⟩ := by' q hq
    simp only [List.mem_cons, List.not_mem_nil, or_false] at hx
    rcases hx with rfl | rfl
    · exact hk q (.inl ⟨e, he, c, o, g1, g2⟩) hw
    · exact hk q (.inr ⟨e, he, c, o, g1, g2⟩) hw
  obtain ⟨vals, ver, hv⟩ := versions t fun q hq hw => ⟨v, hset q hq hw⟩
  have in0 : GotIn [tr, tr'] 0 c i (.set k v) okReply := ⟨tr, rfl, hg⟩
  have in1 : GotIn [tr, tr'] 1 c' j (.get k) r := ⟨tr', rfl, hg'⟩
  have p0 := one.each 0 c i _ _ (by simp [hu]) in0
  have p1 := one.each 1 c' j _ _ (by simp [hu']) in1
  have hlt := one.inTime 0 1 c c' i j _ _ _ _ (by simp [hu]) (by simp [hu']) in0 in1 (.inl (by decide))
  obtain ⟨-, hpos, -⟩ := hv.writes _ _ _ p0
  obtain ⟨w, hw, rfl⟩ := hv.reads _ _ p1
  obtain ⟨q, g, -⟩ := p1
  have hle := hv.ordered _ _ hlt (List.getElem?_eq_some_iff.1 g).1
  obtain ⟨n, hn⟩ : ∃ n, ver (place 1 c' j) = n + 1 := ⟨ver (place 1 c' j) - 1, by omega⟩
  rw [hn] at hw
  obtain ⟨q, hq, w, rfl, hm⟩ := hv.made n w hw
  cases means_unique hm (hset q hq (strKeys_writes hm (by simp [strKeys])))
  rfl

/-! ### Example -/

/-- One user in each process, not always the same, with one line: `xs` are the users, the words of the lines and the replies. -/
structure EachBy (trs : List (List Site.Ev)) (d : Bytes) (xs : List (Nat × List Bytes × Resp)) : Prop where
  lives : SiteLives true (fun c => c == 7 || c == 8) trs d
  plain : ∀ tr ∈ trs, Plainly (wholeOf (fullOf (procOf tr)))
  sized : ∀ tr ∈ trs, ∀ x ∈ doneIn (seenOver (procOf tr)), Sized x.2.2
  each : List.Forall₂ (fun tr (x : Nat × List Bytes × Resp) => seenOver (procOf tr) = oneTrace (Script.sent x.2.1) x.2.1 x.2.2 x.1 ∧
    seenIn (serverOf (deskOf tr)) = seenOver (procOf tr) ∧ ∃ l, typedBy x.1 (deskOf tr) = [l] ∧ Words l x.2.1 ∧ shownTo x.1 (deskOf tr) = [x.2.2]) trs xs

theorem asked_by {tr : List Desk.Ev} {b : Bytes} {ws : List Bytes} {r : Resp} {u : Nat} (h : seenIn (serverOf tr) = oneTrace b ws r u) {c n : Nat} {o : Resp} {objs : List Resp}
    (h1 : (n, o) ∈ askedBy c (seenIn (serverOf tr))) (h2 : ArrayOf o objs) : c = u ∧ objs = req ws := by
  rw [h] at h1
  simp only [askedBy] at h1
  split at h1 <;> simp at h1
  obtain ⟨-, rfl⟩ := h1
  rename_i hc
  refine ⟨by simpa using hc.symm, ?_⟩
  rcases h2 with h2 | ⟨h2, -⟩
  · exact (Resp.array.inj h2).symm
  · cases h2

theorem EachBy.ran {trs : List (List Site.Ev)} {d : Bytes} {xs : List (Nat × List Bytes × Resp)} (h : EachBy trs d xs) {tr : List Site.Ev} (ht : tr ∈ trs) {c : Nat}
    {objs : List Resp} (hr : RanBy (deskOf tr) c objs) : ∃ x ∈ xs, c = x.1 ∧ objs = req x.2.1 := by
  obtain ⟨i, hi, rfl⟩ := List.getElem_of_mem ht
  have hi' : i < xs.length := by rw [← h.each.length_eq]; exact hi
  obtain ⟨h1, h2, -⟩ := (List.forall₂_iff_get.1 h.each).2 i hi hi'
  obtain ⟨e, -, o, g1, g2⟩ := hr
  exact ⟨_, List.getElem_mem hi', asked_by (h2.trans h1) g1 g2⟩

theorem EachBy.got {trs : List (List Site.Ev)} {d : Bytes} {xs : List (Nat × List Bytes × Resp)} (h : EachBy trs d xs) {n u : Nat} {ws : List Bytes} {r : Resp}
    (hn : xs[n]? = some (u, ws, r)) {x : Command} (hm : Means (req ws) x) : GotIn trs n u 0 x r := by
  obtain ⟨hi', e⟩ := List.getElem?_eq_some_iff.1 hn
  have hi : n < trs.length := by rw [h.each.length_eq]; exact hi'
  obtain ⟨-, -, l, h1, h2, h3⟩ := (List.forall₂_iff_get.1 h.each).2 n hi hi'
  simp only [List.get_eq_getElem, e] at h1 h2 h3
  exact ⟨_, List.getElem?_eq_getElem hi, l, by rw [h1]; rfl, ⟨ws, h2, hm⟩, by rw [h3]; rfl⟩

theorem EachBy.begins {trs : List (List Site.Ev)} {d : Bytes} {xs : List (Nat × List Bytes × Resp)} (h : EachBy trs d xs) :
    ∃ st a, Begins d st ∧ Abs st a ∧ Trace DB.empty (xs.map fun x => req x.2.1) (xs.map fun x => x.2.2) a := by
  obtain ⟨segs, a, dbs, h1, h2, h3, h4⟩ := lives_record h.lives h.plain h.sized (envs := fun _ => env0) fun _ => env0_fair
  refine ⟨_, a, ⟨_, _, fun _ => env0_fair, h3, rfl⟩, h4, ?_⟩
  have key : segs.flatMap (·.1) = (xs.map fun x => req x.2.1) ∧ segs.flatMap (·.2) = xs.map fun x => x.2.2 := by
    have h5 := h.each
    clear h h2 h3 h4
    induction h1 generalizing xs with
    | nil => cases h5; exact ⟨rfl, rfl⟩
    | @cons tr seg trs segs g1 _ ih =>
      cases h5 with
      | @cons _ x _ xs g2 h5 =>
        obtain ⟨i1, i2⟩ := ih h5
        obtain ⟨⟨place, hrec⟩, e2, e1⟩ := g1
        have hr := ran_of hrec.asked
        obtain ⟨k1, k2, -⟩ := g2
        have e3 : seg.2 = [x.2.2] := by rw [e2, k1]; rfl
        obtain ⟨q, hq⟩ : ∃ q, seg.1 = [q] := List.length_eq_one_iff.1 (by rw [e1, e3]; rfl)
        have : q = req x.2.1 := by
          obtain ⟨e, -, c, o, j1, j2⟩ := hr q (by simp [hq])
          exact (asked_by (k2.trans k1) j1 j2).2
        simp [i1, i2, e3, hq, this]
  rw [← key.1, ← key.2]
  exact h2

theorem EachBy.next {trs : List (List Site.Ev)} {d : Bytes} {xs : List (Nat × List Bytes × Resp)} (h : EachBy trs d xs) {u : Nat} (hu : u = 7 ∨ u = 8) {st st' : State} {a : DB}
    (hb : Begins d st) (ha : Abs st a)
    {ws : List Bytes} {r : Resp} (hh : handle env0 st (req ws) = .ok (st', r)) (hp : parse (Script.sent ws) = .ok (.array (req ws)) []) (ht : Typable (Script.sent ws))
    (hr : Sized r) (hz : (requestLog stamp0 (req ws)).length ≤ 100000)
    (ho : (sent ws).Occurs ∧ ¬ (sent ws).Is b!"ltrim" ∧ ¬ (sent ws).Is b!"spop" ∧ ∀ o ∈ (sent ws).objs, TextObj o) : ∃ tr d', EachBy (trs ++ [tr]) d' (xs ++ [(u, ws, r)]) := by
  obtain ⟨tr, s, l, h1, h2, h3, h4, h5, h6, h7⟩ := one_user_life' hu (U := fun c => c == 7 || c == 8) (by rcases hu with rfl | rfl <;> rfl) (d := d) ha hp hh ht hr hz
  refine ⟨tr, _, .next (ω := fun _ => 100000) h.lives hb h1 h2, ?_, ?_, List.rel_append h.each (.cons ⟨h3, ?_, l, h5, h6, h7⟩ .nil)⟩
  · intro t ht
    rcases List.mem_append.1 ht with ht | ht
    · exact h.plain t ht
    · rw [List.mem_singleton.1 ht]
      exact one_plain h3 h4 ho
  · intro t ht
    rcases List.mem_append.1 ht with ht | ht
    · exact h.sized t ht
    · rw [List.mem_singleton.1 ht, h3]
      simpa [doneIn] using hr
  · rw [(C86_parts h1).2.2]; rfl

theorem eachBy_nil : EachBy [] [] [] := ⟨.none, by simp, by simp, .nil⟩

theorem set6_first {a : DB} {qs : List (List Resp)} {rs : List Resp} (h : Trace DB.empty (req [b!"set", b!"n", b!"6"] :: qs) rs a) :
    ∃ a1 rs', Trace a1 qs rs' a ∧ a1.strs b!"n" = some b!"6" ∧ a1.listAt b!"q" = [] := by
  obtain ⟨a1, r, rs', rfl, h1, -, h3, -, h2⟩ := trace_first h
  refine ⟨a1, rs', h1, ?_, ?_⟩
  · rcases h2 _ set6_means with h3 | ⟨e, t, h3, -⟩ <;> cases h3
    simp [DB.setStr]
  · simp [DB.listAt, h3 b!"q" (only_reads (by decide) (by decide)), DB.empty]

theorem rpush_one {st : State} {a : DB} (h : Abs st a) (hs : a.listAt b!"q" = []) : ∃ st1, handle env0 st (req [b!"rpush", b!"q", b!"x"]) = .ok (st1, .int 1) := by
  obtain ⟨out, h1, h2⟩ := handle_refines h env0_fair (command_means rfl : Means (req [b!"rpush", b!"q", b!"x"]) (.rpush b!"q" [b!"x"]))
  simp [Step, hs] at h1
  subst h1
  obtain ⟨st1, h3, -⟩ := h2
  exact ⟨st1, h3⟩

/-- A user sets a key in one process, another user pushes to a list in the next, and the first reads the key in the third: the hypotheses of `C98_group_partial` are met for
the first alone. -/
example : ∃ tr0 tr1 tr2 d, SiteLives true (fun c => c == 7 || c == 8) [tr0, tr1, tr2] d ∧ (∀ tr ∈ [tr0, tr1, tr2], Plainly (wholeOf (fullOf (procOf tr)))) ∧
    (∀ tr ∈ [tr0, tr1, tr2], ∀ x ∈ doneIn (seenOver (procOf tr)), Sized x.2.2) ∧ KeepsOwnIn (fun c => c = 7) [tr0, tr1, tr2] ∧
    GotIn [tr0, tr1, tr2] 0 7 0 (.set b!"n" b!"6") okReply ∧ GotIn [tr0, tr1, tr2] 1 8 0 (.rpush b!"q" [b!"x"]) (.int 1) ∧
    GotIn [tr0, tr1, tr2] 2 7 0 (.get b!"n") (.bulk b!"6") := by
  obtain ⟨tr0, d0, h0⟩ := eachBy_nil.next (.inl rfl) begins_empty abs_empty (ws := [b!"set", b!"n", b!"6"]) (r := okReply) rfl set6_parses set6_typable .simple (by decide)
    ⟨sent_occurs, sent_is (by decide), sent_is (by decide), sent_text⟩
  obtain ⟨st0, a0, b0, m0, t0⟩ := h0.begins
  obtain ⟨_, _, ⟨⟩, v0, w0⟩ := set6_first t0
  obtain ⟨st1, e1⟩ := rpush_one m0 w0
  obtain ⟨tr1, d1, h1⟩ := h0.next (.inr rfl) b0 m0 e1 rpush_parses rpush_typable (.int (by omega) (by omega)) (by decide)
    ⟨sent_occurs, sent_is (by decide), sent_is (by decide), sent_text⟩
  obtain ⟨st1, a1, b1, m1, t1⟩ := h1.begins
  obtain ⟨_, _, t1, v1, -⟩ := set6_first t1
  obtain ⟨_, _, _, _, ⟨⟩, hs, -⟩ := trace_first t1
  obtain ⟨st2, e2⟩ := get_one m1
  rw [hs b!"n" (only_reads (by decide) (by decide)), v1] at e2
  obtain ⟨tr2, d2, h2⟩ := h1.next (.inl rfl) b1 m1 e2 getn_parses getn_typable (.bulk (by decide)) (by decide) ⟨sent_occurs, sent_is (by decide), sent_is (by decide), sent_text⟩
  have group : ∀ sp k, KeyOfGroupIn (fun c => c = 7) [tr0, tr1, tr2] sp k → sp = .str := by
    rintro sp k ⟨tr, ht, c, objs, hc, hr, hk⟩
    obtain ⟨x, hx, rfl, rfl⟩ := h2.ran ht hr
    simp only [List.nil_append, List.cons_append, List.mem_cons, List.not_mem_nil, or_false] at hx
    by_contra hne
    rcases hx with rfl | rfl | rfl
    · exact not_named (by cases sp <;> first | contradiction | decide) (by cases sp <;> first | contradiction | decide) hne hk
    · simp at hc
    · exact not_named (by cases sp <;> first | contradiction | decide) (by cases sp <;> first | contradiction | decide) hne hk
  refine ⟨tr0, tr1, tr2, d2, h2.lives, h2.plain, h2.sized, ?_, h2.got (n := 0) (ws := [b!"set", b!"n", b!"6"]) (r := okReply) rfl set6_means,
    h2.got (n := 1) (ws := [b!"rpush", b!"q", b!"x"]) (r := .int 1) rfl (command_means rfl), h2.got (n := 2) (ws := [b!"get", b!"n"]) (r := .bulk b!"6") rfl getn_means⟩
  intro tr ht c objs sp k hc hr hw hk
  cases group sp k hk
  obtain ⟨x, hx, rfl, rfl⟩ := h2.ran ht hr
  simp only [List.nil_append, List.cons_append, List.mem_cons, List.not_mem_nil, or_false] at hx
  rcases hx with rfl | rfl | rfl
  · simp at hc
  · exact only_reads (by decide) (by decide) hw
  · simp at hc

end Verif.Props
