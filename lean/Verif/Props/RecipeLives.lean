import Verif.Spec.RecipeLives
import Verif.Props.Recipe
import Verif.Props.Site

/-! # C98 – what users build on single commands, over restarts -/

namespace Verif.Props

open Spec
open Fut (upd)

variable {m : Bool} {ω : Nat → Nat} {U : Nat → Bool} {d : Bytes} {st : State}

theorem trace_parts {a b : DB} {qs qs' : List (List Resp)} {rs rs' : List Resp} (h : Trace a (qs ++ qs') (rs ++ rs') b) (hl : qs.length = rs.length) :
    ∃ a1, Trace a qs rs a1 ∧ Trace a1 qs' rs' b := by
  induction qs generalizing a rs with
  | nil =>
    obtain rfl : rs = [] := List.eq_nil_of_length_eq_zero hl.symm
    exact ⟨a, .nil a, h⟩
  | cons q qs ih =>
    match rs, hl with
    | r :: rs, hl =>
      have hl' : qs.length = rs.length := by simpa using hl
      cases h with
      | ok h1 h2 h3 => obtain ⟨a1, g1, g2⟩ := ih h3 hl'; exact ⟨a1, .ok h1 h2 g1, g2⟩
      | err h1 h2 h3 h4 => obtain ⟨a1, g1, g2⟩ := ih h4 hl'; exact ⟨a1, .err h1 h2 h3 g1, g2⟩
      | bad h1 h2 => obtain ⟨a1, g1, g2⟩ := ih h2 hl'; exact ⟨a1, .bad h1 g1, g2⟩

/-- All lives as one. -/
structure Joined (U : Nat → Bool) (trs : List (List Site.Ev)) (qs : List (List Resp)) (rs : List Resp) (place : Nat → Nat → Nat → Nat) : Prop where
  each : ∀ {n c i x r}, U c = true → GotIn trs n c i x r → Placed qs rs (place n c i) x r
  distinct : ∀ {n n' c c' i j x x' r r'}, U c = true → U c' = true → GotIn trs n c i x r → GotIn trs n' c' j x' r' → place n c i = place n' c' j →
    n = n' ∧ c = c' ∧ i = j
  inTime : ∀ {n n' c c' i j x x' r r'}, U c = true → U c' = true → GotIn trs n c i x r → GotIn trs n' c' j x' r' → EarlierIn trs n c i n' c' j →
    place n c i < place n' c' j
  ran : ∀ q ∈ qs, ∃ tr ∈ trs, Ran (deskOf tr) q

/-- What is known of one life. -/
def Segment (U : Nat → Bool) (tr : List Site.Ev) (seg : List (List Resp) × List Resp) : Prop :=
  (∃ place, OnRecord U (deskOf tr) seg.1 seg.2 place) ∧ seg.2 = ((doneIn (seenOver (procOf tr))).map fun x => x.2.2) ∧ seg.1.length = seg.2.length

/-- What the users of each process saw, and what was executed. -/
theorem site_records {trs : List (List Site.Ev)} {d : Bytes} (hl : SiteLives m U trs d) (hq : ∀ tr ∈ trs, Plainly (wholeOf (fullOf (procOf tr))))
    (hz : ∀ tr ∈ trs, ∀ x ∈ doneIn (seenOver (procOf tr)), Sized x.2.2) {hs : List (List Req)}
    (h1 : List.Forall₂ (fun tr h => Executed (seenOver (procOf tr)) h) trs hs) :
    List.Forall₂ (fun tr (h : List Req) => Segment U tr (h.map Req.objs, (doneIn (seenOver (procOf tr))).map fun x => x.2.2)) trs hs := by
  induction hl generalizing hs with
  | none => cases h1; exact .nil
  | @next trs d st ω tr s hl hb hx _ ih =>
    obtain ⟨zs, y, rfl, g1, g2⟩ := forall₂_append_inv h1
    refine List.rel_append (ih (fun tr ht => hq tr (by simp [ht])) (fun tr ht => hz tr (by simp [ht])) g1) (.cons ?_ .nil)
    obtain ⟨envs, dbs, k1, k2, rfl⟩ := hb
    obtain ⟨-, a0, dbs', -, -, k3, k4⟩ := C84_invisible_partial (site_procs hl) (fun tr ht => by
      obtain ⟨tr', ht', rfl⟩ := List.mem_map.1 ht
      exact hq tr' (by simp [ht'])) k1
    rw [k2] at k3
    cases k3
    obtain ⟨-, p2, p3⟩ := C86_parts hx
    have e1 : seenIn (serverOf (deskOf tr)) = seenOver (procOf tr) := by rw [p3]; rfl
    have ho : ∀ x ∈ doneIn (seenIn (serverOf (deskOf tr))), x.2.1.ord.Fair ∧ Sized x.2.2 := by
      rw [e1]
      exact fun x hx => ⟨(hq tr (by simp)).2 x hx, hz tr (by simp) x hx⟩
    have hy : List.Forall₂ (RequestOf (deskOf tr)) (doneIn (seenIn (serverOf (deskOf tr)))) (y.map Req.objs) := by
      unfold RequestOf
      rw [e1, List.forall₂_map_right_iff]
      exact g2.imp fun _ _ h => h.2
    obtain ⟨place, f1, -, -, f2⟩ := explains_all (U := U) k4 p2 ho hy
    refine ⟨⟨place, by rw [← e1]; exact f1, hy, f2, fun before c l after e => ?_⟩, rfl, ?_⟩
    · rw [e] at p2 ho
      exact typed_when k4 p2 ho
    · rw [List.length_map, List.length_map]
      exact g2.length_eq.symm

theorem placed_lt {qs : List (List Resp)} {rs : List Resp} {p : Nat} {x : Command} {r : Resp} (h : Placed qs rs p x r) : p < qs.length := by
  obtain ⟨q, h, -⟩ := h
  exact (List.getElem?_eq_some_iff.1 h).1

theorem placed_left {qs qs' : List (List Resp)} {rs rs' : List Resp} {p : Nat} {x : Command} {r : Resp} (h : Placed qs rs p x r) :
    Placed (qs ++ qs') (rs ++ rs') p x r := by
  obtain ⟨q, h1, h2, h3⟩ := h
  exact ⟨q, by rw [List.getElem?_append_left (List.getElem?_eq_some_iff.1 h1).1, h1], h2, by rw [List.getElem?_append_left (List.getElem?_eq_some_iff.1 h3).1, h3]⟩

theorem placed_right {qs qs' : List (List Resp)} {rs rs' : List Resp} {p : Nat} {x : Command} {r : Resp} (hl : qs.length = rs.length) (h : Placed qs' rs' p x r) :
    Placed (qs ++ qs') (rs ++ rs') (qs.length + p) x r := by
  obtain ⟨q, h1, h2, h3⟩ := h
  refine ⟨q, by rw [List.getElem?_append_right (by omega), Nat.add_sub_cancel_left, h1], h2, ?_⟩
  rw [hl, List.getElem?_append_right (by omega), Nat.add_sub_cancel_left, h3]

/-- What of this is needed to take the lives as one. -/
def Joinable (U : Nat → Bool) (tr : List Site.Ev) (seg : List (List Resp) × List Resp) : Prop :=
  (∃ place, OneDatabase U (deskOf tr) seg.1 seg.2 place) ∧ (∀ q ∈ seg.1, Ran (deskOf tr) q) ∧ seg.1.length = seg.2.length

theorem joined_of {trs : List (List Site.Ev)} {segs : List (List (List Resp) × List Resp)} (h : List.Forall₂ (Joinable U) trs segs) :
    (segs.flatMap (·.1)).length = (segs.flatMap (·.2)).length ∧ ∃ place, Joined U trs (segs.flatMap (·.1)) (segs.flatMap (·.2)) place := by
  induction h with
  | nil =>
    refine ⟨rfl, fun _ _ _ => 0, ⟨?_, ?_, ?_, by simp⟩⟩
    · rintro n c i x r - ⟨tr, h, -⟩; simp at h
    · rintro n n' c c' i j x x' r r' - - ⟨tr, h, -⟩; simp at h
    · rintro n n' c c' i j x x' r r' - - ⟨tr, h, -⟩; simp at h
  | @cons tr seg trs segs h1 _ ih =>
    obtain ⟨hlen, place', hj⟩ := ih
    obtain ⟨⟨place, hp⟩, hr, hl⟩ := h1
    have zero : ∀ {c i x r}, GotIn (tr :: trs) 0 c i x r → Got (deskOf tr) c i x r := by
      rintro c i x r ⟨t, h, hg⟩
      cases h
      exact hg
    have succ : ∀ {n c i x r}, GotIn (tr :: trs) (n + 1) c i x r → GotIn trs n c i x r := fun ⟨t, h, hg⟩ => ⟨t, by simpa using h, hg⟩
    refine ⟨by simp [hl, hlen], fun n c i => match n with | 0 => place c i | n + 1 => seg.1.length + place' n c i, ⟨?_, ?_, ?_, ?_⟩⟩
    · intro n c i x r hu hg
      cases n with
      | zero => exact placed_left (got_at hp hu (zero hg))
      | succ n => exact placed_right hl (hj.each hu (succ hg))
    · intro n n' c c' i j x x' r r' hu hu' hg hg' e
      cases n with
      | zero =>
        have l1 := placed_lt (got_at hp hu (zero hg))
        cases n' with
        | zero => exact ⟨rfl, hp.distinct c c' i j hu hu' (got_shown (zero hg)) (got_shown (zero hg')) e⟩
        | succ n' => simp only at e; omega
      | succ n =>
        cases n' with
        | zero =>
          have l1 := placed_lt (got_at hp hu' (zero hg'))
          simp only at e
          omega
        | succ n' =>
          obtain ⟨rfl, h⟩ := hj.distinct hu hu' (succ hg) (succ hg') (by simpa using e)
          exact ⟨rfl, h⟩
    · intro n n' c c' i j x x' r r' hu hu' hg hg' he
      cases n with
      | zero =>
        have l1 := placed_lt (got_at hp hu (zero hg))
        cases n' with
        | zero =>
          rcases he with he | ⟨-, t, h, he⟩
          · omega
          · cases h
            exact got_later hp hu hu' he (zero hg')
        | succ n' => simp only; omega
      | succ n =>
        cases n' with
        | zero => rcases he with he | ⟨he, -⟩ <;> omega
        | succ n' =>
          have := hj.inTime hu hu' (succ hg) (succ hg') (by
            rcases he with he | ⟨he, t, h, he'⟩
            · exact .inl (by omega)
            · exact .inr ⟨by omega, t, by simpa using h, he'⟩)
          simp only
          omega
    · intro q hq
      rw [List.flatMap_cons, List.mem_append] at hq
      rcases hq with hq | hq
      · exact ⟨tr, by simp, hr q hq⟩
      · obtain ⟨t, ht, h⟩ := hj.ran q hq
        exact ⟨t, by simp [ht], h⟩

theorem joined {trs : List (List Site.Ev)} {segs : List (List (List Resp) × List Resp)} (h : List.Forall₂ (Segment U) trs segs) :
    (segs.flatMap (·.1)).length = (segs.flatMap (·.2)).length ∧ ∃ place, Joined U trs (segs.flatMap (·.1)) (segs.flatMap (·.2)) place :=
  joined_of (h.imp fun _ _ ⟨⟨place, hrec⟩, _, hl⟩ => ⟨⟨place, hrec.one⟩, ran_of hrec.asked, hl⟩)

/-- What the users of processes that are stopped well see. -/
theorem lives_record {trs : List (List Site.Ev)} {d : Bytes} (hl : SiteLives m U trs d) (hq : ∀ tr ∈ trs, Plainly (wholeOf (fullOf (procOf tr))))
    (hz : ∀ tr ∈ trs, ∀ x ∈ doneIn (seenOver (procOf tr)), Sized x.2.2) {envs : Nat → Env} (hfair : ∀ i, (envs i).ord.Fair) :
    ∃ segs a dbs, List.Forall₂ (Segment U) trs segs ∧ Trace DB.empty (segs.flatMap (·.1)) (segs.flatMap (·.2)) a ∧ fromFile noDBs envs d = .ok dbs ∧ Abs (dbs 1) a := by
  obtain ⟨hs, a, dbs, h1, h2, h3⟩ := C84_invisible_partial (site_procs hl) (fun tr ht => by
    obtain ⟨tr', ht', rfl⟩ := List.mem_map.1 ht
    exact hq tr' ht') hfair
  rw [List.forall₂_map_left_iff] at h1
  rw [List.flatMap_map] at h2
  have key : ∃ segs, List.Forall₂ (Segment U) trs segs ∧ segs.flatMap (·.1) = hs.flatten.map Req.objs ∧
      segs.flatMap (·.2) = trs.flatMap fun tr => (doneIn (seenOver (procOf tr))).map fun x => x.2.2 := by
    have h4 := site_records hl hq hz h1
    clear hq hz hl h1 h2
    induction h4 with
    | nil => exact ⟨[], .nil, rfl, rfl⟩
    | cons h _ ih =>
      obtain ⟨segs, g1, g2, g3⟩ := ih
      exact ⟨_ :: segs, .cons h g1, by simp [g2], by simp [g3]⟩
  obtain ⟨segs, g1, g2, g3⟩ := key
  exact ⟨segs, a, dbs, g1, by rw [g2, g3]; exact h2, h3⟩

/-- No two places give the same number. -/
theorem ticket_place {a a' : DB} {qs : List (List Resp)} {rs : List Resp} {k : Bytes} (ht : Trace a qs rs a')
    (hk : ∀ q ∈ qs, Writes .str q k → Means q (.incr k b!"1")) (hl : qs.length < 2 ^ 64) {p p' : Nat} {v : Int} (h : Placed qs rs p (.incr k b!"1") (.int v))
    (h' : Placed qs rs p' (.incr k b!"1") (.int v)) : p = p' := by
  obtain ⟨q, g1, g2, g3⟩ := h
  obtain ⟨q', g1', g2', g3'⟩ := h'
  by_cases hn : ∃ s v, a.strs k = some s ∧ IsInt s v
  · obtain ⟨s0, v0, n1, n2⟩ := hn
    obtain ⟨k1, -⟩ := counter ht hk n1 n2
    obtain ⟨w, j1, -, x, j2⟩ := k1 _ _ g1 g2
    obtain ⟨w', j1', -, x', j2'⟩ := k1 _ _ g1' g2'
    rw [g3] at j1
    rw [g3'] at j1'
    cases j1
    cases j1'
    have b1 := howMany_le (.incr k b!"1") (qs.take p)
    have b2 := howMany_le (.incr k b!"1") (qs.take p')
    rw [List.length_take] at b1 b2
    have b3 : howMany (.incr k b!"1") (qs.take p) = howMany (.incr k b!"1") (qs.take p') := by omega
    rcases Nat.lt_trichotomy p p' with hlt | he | hlt
    · have := howMany_lt g1 g2 hlt
      omega
    · exact he
    · have := howMany_lt g1' g2' hlt
      omega
  · exact absurd g3 (no_counter ht hk (fun s hs hv => hn ⟨s, hv.choose, hs, hv.choose_spec⟩) _ _ _ g1 g2)

/-- C98 (tickets), for processes that are stopped well, with time for their log, and requests in UTF-8 other than LTRIM and SPOP: if from some process on nothing but
INCR is done to a key, no two lines get the same number from it, in whatever processes they were typed. What is missing is refuted by `C98_tickets_false`. -/
theorem C98_tickets_partial {pre trs : List (List Site.Ev)} {d : Bytes} (hl : SiteLives m U (pre ++ trs) d) (hq : ∀ tr ∈ pre ++ trs, Plainly (wholeOf (fullOf (procOf tr))))
    (hz : ∀ tr ∈ pre ++ trs, ∀ x ∈ doneIn (seenOver (procOf tr)), Sized x.2.2) {k : Bytes}
    (hk : ∀ tr ∈ trs, ∀ objs, Ran (deskOf tr) objs → Writes .str objs k → Means objs (.incr k b!"1"))
    (hn : (trs.flatMap fun tr => doneIn (seenOver (procOf tr))).length < 2 ^ 64) {n n' c c' i j : Nat} {v : Int} (hu : U c = true) (hu' : U c' = true)
    (hg : GotIn trs n c i (.incr k b!"1") (.int v)) (hg' : GotIn trs n' c' j (.incr k b!"1") (.int v)) : n = n' ∧ c = c' ∧ i = j := by
  obtain ⟨segs, a, dbs, h1, h2, -⟩ := lives_record hl hq hz (envs := fun _ => env0) fun _ => env0_fair
  obtain ⟨s1, s2, k1, k2, rfl⟩ : ∃ s1 s2, List.Forall₂ (Segment U) pre s1 ∧ List.Forall₂ (Segment U) trs s2 ∧ segs = s1 ++ s2 := by
    exact ⟨_, _, by simpa using List.forall₂_take pre.length h1, by simpa using List.forall₂_drop pre.length h1, (List.take_append_drop pre.length segs).symm⟩
  obtain ⟨l1, -, -⟩ := joined k1
  obtain ⟨l2, place, hj⟩ := joined k2
  rw [List.flatMap_append, List.flatMap_append] at h2
  obtain ⟨a1, -, h2⟩ := trace_parts h2 l1
  refine hj.distinct hu hu' hg hg' (ticket_place h2 ?_ ?_ (hj.each hu hg) (hj.each hu' hg'))
  · intro q hq
    obtain ⟨tr, ht, hr⟩ := hj.ran q hq
    exact hk tr ht q hr
  · have e : ∀ {trs segs}, List.Forall₂ (Segment U) trs segs → (segs.flatMap (·.2)).length = (trs.flatMap fun tr => doneIn (seenOver (procOf tr))).length := by
      intro trs segs h
      induction h with
      | nil => rfl
      | cons h _ ih => simp only [List.flatMap_cons, List.length_append, ih, h.2.1, List.length_map]
    rw [l2, e k2]
    exact hn

/-- C98 (queue), for such processes: if nothing but RPUSH and LPOP is ever done to a list, it hands out what was put in over all processes, everything to one at most, in
the order in which it was put in, and the next process begins with what was not handed out. What is missing is refuted by `C98_queue_false`. -/
theorem C98_queue_partial {trs : List (List Site.Ev)} {d : Bytes} (hl : SiteLives m U trs d) (hq : ∀ tr ∈ trs, Plainly (wholeOf (fullOf (procOf tr))))
    (hz : ∀ tr ∈ trs, ∀ x ∈ doneIn (seenOver (procOf tr)), Sized x.2.2) {k : Bytes}
    (hk : ∀ tr ∈ trs, ∀ objs, Ran (deskOf tr) objs → Writes .list objs k → (∃ vs, Means objs (.rpush k vs)) ∨ Means objs (.lpop k))
    {envs : Nat → Env} (hfair : ∀ i, (envs i).ord.Fair) :
    ∃ stock out item slot a dbs, HandedIn U trs k stock out item slot ∧ fromFile noDBs envs d = .ok dbs ∧ Abs (dbs 1) a ∧ a.listAt k = stock.drop out := by
  obtain ⟨segs, a, dbs, h1, h2, h3, h4⟩ := lives_record hl hq hz hfair
  obtain ⟨-, place, hj⟩ := joined h1
  obtain ⟨stock, out, item, slot, hq⟩ := queue h2 fun q hq hw => by
    obtain ⟨tr, ht, hr⟩ := hj.ran q hq
    exact hk tr ht q hr hw
  refine ⟨stock, out, fun n c i => item (place n c i), fun n c i => slot (place n c i), a, dbs, ?_, h3, h4, hq.stays⟩
  refine ⟨fun n c i x hu hg => hq.taken _ x (hj.each hu hg), fun n n' c c' i j x y hu hu' hg hg' he => ?_, fun n n' c c' i j x y hu hu' hg hg' he => ?_,
    fun n c i vs l hu hg => (hq.put _ vs l (hj.each hu hg)).2, fun n n' c c' i j vs ws l l' hu hu' hg hg' => ?_, fun n n' c c' i j vs ws l l' hu hu' hg hg' he => ?_,
    fun n n' c c' i j vs l hu hu' hg hg' he => ?_⟩
  · refine hj.distinct hu hu' hg hg' ?_
    rcases Nat.lt_trichotomy (place n c i) (place n' c' j) with hlt | e | hlt
    · have := hq.inTurn _ _ x y (hj.each hu hg) (hj.each hu' hg') hlt
      omega
    · exact e
    · have := hq.inTurn _ _ y x (hj.each hu' hg') (hj.each hu hg) hlt
      omega
  · exact hq.inTurn _ _ x y (hj.each hu hg) (hj.each hu' hg') (hj.inTime hu hu' hg hg' he)
  · rcases Nat.lt_trichotomy (place n c i) (place n' c' j) with hlt | e | hlt
    · exact .inl (hq.after _ _ vs ws l l' (hj.each hu hg) (hj.each hu' hg') hlt)
    · exact .inr (.inr (hj.distinct hu hu' hg hg' e))
    · exact .inr (.inl (hq.after _ _ ws vs l' l (hj.each hu' hg') (hj.each hu hg) hlt))
  · exact hq.after _ _ vs ws l l' (hj.each hu hg) (hj.each hu' hg') (hj.inTime hu hu' hg hg' he)
  · exact hq.empty _ _ vs l (hj.each hu hg) (hj.each hu' hg') (hj.inTime hu hu' hg hg' he)

/-- What is in the set when a life ends, and what that means for the next ones. -/
theorem lock_lives {trs : List (List Site.Ev)} {segs : List (List (List Resp) × List Resp)} (h : List.Forall₂ (Segment U) trs segs) {a a' : DB}
    (ht : Trace a (segs.flatMap (·.1)) (segs.flatMap (·.2)) a') {k x : Bytes}
    (hk : ∀ tr ∈ trs, ∀ objs, Ran (deskOf tr) objs → Writes .set objs k → Means objs (.sadd k [x]) ∨ Means objs (.srem k [x]))
    (hr : ∀ tr ∈ trs, ∀ c n o objs, (n, o) ∈ askedBy c (seenIn (serverOf (deskOf tr))) → ArrayOf o objs → Means objs (.srem k [x]) → U c = true)
    (hd : ∀ tr ∈ trs, ∀ before c l after, deskOf tr = before ++ .typed c l :: after → Says l (.srem k [x]) → HasLock before k x c) :
    (x ∈ a.setAt k → ∀ tr ∈ trs, ∀ c j, U c = true → ¬ Got (deskOf tr) c j (.sadd k [x]) (.int 1)) ∧
    (∀ tr ∈ trs, ∀ c c', U c = true → U c' = true → HasLock (deskOf tr) k x c → HasLock (deskOf tr) k x c' → c = c') ∧
    ∀ (n n' : Nat) tr tr' c c' j, n < n' → trs[n]? = some tr → trs[n']? = some tr' → U c = true → U c' = true → HasLock (deskOf tr) k x c →
      ¬ Got (deskOf tr') c' j (.sadd k [x]) (.int 1) := by
  induction h generalizing a with
  | nil => exact ⟨by simp, by simp, by simp⟩
  | @cons tr seg trs segs h1 _ ih =>
    obtain ⟨⟨place, hrec⟩, -, hl⟩ := h1
    rw [List.flatMap_cons, List.flatMap_cons] at ht
    obtain ⟨a1, t1, t2⟩ := trace_parts ht hl
    obtain ⟨i1, i3, i2⟩ := ih t2 (fun tr ht => hk tr (by simp [ht])) (fun tr ht => hr tr (by simp [ht])) (fun tr ht => hd tr (by simp [ht]))
    obtain ⟨f1, f2, f3⟩ := lock_record hrec t1 (hk tr (by simp)) (hr tr (by simp)) (hd tr (by simp))
    refine ⟨fun hx t ht c j hu hg => ?_, fun t ht => ?_, fun n n' t t' c c' j hn ht ht' hu hu' hh hg => ?_⟩
    · rcases List.mem_cons.1 ht with rfl | ht
      · exact (f3 hx).2 _ (got_at hrec.one hu hg)
      · exact i1 (f3 hx).1 t ht c j hu hg
    · rcases List.mem_cons.1 ht with rfl | ht
      · exact f1
      · exact i3 t ht
    · obtain ⟨n', rfl⟩ := Nat.exists_eq_succ_of_ne_zero (by omega : n' ≠ 0)
      cases n with
      | zero =>
        cases ht
        exact i1 (f2 c hu hh) t' (List.mem_of_getElem? (by simpa using ht')) c' j hu' hg
      | succ n => exact i2 n n' t t' c c' j (by omega) (by simpa using ht) (by simpa using ht') hu hu' hh hg

/-- C98 (lock), for such processes: if nothing but SADD and SREM of one element is ever done to a set, SREM only by users who have the lock, then a lock that a user
has when their process is stopped is not given to anybody in a later process, so at most one user of all processes has it. What is missing is refuted by
`C98_lock_false`. -/
theorem C98_lock_partial {trs : List (List Site.Ev)} {d : Bytes} (hl : SiteLives m U trs d) (hq : ∀ tr ∈ trs, Plainly (wholeOf (fullOf (procOf tr))))
    (hz : ∀ tr ∈ trs, ∀ x ∈ doneIn (seenOver (procOf tr)), Sized x.2.2) {k x : Bytes}
    (hk : ∀ tr ∈ trs, ∀ objs, Ran (deskOf tr) objs → Writes .set objs k → Means objs (.sadd k [x]) ∨ Means objs (.srem k [x]))
    (hr : ∀ tr ∈ trs, ∀ c n o objs, (n, o) ∈ askedBy c (seenIn (serverOf (deskOf tr))) → ArrayOf o objs → Means objs (.srem k [x]) → U c = true)
    (hd : ∀ tr ∈ trs, ∀ before c l after, deskOf tr = before ++ .typed c l :: after → Says l (.srem k [x]) → HasLock before k x c)
    {n n' c c' : Nat} {tr tr' : List Site.Ev} (hn : trs[n]? = some tr) (hn' : trs[n']? = some tr') (hu : U c = true) (hu' : U c' = true) (hc : HasLock (deskOf tr) k x c) :
    (n < n' → ∀ j, ¬ Got (deskOf tr') c' j (.sadd k [x]) (.int 1)) ∧ (HasLock (deskOf tr') k x c' → n = n' ∧ c = c') := by
  obtain ⟨segs, a, dbs, h1, h2, -⟩ := lives_record hl hq hz (envs := fun _ => env0) fun _ => env0_fair
  obtain ⟨-, one, key⟩ := lock_lives h1 h2 hk hr hd
  refine ⟨fun hlt j => key n n' tr tr' c c' j hlt hn hn' hu hu' hc, fun hc' => ?_⟩
  rcases Nat.lt_trichotomy n n' with hlt | rfl | hlt
  · obtain ⟨j, g, -⟩ := hc'
    exact absurd g (key n n' tr tr' c c' j hlt hn hn' hu hu' hc)
  · rw [hn] at hn'
    cases hn'
    exact ⟨rfl, one tr (List.mem_of_getElem? hn) c c' hu hu' hc hc'⟩
  · obtain ⟨j, g, -⟩ := id hc
    exact absurd g (key n' n tr' tr c' c j hlt hn' hn hu' hu hc')

/-! ### Examples -/

/-- One user in each process, with one line: `xs` are the words of the lines and the replies. -/
structure OneEach (trs : List (List Site.Ev)) (d : Bytes) (xs : List (List Bytes × Resp)) : Prop where
  lives : SiteLives true (· == 7) trs d
  plain : ∀ tr ∈ trs, Plainly (wholeOf (fullOf (procOf tr)))
  sized : ∀ tr ∈ trs, ∀ x ∈ doneIn (seenOver (procOf tr)), Sized x.2.2
  each : List.Forall₂ (fun tr (x : List Bytes × Resp) => seenOver (procOf tr) = oneTrace (Script.sent x.1) x.1 x.2 ∧ seenIn (serverOf (deskOf tr)) = seenOver (procOf tr) ∧
    (∀ c l, .typed c l ∈ deskOf tr → c = 7) ∧ ∃ l, typedBy 7 (deskOf tr) = [l] ∧ Words l x.1 ∧ shownTo 7 (deskOf tr) = [x.2]) trs xs

theorem asked_one {tr : List Desk.Ev} {b : Bytes} {ws : List Bytes} {r : Resp} (h : seenIn (serverOf tr) = oneTrace b ws r) {c n : Nat} {o : Resp} {objs : List Resp}
    (h1 : (n, o) ∈ askedBy c (seenIn (serverOf tr))) (h2 : ArrayOf o objs) : objs = req ws := by
  rw [h] at h1
  simp only [askedBy] at h1
  split at h1 <;> simp at h1
  obtain ⟨-, rfl⟩ := h1
  rcases h2 with h2 | ⟨h2, -⟩
  · exact (Resp.array.inj h2).symm
  · cases h2

theorem ran_one {tr : List Desk.Ev} {b : Bytes} {ws : List Bytes} {r : Resp} (h : seenIn (serverOf tr) = oneTrace b ws r) {objs : List Resp} (hr : Ran tr objs) :
    objs = req ws := by
  obtain ⟨e, -, c, o, h1, h2⟩ := hr
  exact asked_one h h1 h2

theorem OneEach.asks {trs : List (List Site.Ev)} {d : Bytes} {xs : List (List Bytes × Resp)} (h : OneEach trs d xs) {tr : List Site.Ev} (ht : tr ∈ trs) {c n : Nat} {o : Resp}
    {objs : List Resp} (h1 : (n, o) ∈ askedBy c (seenIn (serverOf (deskOf tr)))) (h2 : ArrayOf o objs) : ∃ x ∈ xs, objs = req x.1 := by
  obtain ⟨i, hi, rfl⟩ := List.getElem_of_mem ht
  have hi' : i < xs.length := by rw [← h.each.length_eq]; exact hi
  obtain ⟨k1, k2, -⟩ := (List.forall₂_iff_get.1 h.each).2 i hi hi'
  exact ⟨_, List.getElem_mem hi', asked_one (k2.trans k1) h1 h2⟩

theorem OneEach.ran {trs : List (List Site.Ev)} {d : Bytes} {xs : List (List Bytes × Resp)} (h : OneEach trs d xs) {tr : List Site.Ev} (ht : tr ∈ trs) {objs : List Resp}
    (hr : Ran (deskOf tr) objs) : ∃ x ∈ xs, objs = req x.1 := by
  obtain ⟨i, hi, rfl⟩ := List.getElem_of_mem ht
  have hi' : i < xs.length := by rw [← h.each.length_eq]; exact hi
  obtain ⟨h1, h2, -⟩ := (List.forall₂_iff_get.1 h.each).2 i hi hi'
  exact ⟨_, List.getElem_mem hi', ran_one (h2.trans h1) hr⟩

theorem OneEach.got {trs : List (List Site.Ev)} {d : Bytes} {xs : List (List Bytes × Resp)} (h : OneEach trs d xs) {n : Nat} {ws : List Bytes} {r : Resp}
    (hn : xs[n]? = some (ws, r)) {x : Command} (hm : Means (req ws) x) : GotIn trs n 7 0 x r := by
  obtain ⟨hi', e⟩ := List.getElem?_eq_some_iff.1 hn
  have hi : n < trs.length := by rw [h.each.length_eq]; exact hi'
  obtain ⟨-, -, -, l, h1, h2, h3⟩ := (List.forall₂_iff_get.1 h.each).2 n hi hi'
  simp only [List.get_eq_getElem, e] at h1 h2 h3
  exact ⟨_, List.getElem?_eq_getElem hi, l, by rw [h1]; rfl, ⟨ws, h2, hm⟩, by rw [h3]; rfl⟩

theorem OneEach.begins {trs : List (List Site.Ev)} {d : Bytes} {xs : List (List Bytes × Resp)} (h : OneEach trs d xs) :
    ∃ st a, Begins d st ∧ Abs st a ∧ Trace DB.empty (xs.map fun x => req x.1) (xs.map Prod.snd) a := by
  obtain ⟨segs, a, dbs, h1, h2, h3, h4⟩ := lives_record h.lives h.plain h.sized (envs := fun _ => env0) fun _ => env0_fair
  refine ⟨_, a, ⟨_, _, fun _ => env0_fair, h3, rfl⟩, h4, ?_⟩
  have key : segs.flatMap (·.1) = (xs.map fun x => req x.1) ∧ segs.flatMap (·.2) = xs.map Prod.snd := by
    have h5 := h.each
    clear h h2 h3 h4
    induction h1 generalizing xs with
    | nil => cases h5; exact ⟨rfl, rfl⟩
    | @cons tr seg trs segs g1 _ ih =>
      cases h5 with
      | @cons _ x _ xs g2 h5 =>
        obtain ⟨i1, i2⟩ := ih h5
        obtain ⟨⟨place, hrec⟩, e2, e1⟩ := g1
        have hr := ran_of hrec.asked
        obtain ⟨k1, k2, -⟩ := g2
        have e3 : seg.2 = [x.2] := by rw [e2, k1]; rfl
        obtain ⟨q, hq⟩ : ∃ q, seg.1 = [q] := List.length_eq_one_iff.1 (by rw [e1, e3]; rfl)
        have : q = req x.1 := ran_one (k2.trans k1) (hr q (by simp [hq]))
        simp [i1, i2, e3, hq, this]
  rw [← key.1, ← key.2]
  exact h2

theorem OneEach.next {trs : List (List Site.Ev)} {d : Bytes} {xs : List (List Bytes × Resp)} (h : OneEach trs d xs) {st st' : State} {a : DB} (hb : Begins d st) (ha : Abs st a)
    {ws : List Bytes} {r : Resp} (hh : handle env0 st (req ws) = .ok (st', r)) (hp : parse (Script.sent ws) = .ok (.array (req ws)) []) (ht : Typable (Script.sent ws))
    (hr : Sized r) (hz : (requestLog stamp0 (req ws)).length ≤ 100000)
    (ho : (sent ws).Occurs ∧ ¬ (sent ws).Is b!"ltrim" ∧ ¬ (sent ws).Is b!"spop" ∧ ∀ o ∈ (sent ws).objs, TextObj o) : ∃ tr d', OneEach (trs ++ [tr]) d' (xs ++ [(ws, r)]) := by
  obtain ⟨tr, s, l, h1, h2, h3, h4, h5, h6, h7⟩ := one_user_life (d := d) ha hp hh ht hr hz
  refine ⟨tr, _, .next (ω := fun _ => 100000) h.lives hb h1 h2, ?_, ?_, List.rel_append h.each (.cons ⟨h3, ?_, ?_, l, h5, h6, h7⟩ .nil)⟩
  · intro t ht
    rcases List.mem_append.1 ht with ht | ht
    · exact h.plain t ht
    · rw [List.mem_singleton.1 ht]
      exact one_plain h3 h4 ho
  · intro t ht
    rcases List.mem_append.1 ht with ht | ht
    · exact h.sized t ht
    · rw [List.mem_singleton.1 ht, h3]
      simpa [doneIn] using hr
  · rw [(C86_parts h1).2.2]; rfl
  · intro c l hm
    obtain ⟨before, after, e⟩ := List.append_of_mem hm
    have hx := (C86_parts h1).2.1
    rw [e] at hx
    obtain ⟨s1, -, hx⟩ := hx.split
    obtain ⟨s2, hx, -⟩ := Exec.split (before := [Desk.Ev.typed c l]) hx
    cases exec_single hx with
    | typed _ _ _ hu => simpa using hu

/-- Nothing was typed but these lines. -/
theorem OneEach.says {trs : List (List Site.Ev)} {d : Bytes} {xs : List (List Bytes × Resp)} (h : OneEach trs d xs) {tr : List Site.Ev} (ht : tr ∈ trs) {c : Nat} {l : Bytes}
    (hm : .typed c l ∈ deskOf tr) {x : Command} (hs : Says l x) : ∃ y ∈ xs, Means (req y.1) x := by
  obtain ⟨i, hi, rfl⟩ := List.getElem_of_mem ht
  have hi' : i < xs.length := by rw [← h.each.length_eq]; exact hi
  obtain ⟨-, -, h3, l', h4, h5, -⟩ := (List.forall₂_iff_get.1 h.each).2 i hi hi'
  obtain rfl := h3 c l hm
  have : l ∈ typedBy 7 (deskOf trs[i]) := List.mem_filterMap.2 ⟨_, hm, by simp⟩
  simp only [List.get_eq_getElem] at h4
  rw [h4, List.mem_singleton] at this
  subst this
  exact ⟨_, List.getElem_mem hi', command_means (says_means h5 hs)⟩

theorem oneEach_nil : OneEach [] [] [] := ⟨.none, by simp, by simp, .nil⟩

theorem begins_empty : Begins [] State.empty := ⟨_, _, fun _ => env0_fair, rfl, rfl⟩

theorem setn_typable : Typable (Script.sent [b!"set", b!"n", b!"5"]) :=
  typable_words (l := b!"set n 5") (by simp [Line]) (fun p h => by
    have := congrArg List.getLast? h
    simp at this) (by simp [Quits]) (.space (w := b!"set") (rest := b!"n 5") (by simp [Plain])
      (.space (w := b!"n") (rest := b!"5") (by simp [Plain]) (.last (w := b!"5") (by simp [Plain]))))

theorem setn_parses : parse (Script.sent [b!"set", b!"n", b!"5"]) = .ok (.array (req [b!"set", b!"n", b!"5"])) [] := by rfl

theorem setn_trace {a : DB} {qs : List (List Resp)} {rs : List Resp} (h : Trace DB.empty (req [b!"set", b!"n", b!"5"] :: qs) rs a) :
    ∃ a1 rs', rs = .simple b!"OK" :: rs' ∧ a1.strs b!"n" = some b!"5" ∧ Trace a1 qs rs' a := by
  obtain ⟨a1, r, rs', rfl, h1, -, -, -, h2⟩ := trace_first h
  rcases h2 (.set b!"n" b!"5") (command_means rfl) with h3 | ⟨e, t, h3, -⟩
  · simp only [Step, done, okReply, Option.some.injEq, Prod.mk.injEq, Except.ok.injEq] at h3
    obtain ⟨rfl, rfl⟩ := h3
    exact ⟨_, rs', rfl, by simp [DB.setStr], h1⟩
  · simp [Step, done, fails] at h3

/-- Somebody sets a key to 5; then the process is stopped and started twice, and somebody draws a number each time: 6 and 7. -/
example : ∃ tr0 tr1 tr2 d, SiteLives true (· == 7) ([tr0] ++ [tr1, tr2]) d ∧ (∀ tr ∈ [tr0] ++ [tr1, tr2], Plainly (wholeOf (fullOf (procOf tr)))) ∧
    (∀ tr ∈ [tr0] ++ [tr1, tr2], ∀ x ∈ doneIn (seenOver (procOf tr)), Sized x.2.2) ∧
    (∀ tr ∈ [tr1, tr2], ∀ objs, Ran (deskOf tr) objs → Writes .str objs b!"n" → Means objs (.incr b!"n" b!"1")) ∧
    ([tr1, tr2].flatMap fun tr => doneIn (seenOver (procOf tr))).length < 2 ^ 64 ∧
    GotIn [tr1, tr2] 0 7 0 (.incr b!"n" b!"1") (.int 6) ∧ GotIn [tr1, tr2] 1 7 0 (.incr b!"n" b!"1") (.int 7) := by
  obtain ⟨tr0, d0, h0⟩ := oneEach_nil.next begins_empty abs_empty (ws := [b!"set", b!"n", b!"5"]) rfl setn_parses setn_typable .simple (by decide)
    ⟨sent_occurs, sent_is (by decide), sent_is (by decide), sent_text⟩
  obtain ⟨st0, a0, b0, m0, t0⟩ := h0.begins
  obtain ⟨a0', rs0, -, v0, t0⟩ := setn_trace t0
  cases t0
  obtain ⟨st0', a1, n1, e1, -⟩ := draw_one m0 v0 isInt_five (by decide)
  obtain ⟨tr1, d1, h1⟩ := h0.next b0 m0 e1 incr_parses incr_typable (.int (by omega) (by omega)) (by decide) ⟨sent_occurs, sent_is (by decide), sent_is (by decide), sent_text⟩
  obtain ⟨st1, a2, b1, m1, t1⟩ := h1.begins
  obtain ⟨a1', rs1, e2, v1, t1⟩ := setn_trace t1
  obtain ⟨a1'', r, rs2, rfl, t2, -, -, -, g⟩ := trace_first t1
  obtain ⟨w, s', rfl, w1, w2, w3⟩ := incr_step v1 isInt_five (g _ incr_means)
  cases t2
  cases wraps_exact w1 (by decide)
  obtain ⟨st1', a3, n3, e3, -⟩ := draw_one m1 w2 w3 (by decide)
  obtain ⟨tr2, d2, h2⟩ := h1.next b1 m1 e3 incr_parses incr_typable (.int (by omega) (by omega)) (by decide) ⟨sent_occurs, sent_is (by decide), sent_is (by decide), sent_text⟩
  have g1 := h2.got (n := 1) (ws := [b!"incr", b!"n"]) (r := .int 6) rfl incr_means
  have g2 := h2.got (n := 2) (ws := [b!"incr", b!"n"]) (r := .int 7) rfl incr_means
  refine ⟨tr0, tr1, tr2, d2, h2.lives, h2.plain, h2.sized, fun tr ht objs hr _ => ?_, ?_, ?_, ?_⟩
  · obtain ⟨x, hx, rfl⟩ : ∃ x ∈ [([b!"incr", b!"n"], Resp.int 6), ([b!"incr", b!"n"], Resp.int 7)], objs = req x.1 := by
      have h := h2.each
      cases h with
      | cons _ h =>
        obtain ⟨i, hi, rfl⟩ := List.getElem_of_mem ht
        obtain ⟨k1, k2, -⟩ := (List.forall₂_iff_get.1 h).2 i hi hi
        exact ⟨_, List.getElem_mem (l := [([b!"incr", b!"n"], Resp.int 6), ([b!"incr", b!"n"], Resp.int 7)]) hi, ran_one (k2.trans k1) hr⟩
    simp only [List.mem_cons, List.not_mem_nil, or_false] at hx
    rcases hx with rfl | rfl <;> exact incr_means
  · have h := h2.each
    cases h with
    | cons _ h =>
      cases h with
      | cons k1 h =>
        cases h with
        | cons k2 h => simp [k1.1, k2.1, doneIn]
  · exact g1
  · exact g2

/-- What is in a list after the first push. -/
theorem pushed_trace {a : DB} {rs : List Resp} (h : Trace DB.empty [req [b!"rpush", b!"q", b!"x"]] rs a) : a.listAt b!"q" = [b!"x"] := by
  obtain ⟨a1, r, rs', rfl, h1, -, -, -, h2⟩ := trace_first h
  cases h1
  rcases h2 (.rpush b!"q" [b!"x"]) (command_means rfl) with h3 | ⟨e, t, h3, -⟩
  · simp only [Step, done, if_neg (by decide : b!"q" ≠ []), Option.some.injEq, Prod.mk.injEq] at h3
    rw [h3.1]
    simp [DB.setList, DB.listAt, DB.empty]
  · simp [Step, done, fails] at h3

theorem pop_one {st : State} {a : DB} (h : Abs st a) (hs : a.listAt b!"q" = [b!"x"]) :
    ∃ st1, handle env0 st (req [b!"lpop", b!"q"]) = .ok (st1, .bulk b!"x") := by
  obtain ⟨out, h1, h2⟩ := handle_refines h env0_fair (command_means rfl : Means (req [b!"lpop", b!"q"]) (.lpop b!"q"))
  have e : a.lists b!"q" = some [b!"x"] := by
    cases hl : a.lists b!"q" with
    | none => simp [DB.listAt, hl] at hs
    | some xs => simpa [DB.listAt, hl] using hs
  simp only [Step, e] at h1
  subst h1
  obtain ⟨st1, g, -⟩ := h2
  exact ⟨st1, g⟩

/-- Somebody puts something into a list, the process is stopped and started, and somebody takes it out. -/
example : ∃ tr0 tr1 d, SiteLives true (· == 7) [tr0, tr1] d ∧ (∀ tr ∈ [tr0, tr1], Plainly (wholeOf (fullOf (procOf tr)))) ∧
    (∀ tr ∈ [tr0, tr1], ∀ x ∈ doneIn (seenOver (procOf tr)), Sized x.2.2) ∧
    (∀ tr ∈ [tr0, tr1], ∀ objs, Ran (deskOf tr) objs → Writes .list objs b!"q" → (∃ vs, Means objs (.rpush b!"q" vs)) ∨ Means objs (.lpop b!"q")) ∧
    GotIn [tr0, tr1] 0 7 0 (.rpush b!"q" [b!"x"]) (.int 1) ∧ GotIn [tr0, tr1] 1 7 0 (.lpop b!"q") (.bulk b!"x") := by
  obtain ⟨tr0, d0, h0⟩ := oneEach_nil.next begins_empty abs_empty (ws := [b!"rpush", b!"q", b!"x"]) (r := .int 1) rfl rpush_parses rpush_typable (.int (by omega) (by omega)) (by decide)
    ⟨sent_occurs, sent_is (by decide), sent_is (by decide), sent_text⟩
  obtain ⟨st0, a0, b0, m0, t0⟩ := h0.begins
  have v0 := pushed_trace t0
  obtain ⟨st1, e1⟩ := pop_one m0 v0
  obtain ⟨tr1, d1, h1⟩ := h0.next b0 m0 e1 lpop_parses lpop_typable (.bulk (by decide)) (by decide) ⟨sent_occurs, sent_is (by decide), sent_is (by decide), sent_text⟩
  refine ⟨tr0, tr1, d1, h1.lives, h1.plain, h1.sized, fun tr ht objs hr _ => ?_, ?_, ?_⟩
  · obtain ⟨x, hx, rfl⟩ := h1.ran ht hr
    simp only [List.nil_append, List.cons_append, List.mem_cons, List.not_mem_nil, or_false] at hx
    rcases hx with rfl | rfl
    · exact .inl ⟨_, command_means rfl⟩
    · exact .inr (command_means rfl)
  · exact h1.got (n := 0) (ws := [b!"rpush", b!"q", b!"x"]) (r := .int 1) rfl (command_means rfl)
  · exact h1.got (n := 1) (ws := [b!"lpop", b!"q"]) (r := .bulk b!"x") rfl (command_means rfl)

theorem sadd_means : Means (req [b!"sadd", b!"l", b!"m"]) (.sadd b!"l" [b!"m"]) := command_means rfl

/-- What is in a set after the first element was added. -/
theorem added_trace {a : DB} {rs : List Resp} (h : Trace DB.empty [req [b!"sadd", b!"l", b!"m"]] rs a) : b!"m" ∈ a.setAt b!"l" := by
  obtain ⟨a1, r, rs', rfl, h1, -, -, -, h2⟩ := trace_first h
  cases h1
  rcases h2 _ sadd_means with h3 | ⟨e, t, h3, -⟩
  · simp only [Step, if_neg (by decide : b!"l" ≠ [])] at h3
    cases h3
    simp [DB.setAt, DB.setSet]
  · simp [Step, done, fails] at h3

theorem add_again {st : State} {a : DB} (h : Abs st a) (hs : b!"m" ∈ a.setAt b!"l") :
    ∃ st1, handle env0 st (req [b!"sadd", b!"l", b!"m"]) = .ok (st1, .int 0) := by
  obtain ⟨out, h1, h2⟩ := handle_refines h env0_fair sadd_means
  simp only [Step, if_neg (by decide : b!"l" ≠ [])] at h1
  subst h1
  obtain ⟨st1, g, -⟩ := h2
  exact ⟨st1, by rw [g]; simp [hs]⟩

/-- Somebody gets the lock, the process is stopped and started, and somebody else does not get it. -/
example : ∃ tr0 tr1 d, SiteLives true (· == 7) [tr0, tr1] d ∧ (∀ tr ∈ [tr0, tr1], Plainly (wholeOf (fullOf (procOf tr)))) ∧
    (∀ tr ∈ [tr0, tr1], ∀ x ∈ doneIn (seenOver (procOf tr)), Sized x.2.2) ∧
    (∀ tr ∈ [tr0, tr1], ∀ objs, Ran (deskOf tr) objs → Writes .set objs b!"l" → Means objs (.sadd b!"l" [b!"m"]) ∨ Means objs (.srem b!"l" [b!"m"])) ∧
    (∀ tr ∈ [tr0, tr1], ∀ c n o objs, (n, o) ∈ askedBy c (seenIn (serverOf (deskOf tr))) → ArrayOf o objs → Means objs (.srem b!"l" [b!"m"]) → (c == 7) = true) ∧
    (∀ tr ∈ [tr0, tr1], ∀ before c l after, deskOf tr = before ++ .typed c l :: after → Says l (.srem b!"l" [b!"m"]) → HasLock before b!"l" b!"m" c) ∧
    HasLock (deskOf tr0) b!"l" b!"m" 7 ∧ Got (deskOf tr1) 7 0 (.sadd b!"l" [b!"m"]) (.int 0) := by
  obtain ⟨tr0, d0, h0⟩ := oneEach_nil.next begins_empty abs_empty (ws := [b!"sadd", b!"l", b!"m"]) (r := .int 1) rfl sadd_parses sadd_typable (.int (by omega) (by omega)) (by decide)
    ⟨sent_occurs, sent_is (by decide), sent_is (by decide), sent_text⟩
  obtain ⟨st0, a0, b0, m0, t0⟩ := h0.begins
  obtain ⟨st1, e1⟩ := add_again m0 (added_trace t0)
  obtain ⟨tr1, d1, h1⟩ := h0.next b0 m0 e1 sadd_parses sadd_typable (.int (by omega) (by omega)) (by decide) ⟨sent_occurs, sent_is (by decide), sent_is (by decide), sent_text⟩
  have no : ∀ x ∈ [] ++ [([b!"sadd", b!"l", b!"m"], Resp.int 1)] ++ [([b!"sadd", b!"l", b!"m"], Resp.int 0)], ∀ y, Means (req x.1) y → y = .sadd b!"l" [b!"m"] := by
    intro x hx y hy
    simp only [List.nil_append, List.cons_append, List.mem_cons, List.not_mem_nil, or_false] at hx
    rcases hx with rfl | rfl <;> exact means_unique hy sadd_means
  have ran : ∀ tr ∈ [tr0, tr1], ∀ c n o objs, (n, o) ∈ askedBy c (seenIn (serverOf (deskOf tr))) → ArrayOf o objs → objs = req [b!"sadd", b!"l", b!"m"] := by
    intro tr ht c n o objs hm ha
    obtain ⟨x, hx, rfl⟩ := h1.asks ht hm ha
    simp only [List.nil_append, List.cons_append, List.mem_cons, List.not_mem_nil, or_false] at hx
    rcases hx with rfl | rfl <;> rfl
  have g0 : Got (deskOf tr0) 7 0 (.sadd b!"l" [b!"m"]) (.int 1) := by
    obtain ⟨t, h, g⟩ := h1.got (n := 0) (ws := [b!"sadd", b!"l", b!"m"]) (r := .int 1) rfl sadd_means
    cases h
    exact g
  refine ⟨tr0, tr1, d1, h1.lives, h1.plain, h1.sized, fun tr ht objs hr _ => ?_, fun tr ht c n o objs hm ha hs => ?_, fun tr ht before c l after e hs => ?_, ⟨0, g0, fun j l _ hl hs => ?_⟩, ?_⟩
  · obtain ⟨x, hx, rfl⟩ := h1.ran ht hr
    simp only [List.nil_append, List.cons_append, List.mem_cons, List.not_mem_nil, or_false] at hx
    rcases hx with rfl | rfl <;> exact .inl sadd_means
  · cases means_unique ((ran tr ht c n o objs hm ha) ▸ hs) sadd_means
  · obtain ⟨x, hx, hy⟩ := h1.says ht (c := c) (l := l) (by rw [e]; simp) hs
    cases no x hx _ hy
  · obtain ⟨x, hx, hy⟩ := h1.says (tr := tr0) (by simp) (c := 7) (l := l) (by
      obtain ⟨b, e, hb, -⟩ := typed_split hl
      rw [hb]; simp) hs
    cases no x hx _ hy
  · obtain ⟨t, h, g⟩ := h1.got (n := 1) (ws := [b!"sadd", b!"l", b!"m"]) (r := .int 0) rfl sadd_means
    cases h
    exact g

/-! ### When the process only exits -/

/-- The full claim about tickets: a process exits when no writer waits and nothing has failed at the file, the next begins with the file, and in both nothing but INCR is
done to a key; then no line in the second gets a number that a line in the first has got. -/
def TicketsLast : Prop := ∀ (ω : Nat → Nat) (U : Nat → Bool) (d : Bytes) (st st' : State) (tr tr' : List Site.Ev) (s s' : Site.Sys) (k : Bytes) (c c' i j : Nat) (v : Int),
  Begins d st → Exec (Site.Step true ω U) (Site.new d st) tr s → s.proc.stop.exited = true → s.proc.full.whole.begun = none → s.proc.full.whole.pending = [] →
  s.proc.full.whole.file.failed = false → Begins s.proc.full.whole.file.disk st' → Exec (Site.Step true ω U) (Site.new s.proc.full.whole.file.disk st') tr' s' →
  (∀ objs, Ran (deskOf tr) objs ∨ Ran (deskOf tr') objs → Writes .str objs k → Means objs (.incr k b!"1")) →
  (doneIn (seenOver (procOf tr)) ++ doneIn (seenOver (procOf tr'))).length < 2 ^ 64 → U c = true → U c' = true →
  Got (deskOf tr) c i (.incr k b!"1") (.int v) → ¬ Got (deskOf tr') c' j (.incr k b!"1") (.int v)

/-- The full claim about queues: likewise, with nothing but LPOP in both and a list with one item; then not both processes hand out the item. -/
def QueueLasts : Prop := ∀ (ω : Nat → Nat) (U : Nat → Bool) (d : Bytes) (st st' : State) (a : DB) (tr tr' : List Site.Ev) (s s' : Site.Sys) (k : Bytes) (c c' i j : Nat) (x : Bytes),
  Begins d st → Abs st a → a.listAt k = [x] → Exec (Site.Step true ω U) (Site.new d st) tr s → s.proc.stop.exited = true → s.proc.full.whole.begun = none →
  s.proc.full.whole.pending = [] → s.proc.full.whole.file.failed = false → Begins s.proc.full.whole.file.disk st' →
  Exec (Site.Step true ω U) (Site.new s.proc.full.whole.file.disk st') tr' s' →
  (∀ objs, Ran (deskOf tr) objs ∨ Ran (deskOf tr') objs → Means objs (.lpop k)) → U c = true → U c' = true →
  Got (deskOf tr) c i (.lpop k) (.bulk x) → ¬ Got (deskOf tr') c' j (.lpop k) (.bulk x)

/-- A user types one line and sees the reply; then the process exits as it should, and the file is as it was. -/
theorem exits_unwritten {d : Bytes} {st st' : State} {a : DB} (h0 : Abs st a) {ws : List Bytes} {r : Resp} (hp : parse (Script.sent ws) = .ok (.array (req ws)) [])
    (hh : handle env0 st (req ws) = .ok (st', r)) (ht : Typable (Script.sent ws)) (hr : Sized r) (hlog : isLogged (req ws) = true)
    (hd : (writeRecord (fun _ => 100000) (PFile.new d) (sent ws)).disk = d) (hf : (writeRecord (fun _ => 100000) (PFile.new d) (sent ws)).failed = false) :
    ∃ tr s l, Exec (Site.Step true (fun _ => 100000) (· == 7)) (Site.new d st) tr s ∧ s.proc.stop.exited = true ∧ s.proc.full.whole.begun = none ∧
      s.proc.full.whole.pending = [] ∧ s.proc.full.whole.file.failed = false ∧ s.proc.full.whole.file.disk = d ∧
      seenOver (procOf tr) = oneTrace (Script.sent ws) ws r ∧ typedBy 7 (deskOf tr) = [l] ∧ Words l ws ∧ shownTo 7 (deskOf tr) = [r] := by
  obtain ⟨ptr, p, h1, hseen, h2, hu, -, h3, h4, -, h5, h6, h7, h8, -, hsm⟩ := one_proc (m := true) (ω := fun _ => 100000) (d := d) (st := st) hp hh
  obtain ⟨dr, p1, x1, k1, ⟨lg, q1⟩, q3, q4, q5, u1, ⟨hd1, hd2⟩, -, -, q6⟩ := proc_drain (m := true) (ω := fun _ => 100000) hu
  obtain ⟨cl, hc⟩ := h2.stop
  rw [hc, h6] at q1
  obtain ⟨ls, t, y1, y2, y3⟩ := exit_stop (ω := fun _ => 100000) (lg := lg) (cl := cl) (wk := phase p.full.whole.hub.worker) (by rcases h5 with h5 | h5 <;> rw [h5] <;> simp [phase])
  have z := (h1.append x1).append (stop_lift u1.1 (q1 ▸ y1) y2)
  have hfile : p1.full.whole.file = writeRecord (fun _ => 100000) (PFile.new d) (sent ws) := by
    rw [q6, h8, h7]
    simp only [List.filter_cons, hlog, if_true, List.filter_nil]
    rfl
  have hst : fullOf ((ls ++ [Stop.Ev.exit]).map .stop) = [] := by simp [fullOf, List.filterMap_map]
  have hseen' : seenOver (ptr ++ dr ++ (ls ++ [Stop.Ev.exit]).map .stop) = oneTrace (Script.sent ws) ws r := by
    rw [seenOver_append, seenOver_append, hseen, hd1, seenOver, hst]; rfl
  obtain ⟨tr, s, l, g1, g2, g3, -, g4, g5, g6⟩ := one_user h0 ht hr z hseen'
    (by intro c; rw [fullOf_append, fullOf_append, lineOf_append, lineOf_append, hd2, hst]; simpa [lineOf] using hsm c)
  have hproc : s.proc.full = p1.full := by rw [g3]
  exact ⟨tr, s, l, g1, by rw [g3]; exact y3, by rw [hproc]; exact q5.trans h4, by rw [hproc]; exact k1, by rw [hproc, hfile]; exact hf, by rw [hproc, hfile]; exact hd,
    by rw [g2]; exact hseen', g4, g5, g6⟩

/-- The same line once more, in the next process. -/
theorem exits_twice {d : Bytes} {st st' : State} {a : DB} (h0 : Abs st a) (hb : Begins d st) {ws : List Bytes} {r : Resp} (hp : parse (Script.sent ws) = .ok (.array (req ws)) [])
    (hh : handle env0 st (req ws) = .ok (st', r)) (ht : Typable (Script.sent ws)) (hr : Sized r) (hlog : isLogged (req ws) = true)
    (hd : (writeRecord (fun _ => 100000) (PFile.new d) (sent ws)).disk = d) (hf : (writeRecord (fun _ => 100000) (PFile.new d) (sent ws)).failed = false)
    {x : Command} (hx : Means (req ws) x) :
    ∃ tr s, Exec (Site.Step true (fun _ => 100000) (· == 7)) (Site.new d st) tr s ∧ s.proc.stop.exited = true ∧ s.proc.full.whole.begun = none ∧
      s.proc.full.whole.pending = [] ∧ s.proc.full.whole.file.failed = false ∧ Begins s.proc.full.whole.file.disk st ∧
      Exec (Site.Step true (fun _ => 100000) (· == 7)) (Site.new s.proc.full.whole.file.disk st) tr s ∧ (∀ objs, Ran (deskOf tr) objs → objs = req ws) ∧
      (doneIn (seenOver (procOf tr))).length = 1 ∧ Got (deskOf tr) 7 0 x r := by
  obtain ⟨tr, s, l, h1, h2, h3, h4, h5, h6, h7, h8, h9, h10⟩ := exits_unwritten (d := d) h0 hp hh ht hr hlog hd hf
  refine ⟨tr, s, h1, h2, h3, h4, h5, by rw [h6]; exact hb, by rw [h6]; exact h1, fun objs hr => ran_one (by rw [← h7, (C86_parts h1).2.2]; rfl) hr, by rw [h7]; rfl, l, by rw [h8]; rfl, ⟨ws, h9, hx⟩, by rw [h10]; rfl⟩

/-- C98 (tickets): it is not so. -/
theorem C98_tickets_false : ¬ TicketsLast := by
  intro hc
  obtain ⟨dbs, a, h1, h2, h3, -⟩ := C33_rebuilds_partial [sent [b!"set", b!"n", b!"5"]] _ _ (fun q hq => by
    rw [List.mem_singleton.1 hq]; exact ⟨sent_occurs, sent_is (by decide), sent_is (by decide), sent_text⟩) rfl (fun _ => env0) fun _ => env0_fair
  have hv : a.strs b!"n" = some b!"5" := by rw [abs_unique h2 five_abs]; simp [DB.setStr]
  obtain ⟨st1, a1, s1, h4, -⟩ := draw_one h3 hv isInt_five (by decide)
  obtain ⟨tr, s, g1, g2, g3, g4, g5, g6, g7, g8, g9, g10⟩ := exits_twice h3 ⟨_, _, fun _ => env0_fair, h1, rfl⟩ incr_parses h4 incr_typable (.int (by omega) (by omega)) rfl
    (by decide +kernel) (by decide +kernel) incr_means
  refine hc _ _ _ _ _ tr tr s s b!"n" 7 7 0 0 _ ⟨_, _, fun _ => env0_fair, h1, rfl⟩ g1 g2 g3 g4 g5 g6 g7 (fun objs ho _ => ?_) ?_ rfl rfl g10 g10
  · rw [g8 objs (or_self_iff.1 ho)]; exact incr_means
  · rw [List.length_append, g9]; decide

/-- C98 (queue): it is not so. -/
theorem C98_queue_false : ¬ QueueLasts := by
  intro hc
  obtain ⟨dbs, a, h1, h2, h3, -⟩ := C33_rebuilds_partial [sent [b!"rpush", b!"q", b!"x"]] _ _ (fun q hq => by
    rw [List.mem_singleton.1 hq]; exact ⟨sent_occurs, sent_is (by decide), sent_is (by decide), sent_text⟩) rfl (fun _ => env0) fun _ => env0_fair
  have hv : a.listAt b!"q" = [b!"x"] := by
    obtain ⟨out, k1, k2⟩ := handle_refines abs_empty env0_fair (command_means rfl : Means (req [b!"rpush", b!"q", b!"x"]) (.rpush b!"q" [b!"x"]))
    simp only [Step, if_neg (by decide : b!"q" ≠ [])] at k1
    subst k1
    obtain ⟨st1, g, k⟩ := k2
    cases g
    rw [abs_unique h2 k]
    simp [DB.setList, DB.listAt, DB.empty]
  obtain ⟨st1, h4⟩ := pop_one h3 hv
  obtain ⟨tr, s, g1, g2, g3, g4, g5, g6, g7, g8, g9, g10⟩ := exits_twice h3 ⟨_, _, fun _ => env0_fair, h1, rfl⟩ lpop_parses h4 lpop_typable (.bulk (by decide)) rfl
    (by decide +kernel) (by decide +kernel) (command_means rfl : Means _ (.lpop b!"q"))
  refine hc _ _ _ _ _ a tr tr s s b!"q" 7 7 0 0 _ ⟨_, _, fun _ => env0_fair, h1, rfl⟩ h3 hv g1 g2 g3 g4 g5 g6 g7 (fun objs ho => ?_) rfl rfl g10 g10
  rw [g8 objs (or_self_iff.1 ho)]; exact command_means rfl

/-- The full claim about locks: likewise, with nothing but SADD of one element in both; then not both processes give the lock to somebody. -/
def LockLasts : Prop := ∀ (ω : Nat → Nat) (U : Nat → Bool) (st' : State) (tr tr' : List Site.Ev) (s s' : Site.Sys) (k x : Bytes) (c c' i j : Nat),
  Exec (Site.Step true ω U) (Site.new [] State.empty) tr s → s.proc.stop.exited = true → s.proc.full.whole.begun = none →
  s.proc.full.whole.pending = [] → s.proc.full.whole.file.failed = false → Begins s.proc.full.whole.file.disk st' →
  Exec (Site.Step true ω U) (Site.new s.proc.full.whole.file.disk st') tr' s' →
  (∀ objs, Ran (deskOf tr) objs ∨ Ran (deskOf tr') objs → Means objs (.sadd k [x])) → U c = true → U c' = true →
  Got (deskOf tr) c i (.sadd k [x]) (.int 1) → ¬ Got (deskOf tr') c' j (.sadd k [x]) (.int 1)

/-- C98 (lock): it is not so. -/
theorem C98_lock_false : ¬ LockLasts := by
  intro hc
  obtain ⟨tr, s, g1, g2, g3, g4, g5, g6, g7, g8, g9, g10⟩ := exits_twice abs_empty begins_empty sadd_parses (r := .int 1) rfl sadd_typable (.int (by omega) (by omega)) rfl
    (by decide +kernel) (by decide +kernel) sadd_means
  refine hc _ _ _ tr tr s s b!"l" b!"m" 7 7 0 0 g1 g2 g3 g4 g5 g6 g7 (fun objs ho => ?_) rfl rfl g10 g10
  rw [g8 objs (or_self_iff.1 ho)]; exact sadd_means

end Verif.Props
