import Verif.Spec.Site
import Verif.Props.Desk
import Verif.Props.Proc

/-!
C86: users at terminals, and processes that are stopped and started.
-/

namespace Verif.Props

open Verif Spec
open Verif.Fut (upd)

variable {m : Bool} {ω : Nat → Nat} {d : Bytes} {st : State} {U : Nat → Bool}

theorem procOf_append (a b : List Site.Ev) : procOf (a ++ b) = procOf a ++ procOf b := List.filterMap_append

theorem deskOf_append (a b : List Site.Ev) : deskOf (a ++ b) = deskOf a ++ deskOf b := List.filterMap_append

/-- C86: what happens in the process is something that can happen in the process of C84, what happens at the terminals something that can happen at those of C85,
and both with the same server. -/
theorem C86_parts {tr : List Site.Ev} {s : Site.Sys} (h : Exec (Site.Step m ω U) (Site.new d st) tr s) :
    Exec (Proc.Step m ω) (Proc.new d st) (procOf tr) s.proc ∧ Exec (Desk.Step ω U) (Desk.new d st) (deskOf tr) s.desk ∧
      serverOf (deskOf tr) = fullOf (procOf tr) := by
  refine h.inv (P := fun tr s => Exec (Proc.Step m ω) (Proc.new d st) (procOf tr) s.proc ∧ Exec (Desk.Step ω U) (Desk.new d st) (deskOf tr) s.desk ∧
    serverOf (deskOf tr) = fullOf (procOf tr)) ⟨.nil, .nil, rfl⟩ ?_
  rintro tr s e s' - ⟨h1, h2, h3⟩ hs
  rw [procOf_append, deskOf_append, serverOf_append, fullOf_append, h3]
  cases hs with
  | proc e p hg hf hp =>
    refine ⟨h1.snoc hp, ?_⟩
    cases hp with
    | full e f _ _ hs => exact ⟨h2.snoc (.server (s := s.desk) e f hg (hf _ rfl) hs), rfl⟩
    | both e x w f t _ _ _ _ hs _ => exact ⟨h2.snoc (.server (s := s.desk) e f hg (hf _ rfl) hs), rfl⟩
    | stop | told | engineLeft =>
      refine ⟨?_, rfl⟩
      rw [show deskOf [.proc _] = [] from rfl, List.append_nil]
      have : Site.Sys.desk { s with gone := false } = s.desk := by simp [Site.Sys.desk, hg]
      exact this ▸ h2
  | gone =>
    refine ⟨?_, h2.snoc .gone, rfl⟩
    rw [show procOf [.desk _] = [] from rfl, List.append_nil]
    exact h1
  | desk e t hu hs =>
    refine ⟨?_, h2.snoc hs, ?_⟩
    · rw [show procOf [.desk _] = [] from rfl, List.append_nil]
      exact h1
    · rw [show deskOf [.desk e] = [e] from rfl, user_server (by simpa using hu)]
      rfl

/-- The lives of the processes. -/
theorem site_procs {trs : List (List Site.Ev)} {d : Bytes} (hl : SiteLives m U trs d) : ProcLives (Proc.Calmly m) (trs.map procOf) d := by
  induction hl with
  | none => exact .none
  | next _ hb _ hw ih => rw [List.map_append]; exact .next ih hb hw

theorem forall₂_append_inv {α β : Type} {R : α → β → Prop} {xs : List α} {x : α} {ys : List β} (h : List.Forall₂ R (xs ++ [x]) ys) :
    ∃ zs y, ys = zs ++ [y] ∧ List.Forall₂ R xs zs ∧ R x y := by
  induction xs generalizing ys with
  | nil =>
    cases h with
    | cons h1 h2 => cases h2; exact ⟨[], _, rfl, .nil, h1⟩
  | cons a xs ih =>
    cases h with
    | cons h1 h2 =>
      obtain ⟨zs, y, rfl, g1, g2⟩ := ih h2
      exact ⟨_ :: zs, y, rfl, .cons h1 g1, g2⟩

/-- What the users of some processes see is explained by what these have executed. -/
theorem site_segs {trs : List (List Site.Ev)} {d : Bytes} (hl : SiteLives m U trs d) (hq : ∀ tr ∈ trs, Plainly (wholeOf (fullOf (procOf tr))))
    (hz : ∀ tr ∈ trs, ∀ x ∈ doneIn (seenOver (procOf tr)), Sized x.2.2) {hs : List (List Req)}
    (h1 : List.Forall₂ (fun tr h => Executed (seenOver (procOf tr)) h) trs hs) :
    ∃ segs : List (List (List Resp) × List Resp), List.Forall₂ (fun tr seg => ∃ place, OneDatabase U (deskOf tr) seg.1 seg.2 place) trs segs ∧
      segs.flatMap (·.1) = hs.flatten.map Req.objs ∧ segs.flatMap (·.2) = trs.flatMap fun tr => (doneIn (seenOver (procOf tr))).map fun x => x.2.2 := by
  have key : List.Forall₂ (fun tr (h : List Req) => ∃ place, OneDatabase U (deskOf tr) (h.map Req.objs) ((doneIn (seenOver (procOf tr))).map fun x => x.2.2) place) trs hs := by
    induction hl generalizing hs with
    | none => cases h1; exact .nil
    | @next trs d st ω tr s hl hb hx _ ih =>
      obtain ⟨zs, y, rfl, g1, g2⟩ := forall₂_append_inv h1
      refine List.rel_append (ih (fun tr ht => hq tr (by simp [ht])) (fun tr ht => hz tr (by simp [ht])) g1) (.cons ?_ .nil)
      obtain ⟨envs, dbs, k1, k2, rfl⟩ := hb
      obtain ⟨-, a0, dbs', -, -, k3, k4⟩ := C84_invisible_partial (site_procs hl) (fun tr ht => by
        obtain ⟨tr', ht', rfl⟩ := List.mem_map.1 ht
        exact hq tr' (by simp [ht'])) k1
      rw [k2] at k3
      cases k3
      obtain ⟨-, p2, p3⟩ := C86_parts hx
      have e1 : seenIn (serverOf (deskOf tr)) = seenOver (procOf tr) := by rw [p3]; rfl
      have := explains (U := U) k4 p2 (qs := y.map Req.objs) (by
        rw [e1]
        exact fun x hx => ⟨(hq tr (by simp)).2 x hx, hz tr (by simp) x hx⟩) (by
        rw [e1, List.forall₂_map_right_iff]
        exact g2.imp fun _ _ h => h.2)
      rw [e1] at this
      exact ⟨_, this.choose_spec.1⟩
  clear h1 hq hz hl
  induction key with
  | nil => exact ⟨[], .nil, rfl, rfl⟩
  | cons h _ ih =>
    obtain ⟨segs, g1, g2, g3⟩ := ih
    exact ⟨(_, _) :: segs, .cons h g1, by simp [g2], by simp [g3]⟩

/-- C86, for requests in UTF-8 other than LTRIM and SPOP and replies that can be framed, over any number of processes on the same file that are stopped well, and
in which every writer gets to the file before the engine begins with the next request: one database that is never stopped explains what all users of all
processes see, and the next process begins with its contents. What is missing from the full claim is refuted by `C86_false`, `C34_false` and `C33_false`. -/
theorem C86_users_partial {trs : List (List Site.Ev)} {d : Bytes} (hl : SiteLives m U trs d) (hq : ∀ tr ∈ trs, Plainly (wholeOf (fullOf (procOf tr))))
    (hz : ∀ tr ∈ trs, ∀ x ∈ doneIn (seenOver (procOf tr)), Sized x.2.2) {envs : Nat → Env} (hfair : ∀ i, (envs i).ord.Fair) :
    ∃ segs a dbs, List.Forall₂ (fun tr (seg : List (List Resp) × List Resp) => ∃ place, OneDatabase U (deskOf tr) seg.1 seg.2 place) trs segs ∧
      Trace DB.empty (segs.flatMap (·.1)) (segs.flatMap (·.2)) a ∧ fromFile noDBs envs d = .ok dbs ∧ Abs (dbs 1) a := by
  obtain ⟨hs, a, dbs, h1, h2, h3⟩ := C84_invisible_partial (site_procs hl) (fun tr ht => by
    obtain ⟨tr', ht', rfl⟩ := List.mem_map.1 ht
    exact hq tr' ht') hfair
  rw [List.forall₂_map_left_iff] at h1
  rw [List.flatMap_map] at h2
  obtain ⟨segs, g1, g2, g3⟩ := site_segs hl hq hz h1
  exact ⟨segs, a, dbs, g1, by rw [g2, g3]; exact h2, h3⟩

/-! ### What can happen -/

/-- What users do, whatever the process does. -/
theorem desk_lift {p : Proc.Sys} {s s' : Desk.Sys} {ls : List Desk.Ev} (h : Exec (Desk.Step ω U) s ls s') (hp : p.full = s.full) (hu : ∀ x ∈ ls, Desk.ofUser x = true) :
    Exec (Site.Step m ω U) ⟨p, s.terms, s.gone⟩ (ls.map .desk) ⟨p, s'.terms, s'.gone⟩ ∧ s'.full = s.full ∧ s'.gone = s.gone := by
  revert hu
  refine h.inv (P := fun ls s' => (∀ x ∈ ls, Desk.ofUser x = true) →
    Exec (Site.Step m ω U) ⟨p, s.terms, s.gone⟩ (ls.map .desk) ⟨p, s'.terms, s'.gone⟩ ∧ s'.full = s.full ∧ s'.gone = s.gone) (fun _ => ⟨.nil, rfl, rfl⟩) ?_
  rintro ls s1 x s2 - ih hs hu
  obtain ⟨g1, g2, g3⟩ := ih fun y hy => hu y (by simp [hy])
  have hx := hu x (by simp)
  have key : s2.full = s1.full ∧ s2.gone = s1.gone := by
    cases hs with
    | server | gone => cases hx
    | _ => exact ⟨rfl, rfl⟩
  refine ⟨?_, key.1.trans g2, key.2.trans g3⟩
  rw [List.map_append, key.2]
  refine g1.snoc (.desk (s := ⟨p, s1.terms, s1.gone⟩) x s2.terms hx ?_)
  have e1 : Site.Sys.desk ⟨p, s1.terms, s1.gone⟩ = s1 := by simp [Site.Sys.desk, hp, ← g2]
  have e2 : ({ s1 with terms := s2.terms } : Desk.Sys) = s2 := by cases s2; simp_all
  rw [e1, e2]
  exact hs

theorem user_deskOf {ls : List Desk.Ev} : deskOf (ls.map .desk) = ls ∧ procOf (ls.map .desk) = [] := by
  simp [deskOf, procOf, List.filterMap_map]

/-- C86: whatever happens in a process, if some of its clients behave like users at terminals and their connections are left alone, it can happen with command
line clients there, which show every reply. -/
theorem C86_possible {a0 : DB} (h0 : Abs st a0) {ptr : List Proc.Ev} {p : Proc.Sys} (hx : Exec (Proc.Step m ω) (Proc.new d st) ptr p)
    (ho : ∀ x ∈ doneIn (seenOver ptr), x.2.1.ord.Fair ∧ Sized x.2.2) (hU : ∀ c, U c = true → Attended c (fullOf ptr)) :
    ∃ tr s, Exec (Site.Step m ω U) (Site.new d st) tr s ∧ procOf tr = ptr ∧ s.proc = p ∧ s.gone = false ∧
      ∀ c, U c = true → (typedBy c (deskOf tr)).length = (piecesOf c (seenOver ptr)).length ∧
        (shownTo c (deskOf tr)).length = (answersTo c (seenOver ptr)).length := by
  suffices ∃ tr s, Exec (Site.Step m ω U) (Site.new d st) tr s ∧ procOf tr = ptr ∧ s.proc = p ∧ s.gone = false ∧
      ∀ c, U c = true → Ready c (fullOf ptr) s.desk (deskOf tr) by
    obtain ⟨tr, s, h1, h2, h3, h4, h5⟩ := this
    exact ⟨tr, s, h1, h2, h3, h4, fun c hc => ⟨(h5 c hc).typed, (h5 c hc).shown⟩⟩
  revert ho hU
  refine hx.inv (P := fun ptr p => (∀ x ∈ doneIn (seenOver ptr), x.2.1.ord.Fair ∧ Sized x.2.2) → (∀ c, U c = true → Attended c (fullOf ptr)) →
    ∃ tr s, Exec (Site.Step m ω U) (Site.new d st) tr s ∧ procOf tr = ptr ∧ s.proc = p ∧ s.gone = false ∧ ∀ c, U c = true → Ready c (fullOf ptr) s.desk (deskOf tr))
    (fun _ _ => ⟨[], _, .nil, rfl, rfl, rfl, fun c _ => ⟨rfl, rfl, rfl, .inl ⟨rfl, rfl⟩, rfl, rfl⟩⟩) ?_
  intro ptr p e p' hxp ih hs ho hU
  have ho' : ∀ x ∈ doneIn (seenOver ptr), x.2.1.ord.Fair ∧ Sized x.2.2 := fun x hx => ho x (by rw [seenOver_append, doneIn_append]; simp [hx])
  obtain ⟨tr, s, d1, rfl, rfl, d3, d4⟩ := ih ho' fun c hc => attended_prefix (b := fullOf [e]) (by rw [← fullOf_append]; exact hU c hc)
  obtain ⟨-, p2, p3⟩ := C86_parts d1
  have alone : Site.inside e = none → p'.full = s.proc.full → ∃ tr' s', Exec (Site.Step m ω U) (Site.new d st) tr' s' ∧ procOf tr' = procOf tr ++ [e] ∧ s'.proc = p' ∧ s'.gone = false ∧
      ∀ c, U c = true → Ready c (fullOf (procOf tr ++ [e])) s'.desk (deskOf tr') := by
    intro hi hp
    refine ⟨tr ++ [.proc e], _, d1.snoc (.proc e p' d3 (by simp [hi]) hs), by rw [procOf_append]; rfl, rfl, rfl, fun c hc => ?_⟩
    have e1 : fullOf [e] = [] := by cases e <;> simp_all [Site.inside, fullOf]
    have e2 : deskOf [.proc e] = [] := by cases e <;> simp_all [Site.inside, deskOf]
    have e3 : Site.Sys.desk ⟨p', Site.moved U s.terms e, false⟩ = s.desk := by simp [Site.Sys.desk, Site.moved, hi, hp, d3]
    rw [fullOf_append, e1, List.append_nil, deskOf_append, e2, List.append_nil, e3]
    exact d4 c hc
  have along : ∀ f f', Site.inside e = some f → Full.Step ω s.proc.full f f' → p'.full = f' →
      ∃ tr' s', Exec (Site.Step m ω U) (Site.new d st) tr' s' ∧ procOf tr' = procOf tr ++ [e] ∧ s'.proc = p' ∧ s'.gone = false ∧
      ∀ c, U c = true → Ready c (fullOf (procOf tr ++ [e])) s'.desk (deskOf tr') := by
    intro f f' hi hf hp
    have e1 : fullOf [e] = [f] := by cases e <;> simp_all [Site.inside, fullOf]
    have e2 : deskOf [.proc e] = [.server f] := by cases e <;> simp_all [Site.inside, deskOf]
    have e4 : fullOf (procOf tr ++ [e]) = serverOf (deskOf tr) ++ [f] := by rw [fullOf_append, e1, p3]
    obtain ⟨pre, post, s1, s', g1, g2, g3, g4, g5, g6, g7, g8, g9⟩ := attend_step (s := s.desk) h0 p2 d3 (by rw [p3]; exact d4) hf
      (by rw [← e4]; exact ho) (by rw [← e4]; exact hU)
    obtain ⟨l1, -, -⟩ := desk_lift (m := m) (p := s.proc) g2 rfl fun x hx => g1 x (by simp [hx])
    obtain ⟨l2, -, -⟩ := desk_lift (m := m) (p := p') g6 hp fun x hx => g1 x (by simp [hx])
    have hm : Site.moved U s1.terms e = Desk.moved U s1.terms f := by simp [Site.moved, hi]
    have l3 : Site.Step m ω U ⟨s.proc, s1.terms, s1.gone⟩ (.proc e) ⟨p', Desk.moved U s1.terms f, false⟩ :=
      hm ▸ .proc (s := ⟨s.proc, s1.terms, s1.gone⟩) e p' g4 (by rw [hi]; simpa using g5) hs
    refine ⟨_, _, d1.append (l1.append (.cons l3 l2)), ?_, rfl, g8, fun c hc => ?_⟩
    · rw [procOf_append, procOf_append, user_deskOf.2, show procOf (.proc e :: post.map .desk) = e :: procOf (post.map .desk) from rfl, user_deskOf.2]
      rfl
    · have e5 : deskOf (pre.map .desk ++ .proc e :: post.map .desk) = pre ++ .server f :: post := by
        rw [deskOf_append, user_deskOf.1, show Site.Ev.proc e :: post.map .desk = [Site.Ev.proc e] ++ post.map .desk from rfl, deskOf_append, e2, user_deskOf.1]
        rfl
      rw [e4, deskOf_append, e5]
      have e6 : Site.Sys.desk ⟨p', s'.terms, s'.gone⟩ = s' := by simp [Site.Sys.desk, hp, ← g7]
      rw [e6]
      exact g9 c hc
  cases hs with
  | full e f _ _ hs => exact along e f rfl hs rfl
  | both e x w f t _ _ _ _ hs _ => exact along e f rfl hs rfl
  | stop | told | engineLeft => exact alone rfl rfl

/-! ### Examples, and what is lost -/

/-- A user types one line and sees the reply. -/
theorem one_user' {u : Nat} {U : Nat → Bool} (hu : U u = true) {a0 : DB} (h0 : Abs st a0) {b : Bytes} {ws : List Bytes} {r : Resp} (hb : Typable b) (hr : Sized r) {ptr : List Proc.Ev} {p : Proc.Sys}
    (hx : Exec (Proc.Step m ω) (Proc.new d st) ptr p) (hs : seenOver ptr = oneTrace b ws r u) (hl : ∀ c, ∀ x ∈ lineOf c (fullOf ptr), smooth x = true) :
    ∃ tr s l, Exec (Site.Step m ω U) (Site.new d st) tr s ∧ procOf tr = ptr ∧ s.proc = p ∧ s.gone = false ∧
      typedBy u (deskOf tr) = [l] ∧ Words l ws ∧ shownTo u (deskOf tr) = [r] := by
  have ho : ∀ x ∈ doneIn (seenOver ptr), x.2.1.ord.Fair ∧ Sized x.2.2 := by
    intro x hx
    simp only [hs, doneIn, List.mem_cons, List.not_mem_nil, or_false] at hx
    subst hx
    exact ⟨env0_fair, hr⟩
  obtain ⟨tr, s, g1, rfl, rfl, hg, g4⟩ := C86_possible (U := U) h0 hx ho (by
    intro c _
    refine ⟨hl c, fun hm => ?_, fun before x after e => ?_⟩
    · rw [show seenIn (fullOf ptr) = seenOver ptr from rfl, hs] at hm
      simp at hm
    · obtain rfl : c = u := by
        have hm : Net.Ev.feed c (.arrived x) ∈ seenIn (fullOf ptr) := by rw [e]; simp
        rw [show seenIn (fullOf ptr) = seenOver ptr from rfl, hs] at hm
        simp at hm
        exact hm.1
      rw [show seenIn (fullOf ptr) = seenOver ptr from rfl, hs] at e
      rcases before with _ | ⟨x1, _ | ⟨x2, before⟩⟩
      · simp at e
      · simp only [List.cons_append, List.nil_append, List.cons.injEq, Net.Ev.feed.injEq, Feed.Ev.arrived.injEq, true_and] at e
        obtain ⟨rfl, rfl, -⟩ := e
        exact ⟨hb, rfl⟩
      · simp only [List.cons_append, List.cons.injEq] at e
        have := e.2.2
        have hm : Net.Ev.feed c (.arrived x) ∈ before ++ Net.Ev.feed c (.arrived x) :: after := by simp
        rw [← this] at hm
        simp at hm)
  obtain ⟨k1, k2⟩ := g4 u hu
  obtain ⟨-, p2, p3⟩ := C86_parts g1
  have e1 : seenIn (serverOf (deskOf tr)) = oneTrace b ws r u := by rw [p3]; exact hs
  have ht := termInv (U := U) h0 p2 (by rw [p3]; exact ho) (c := u) hu
  obtain ⟨wss, w1, w2⟩ := ht.lines.asked (C85_parts p2)
  rw [hs] at k1 k2
  rw [e1] at w2
  match hT : typedBy u (deskOf tr), hS : shownTo u (deskOf tr), k1, k2 with
  | [l], [r'], _, _ =>
    rw [hT] at w1
    obtain ⟨ws', wss', h1, h2, rfl⟩ := List.forall₂_cons_left_iff.1 w1
    obtain ⟨n, env, j1, j2⟩ := ht.shown 0 r' (by rw [hS]; rfl)
    rw [e1] at j2
    have hr' : r' = r := by simp [doneIn] at j2; exact j2.2.2
    subst hr'
    have hw : ws' = ws := by
      simp only [askedBy, if_true, List.map_cons, List.map_nil, List.cons_prefix_cons, Resp.array.injEq, req] at w2
      exact ((List.map_injective_iff.2 fun _ _ h => by simpa using h) w2.1).symm
    subst hw
    exact ⟨tr, s, l, g1, rfl, rfl, hg, hT, h1, hS⟩
  | [], _, h, _ => simp [piecesOf] at h
  | _ :: _ :: _, _, h, _ => simp [piecesOf] at h
  | _, [], _, h => simp [answersTo] at h
  | _, _ :: _ :: _, _, h => simp [answersTo] at h

theorem one_user {a0 : DB} (h0 : Abs st a0) {b : Bytes} {ws : List Bytes} {r : Resp} (hb : Typable b) (hr : Sized r) {ptr : List Proc.Ev} {p : Proc.Sys}
    (hx : Exec (Proc.Step m ω) (Proc.new d st) ptr p) (hs : seenOver ptr = oneTrace b ws r) (hl : ∀ c, ∀ x ∈ lineOf c (fullOf ptr), smooth x = true) :
    ∃ tr s l, Exec (Site.Step m ω (· == 7)) (Site.new d st) tr s ∧ procOf tr = ptr ∧ s.proc = p ∧ s.gone = false ∧
      typedBy 7 (deskOf tr) = [l] ∧ Words l ws ∧ shownTo 7 (deskOf tr) = [r] :=
  one_user' (U := (· == 7)) rfl h0 hb hr hx hs hl

/-- The full claim, for one user who is the only client: two processes run on a new file one after the other, the first exits when no writer waits and nothing has
failed at the file, and every line typed is answered; then the replies are those of one database. -/
def KeptForUser : Prop := ∀ (ω : Nat → Nat) (tr tr' : List Site.Ev) (s s' : Site.Sys) (st : State) (wss wss' : List (List Bytes)),
  Exec (Site.Step true ω (· == 7)) (Site.new [] State.empty) tr s → s.proc.stop.exited = true → s.proc.full.whole.begun = none → s.proc.full.whole.pending = [] →
  s.proc.full.whole.file.failed = false → Begins s.proc.full.whole.file.disk st → Exec (Site.Step true ω (· == 7)) (Site.new s.proc.full.whole.file.disk st) tr' s' →
  (∀ c, c ≠ 7 → askedBy c (seenOver (procOf tr)) = [] ∧ askedBy c (seenOver (procOf tr')) = []) →
  List.Forall₂ Words (typedBy 7 (deskOf tr)) wss → List.Forall₂ Words (typedBy 7 (deskOf tr')) wss' →
  (shownTo 7 (deskOf tr)).length = wss.length → (shownTo 7 (deskOf tr')).length = wss'.length →
  ∃ a, Trace DB.empty ((wss ++ wss').map fun ws => ws.map .bulk) (shownTo 7 (deskOf tr) ++ shownTo 7 (deskOf tr')) a

/-- A user sets a key, sees `OK`, the process exits as it should, and the user asks the next process for the key and sees that there is none. -/
theorem user_loses : ∃ tr tr' s s' l l', Exec (Site.Step true (fun _ => 100000) (· == 7)) (Site.new [] State.empty) tr s ∧ s.proc.stop.exited = true ∧
    s.proc.full.whole.begun = none ∧ s.proc.full.whole.pending = [] ∧ s.proc.full.whole.file.failed = false ∧ Begins s.proc.full.whole.file.disk State.empty ∧
    Exec (Site.Step true (fun _ => 100000) (· == 7)) (Site.new s.proc.full.whole.file.disk State.empty) tr' s' ∧
    (∀ c, c ≠ 7 → askedBy c (seenOver (procOf tr)) = [] ∧ askedBy c (seenOver (procOf tr')) = []) ∧
    typedBy 7 (deskOf tr) = [l] ∧ Words l [b!"set", b!"k", b!"1"] ∧ shownTo 7 (deskOf tr) = [.simple b!"OK"] ∧
    typedBy 7 (deskOf tr') = [l'] ∧ Words l' [b!"get", b!"k"] ∧ shownTo 7 (deskOf tr') = [.nullBulk] := by
  obtain ⟨ptr, p, h1, hseen, h2, hu, -, h3, h4, -, h5, h6, h7, h8, -, hsm⟩ := one_proc (m := true) (ω := fun _ => 100000) (d := []) (st := State.empty) setBytes_parse rfl
  obtain ⟨dr, p1, x1, k1, ⟨lg, q1⟩, q3, q4, q5, u1, ⟨hd1, hd2⟩, -, -, q6⟩ := proc_drain (m := true) (ω := fun _ => 100000) hu
  obtain ⟨cl, hc⟩ := h2.stop
  rw [hc, h6] at q1
  obtain ⟨ls, t, y1, y2, y3⟩ := exit_stop (ω := fun _ => 100000) (lg := lg) (cl := cl) (wk := phase p.full.whole.hub.worker) (by rcases h5 with h5 | h5 <;> rw [h5] <;> simp [phase])
  have z := (h1.append x1).append (stop_lift u1.1 (q1 ▸ y1) y2)
  have hfile : p1.full.whole.file = writeRecord (fun _ => 100000) (PFile.new []) set1 := by rw [q6, h8, h7]; rfl
  have hdisk : p1.full.whole.file.disk = [] := by rw [hfile]; decide +kernel
  have hst : fullOf ((ls ++ [Stop.Ev.exit]).map .stop) = [] := by simp [fullOf, List.filterMap_map]
  obtain ⟨tr, s, l, g1, g2, g3, -, g4, g5, g6⟩ := one_user abs_empty set_typable .simple z
    (by rw [seenOver_append, seenOver_append, hseen, hd1, seenOver, hst]; rfl)
    (by intro c; rw [fullOf_append, fullOf_append, lineOf_append, lineOf_append, hd2, hst]; simpa [lineOf] using hsm c)
  obtain ⟨ptr', p', h1', hseen', -, -, -, -, -, -, -, -, -, -, -, hsm'⟩ := one_proc (m := true) (ω := fun _ => 100000) (d := []) (st := State.empty) getBytes_parse rfl
  obtain ⟨tr', s', l', g1', g2', g3', -, g4', g5', g6'⟩ := one_user abs_empty get_typable .nullBulk h1' hseen' hsm'
  have hproc : s.proc.full = p1.full := by rw [g3]
  refine ⟨tr, tr', s, s', l, l', g1, by rw [g3]; exact y3, by rw [hproc]; exact q5.trans h4, by rw [hproc]; exact k1, ?_, ?_, ?_, ?_, g4, g5, g6, g4', g5', g6'⟩
  · rw [hproc, hfile]; decide +kernel
  · rw [hproc, hdisk]; exact ⟨_, _, fun _ => env0_fair, rfl, rfl⟩
  · rw [hproc, hdisk]; exact g1'
  · intro c hc
    rw [g2, g2', hseen', seenOver_append, seenOver_append, hseen, hd1, seenOver, hst]
    simp [askedBy, Ne.symm hc, seenIn, wholeOf, netOf]

/-- After a key was set it is there. -/
theorem set_get_nil {a : DB} (ha : Trace DB.empty [[.bulk b!"set", .bulk b!"k", .bulk b!"1"], [.bulk b!"get", .bulk b!"k"]] [.simple b!"OK", .nullBulk] a) : False := by
  have m1 : Means [.bulk b!"set", .bulk b!"k", .bulk b!"1"] (.set b!"k" b!"1") := command_means rfl
  have m2 : Means [.bulk b!"get", .bulk b!"k"] (.get b!"k") := command_means rfl
  cases ha with
  | err hm hs he _ =>
    cases means_unique hm m1
    simp [Step, done, fails] at hs
  | ok hm hs ht =>
    cases means_unique hm m1
    simp only [Step, done, Option.some.injEq, Prod.mk.injEq, and_true] at hs
    obtain ⟨rfl, -⟩ := hs
    cases ht with
    | ok hm' hs' _ =>
      cases means_unique hm' m2
      simp [Step, done, bulk?, DB.setStr, DB.empty] at hs'
    | err hm' hs' he' _ =>
      cases means_unique hm' m2
      simp [Step, done, fails] at hs'

/-- C86: it is not so. -/
theorem C86_false : ¬ KeptForUser := by
  intro hk
  obtain ⟨tr, tr', s, s', l, l', h1, h2, h3, h4, h5, h6, h7, h8, t1, w1, r1, t2, w2, r2⟩ := user_loses
  obtain ⟨a, ha⟩ := hk _ tr tr' s s' _ [[b!"set", b!"k", b!"1"]] [[b!"get", b!"k"]] h1 h2 h3 h4 h5 h6 h7 h8 (by rw [t1]; exact .cons w1 .nil) (by rw [t2]; exact .cons w2 .nil)
    (by rw [r1]; rfl) (by rw [r2]; rfl)
  rw [r1, r2] at ha
  exact set_get_nil ha

/-- A life of a process in which one user types one line, sees the reply, and then the process is stopped well. -/
theorem one_user_life' {u : Nat} (hu : u = 7 ∨ u = 8) {U : Nat → Bool} (hU : U u = true) {a0 : DB} (h0 : Abs st a0) {b : Bytes} {ws : List Bytes} {st' : State} {r : Resp} (hp : parse b = .ok (.array (req ws)) [])
    (hh : handle env0 st (req ws) = .ok (st', r)) (hb : Typable b) (hr : Sized r) (hz : (requestLog stamp0 (req ws)).length ≤ 100000) :
    ∃ tr s l, Exec (Site.Step true (fun _ => 100000) U) (Site.new d st) tr s ∧
      StoppedWell (Proc.Calmly true fun _ => 100000) (Proc.new d st) (procOf tr) s.proc ∧ seenOver (procOf tr) = oneTrace b ws r u ∧
      begunIn (wholeOf (fullOf (procOf tr))) = [(stamp0, req ws)] ∧ typedBy u (deskOf tr) = [l] ∧ Words l ws ∧ shownTo u (deskOf tr) = [r] := by
  obtain ⟨ptr, p, h1, h2, h3, h4, -, -, -, h5, -, -, -, -, h6, hsm⟩ := one_proc' (m := true) (ω := fun _ => 100000) (d := d) (st := st) hu hp hh
  obtain ⟨cl, hc⟩ := h3.stop
  obtain ⟨after, p', ⟨g1, g1'⟩, g2, g3⟩ := C84_stops_well (fun _ => Nat.le_refl _) (by decide) h1 h4 (by rw [hc]; rfl) h5
    (by rw [h6]; intro q hq; rw [List.mem_singleton.1 hq]; exact hz)
  have hs : seenOver (ptr ++ after) = oneTrace b ws r u := by rw [seenOver_append, h2, g1]; rfl
  have hbg : begunIn (wholeOf (fullOf (ptr ++ after))) = [(stamp0, req ws)] := by rw [fullOf_append, wholeOf_append, begunIn_append, h6, g2]; rfl
  obtain ⟨b', s1, i, s2, a, e1, e2, e3, e4, e5, e6, e7⟩ := g3
  have hlen : (begunIn (wholeOf (fullOf (b' ++ .both (.whole .flushed) (.did i .flush) :: a)))).length ≤ 1 := by rw [← e1, hbg]; simp
  have hlen' := hlen
  rw [fullOf_append, wholeOf_append, begunIn_append, List.length_append] at hlen'
  have hx : Exec (Proc.Step true fun _ => 100000) (Proc.new d st) (ptr ++ after) p' := by rw [e1]; exact e2.append (.cons e5 e6)
  obtain ⟨tr, s, l, k1, k2, k3, -, k4, k5, k6⟩ := one_user' hU h0 hb hr hx hs (by intro c; rw [fullOf_append, lineOf_append, g1', List.append_nil]; exact hsm c)
  refine ⟨tr, s, l, k1, ?_, by rw [k2, hs], by rw [k2, hbg], k4, k5, k6⟩
  rw [k2, k3]
  exact ⟨b', s1, i, s2, a, e1, one_calm .nil e2 (by rw [List.nil_append]; omega), e3, e4, ⟨e5, by simp [fullOf, wholeOf]⟩, one_calm (e2.snoc e5) e6 (by simpa using hlen), e7⟩

theorem one_user_life {a0 : DB} (h0 : Abs st a0) {b : Bytes} {ws : List Bytes} {st' : State} {r : Resp} (hp : parse b = .ok (.array (req ws)) [])
    (hh : handle env0 st (req ws) = .ok (st', r)) (hb : Typable b) (hr : Sized r) (hz : (requestLog stamp0 (req ws)).length ≤ 100000) :
    ∃ tr s l, Exec (Site.Step true (fun _ => 100000) (· == 7)) (Site.new d st) tr s ∧
      StoppedWell (Proc.Calmly true fun _ => 100000) (Proc.new d st) (procOf tr) s.proc ∧ seenOver (procOf tr) = oneTrace b ws r ∧
      begunIn (wholeOf (fullOf (procOf tr))) = [(stamp0, req ws)] ∧ typedBy 7 (deskOf tr) = [l] ∧ Words l ws ∧ shownTo 7 (deskOf tr) = [r] :=
  one_user_life' (U := (· == 7)) (.inl rfl) rfl h0 hp hh hb hr hz

/-- What meets the hypotheses of `C86_users_partial`, and with it those of `C86_possible` and `C86_parts`: a user sets a key, the process is stopped, and a user of
the next one gets it. -/
example : ∃ tr tr' d' l l', SiteLives true (· == 7) [tr, tr'] d' ∧ (∀ t ∈ [tr, tr'], Plainly (wholeOf (fullOf (procOf t)))) ∧
    (∀ t ∈ [tr, tr'], ∀ x ∈ doneIn (seenOver (procOf t)), Sized x.2.2) ∧
    typedBy 7 (deskOf tr) = [l] ∧ Words l [b!"set", b!"k", b!"1"] ∧ shownTo 7 (deskOf tr) = [.simple b!"OK"] ∧
    typedBy 7 (deskOf tr') = [l'] ∧ Words l' [b!"get", b!"k"] ∧ shownTo 7 (deskOf tr') = [.bulk b!"1"] := by
  obtain ⟨tr, s, l, h1, h2, h3, h4, h5, h6, h7⟩ := one_user_life (d := []) (st := State.empty) abs_empty setBytes_parse rfl set_typable .simple (set12_small set1 (by simp))
  have hpl : Plainly (wholeOf (fullOf (procOf tr))) := one_plain h3 h4 set1_ok
  have hb0 : Begins [] State.empty := ⟨_, _, fun _ => env0_fair, rfl, rfl⟩
  have hl1 : SiteLives true (· == 7) [tr] s.proc.full.whole.file.disk := .next (ω := fun _ => 100000) .none hb0 h1 h2
  obtain ⟨b', s1, i, s2, a, e1, e2, e3, e4, e5, e6, e7⟩ := h2
  obtain ⟨hs, ws, k1, k2, k3⟩ := C84_restart_partial (m := true) (trs := [procOf tr]) (d := s.proc.full.whole.file.disk)
    (.next (ω := fun _ => 100000) .none hb0 ⟨b', s1, i, s2, a, e1, calm_exec e2, e3, e4, e5.1, calm_exec e6, e7⟩) (by simpa using plainly_really hpl)
  obtain ⟨h, hs', k4, k5, rfl⟩ := List.forall₂_cons_left_iff.1 k1
  rw [List.forall₂_nil_left_iff] at k5
  subst k5
  obtain ⟨w, ws', k6, k7, rfl⟩ := List.forall₂_cons_right_iff.1 k2
  rw [List.forall₂_nil_right_iff] at k7
  subst k7
  rw [h3, Executed] at k4
  simp only [doneIn] at k4
  obtain ⟨q, h', ⟨-, c, o, hq, ho⟩, hh, rfl⟩ := List.forall₂_cons_left_iff.1 k4
  rw [List.forall₂_nil_left_iff] at hh
  subst hh
  have hobj : q.objs = req [b!"set", b!"k", b!"1"] := by
    simp only [askedBy] at hq
    split at hq <;> simp at hq
    subst hq
    simp [ArrayOf] at ho
    exact ho.symm
  have hrec : recorded [q] = [q] := by
    rw [recorded, List.filter_cons_of_pos (by simpa using (recorded_iff q).2 (by rw [hobj]; exact ⟨rfl, set1_ok.2.2.2⟩)), List.filter_nil]
  rw [hrec, List.perm_singleton] at k6
  subst k6
  have hread : fromFile noDBs (fun _ => env0) s.proc.full.whole.file.disk = .ok (fun j => if j = 1 then ⟨[(b!"k", Str.new b!"1")], [], [], []⟩ else State.empty) := by
    rw [k3]
    simp only [List.flatten_cons, List.flatten_nil, List.append_nil, again, List.mapIdx_cons, List.mapIdx_nil, hobj]
    rfl
  obtain ⟨a1, -, t2⟩ := serve_trace (reqs := [(env0, req [b!"set", b!"k", b!"1"])]) abs_empty (by simpa using env0_fair) rfl
  obtain ⟨tr', s', l', g1, g2, g3, g4, g5, g6, g7⟩ := one_user_life (d := s.proc.full.whole.file.disk) (st := ⟨[(b!"k", Str.new b!"1")], [], [], []⟩) t2 getBytes_parse rfl get_typable
    (.bulk (by decide)) (by decide)
  refine ⟨tr, tr', _, l, l', .next (ω := fun _ => 100000) hl1 ⟨_, _, fun _ => env0_fair, hread, rfl⟩ g1 g2, ?_, ?_, h5, h6, h7, g5, g6, g7⟩
  · simp only [List.forall_mem_cons, List.not_mem_nil, false_imp_iff, implies_true, and_true]
    exact ⟨hpl, one_plain g3 g4 ⟨sent_occurs, sent_is (by decide), sent_is (by decide), sent_text⟩⟩
  · simp only [List.forall_mem_cons, List.not_mem_nil, false_imp_iff, implies_true, and_true, h3, g3, doneIn]
    exact ⟨.simple, .bulk (by decide)⟩

end Verif.Props
