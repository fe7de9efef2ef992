import Verif.Lemmas.Full
import Verif.Spec.Fate
import Verif.Props.Fate

/-! # C82, C83 – connections that come and go, in the whole server -/

namespace Verif.Props

open Spec
open Fut (upd)

variable {ω : Nat → Nat} {d : Bytes} {st : State} {tr : List Full.Ev} {s : Full.Sys}

theorem seenIn_append (a b : List Full.Ev) : seenIn (a ++ b) = seenIn a ++ seenIn b := by
  rw [seenIn, wholeOf_append, netOf_append]; rfl

theorem mem_netOf {e : Net.Ev} {tr : List Whole.Ev} : e ∈ netOf tr ↔ .net e ∈ tr := by
  simp only [netOf, List.mem_filterMap]
  constructor
  · rintro ⟨y, hy, hx⟩
    cases y <;> simp only [Option.some.injEq, reduceCtorEq] at hx
    exact hx ▸ hy
  · exact fun h => ⟨_, h, rfl⟩

/-- What has nothing to do with a socket. -/
theorem apart_quiet {e : Whole.Ev} (h : Full.apart e = true) (c : Nat) :
    answersTo c (netOf [e]) = [] ∧ askedBy c (netOf [e]) = [] ∧ (∀ n, .pipe (.refused c n) ∉ netOf [e]) ∧ ∀ f, .feed c f ∉ netOf [e] := by
  cases e with
  | net e => cases e with
    | feed | read => cases h
    | pipe e =>
      cases e with
      | wrote | refused => cases h
      | _ => exact ⟨rfl, rfl, by simp [netOf], by simp [netOf]⟩
  | _ => exact ⟨rfl, rfl, by simp [netOf], by simp [netOf]⟩

/-- C82: what happens at the server with its connections is something that can happen at the server of C81, and, through it, at the one of C70; and what
happens in each connection is something that can happen in a connection of C44 and C45. -/
theorem C82_parts (h : Exec (Full.Step ω) (Full.new d st) tr s) :
    Exec (Whole.Step ω) (Whole.new d st) (wholeOf tr) s.whole ∧
    (∃ n, Exec Net.Step (Net.new st) (seenIn tr) n ∧ n.out = s.whole.out ∧ n.pipe.db = s.whole.hub.db) ∧
    ∀ c, Exec Conn.Step Conn.new (lineOf c tr) (s.lines c) := by
  obtain ⟨h1, h2⟩ := full_exec h
  obtain ⟨n, g1, g2⟩ := whole_net h1
  exact ⟨h1, ⟨n, g1, g2.out, g2.sim.db⟩, h2⟩

theorem repliesIn_append (a b : List Conn.Out) : repliesIn (a ++ b) = repliesIn a ++ repliesIn b := List.filterMap_append

theorem line_replies (h : Exec (Full.Step ω) (Full.new d st) tr s) (c : Nat) :
    repliesIn (s.lines c).out = (answersTo c (seenIn tr)).map Prod.snd := by
  refine h.inv (P := fun tr s => repliesIn (s.lines c).out = (answersTo c (seenIn tr)).map Prod.snd) rfl ?_
  rintro tr s e s' - ih hs
  rw [seenIn_append, answersTo_append, List.map_append, ← ih]
  have quiet : ∀ c' (x : Conn.Sys), s'.lines = upd s.lines c' x → repliesIn x.out = repliesIn (s.lines c').out → answersTo c (seenIn [e]) = [] →
      repliesIn (s'.lines c).out = repliesIn (s.lines c).out ++ (answersTo c (seenIn [e])).map Prod.snd := by
    intro c' x h1 h2 h3
    rw [h3, h1]
    by_cases hc : c = c'
    · subst hc; rw [upd_same, h2]; simp
    · rw [upd_other _ _ hc]; simp
  cases hs with
  | whole e w h1 h2 =>
    rw [show seenIn [.whole e] = netOf [e] from rfl, (apart_quiet h1 c).1]; simp
  | send | kill => simp [seenIn, wholeOf, netOf, answersTo]
  | readCall c' x _ _ _ _ h | closeCall c' x _ _ _ h | writeCall _ c' _ x _ _ h => exact quiet c' x rfl (by cases h; rfl) rfl
  | cut c' x _ _ h => exact quiet c' x rfl (by cases h; rfl) rfl
  | own c' e x _ _ h0 h =>
    refine quiet c' x rfl ?_ rfl
    cases h <;> first | rfl | (simp [Full.own] at h0; done) | (simp [repliesIn_append]; rfl)
  | read c' _ _ _ x _ h | finish c' _ _ x _ _ h => exact quiet c' x rfl (by cases h; rfl) rfl
  | refuse _ c' _ _ x _ _ h => exact quiet c' x rfl (by cases h; rfl) rfl
  | fail _ c' _ _ x _ h => exact quiet c' x rfl (by cases h <;> first | rfl | (simp [repliesIn_append]; rfl)) rfl
  | wrote n c' b w x h1 h =>
    cases h
    by_cases hc : c = c'
    · subst hc
      simp only [upd_same, repliesIn_append]
      simp [repliesIn, seenIn, wholeOf, netOf, answersTo]
    · simp only [upd_other _ _ hc]
      simp [seenIn, wholeOf, netOf, answersTo, Ne.symm hc]

/-- C82: on the wire to a client are the replies of `C70_streams` in their order, at most one farewell, and when the client has gone away perhaps parts of
texts. -/
theorem C82_wire (h : Exec (Full.Step ω) (Full.new d st) tr s) (c : Nat) :
    repliesIn (s.lines c).out = (answersTo c (seenIn tr)).map Prod.snd ∧ (s.lines c).out.count .farewell ≤ 1 ∧
    (∀ p, .part p ∈ (s.lines c).out → .client .gone ∈ lineOf c tr) ∧
    ((∀ i, .closeWon i ∉ lineOf c tr) → .client .gone ∉ lineOf c tr → wireOf (s.lines c).out = s.whole.out c) := by
  have hl := (full_exec h).2 c
  have hr := line_replies h c
  have hp := fun p hp => ((C45_wire hl).2 p hp).1
  refine ⟨hr, (C45_once hl 0).2.2.2.2.2, hp, fun hw hg => ?_⟩
  obtain ⟨n, h1, h2, -⟩ := (C82_parts h).2.1
  rw [← h2, (net_split h1).2.2.1 c, ← hr]
  have hf : .farewell ∉ (s.lines c).out := by
    intro hf
    obtain ⟨i, hi⟩ := (connInv hl).farewells.1 hf
    have : (s.lines c).flag = false := by
      by_contra hc
      obtain ⟨j, hj⟩ := (connInv hl).flag.1 (by simpa using hc)
      exact hw j hj
    exact (((connInv hl).fresh this).2.2 i).1 hi
  have hp' : ∀ p, .part p ∉ (s.lines c).out := fun p h => hg (hp p h)
  generalize (s.lines c).out = l at hf hp'
  induction l with
  | nil => rfl
  | cons x l ih =>
    have := ih (by simp_all) (fun p h => hp' p (by simp [h]))
    cases x with
    | reply b => simpa [wireOf, repliesIn] using this
    | farewell => simp at hf
    | part p => exact absurd (by simp) (hp' p)

/-- C82: a reply is refused only on a connection that somebody has closed or whose client has gone away. -/
theorem C82_refused (h : Exec (Full.Step ω) (Full.new d st) tr s) {c n : Nat} (hr : .pipe (.refused c n) ∈ seenIn tr) :
    (∃ i, .closeWon i ∈ lineOf c tr) ∨ .client .gone ∈ lineOf c tr := by
  revert hr
  refine h.inv (P := fun tr s => .pipe (.refused c n) ∈ seenIn tr → (∃ i, .closeWon i ∈ lineOf c tr) ∨ .client .gone ∈ lineOf c tr) (by simp [seenIn, wholeOf, netOf]) ?_
  intro tr s e s' hx ih hs hr
  rw [seenIn_append, List.mem_append] at hr
  simp only [lineOf_append, List.mem_append]
  rcases hr with hr | hr
  · rcases ih hr with ⟨i, h⟩ | h
    · exact .inl ⟨i, .inl h⟩
    · exact .inr (.inl h)
  · have hl := (full_exec hx).2 c
    have hi := connInv hl
    have gone : (s.lines c).client = .gone → .client .gone ∈ lineOf c tr := by
      intro hg
      have := hl.inv (P := fun tr (x : Conn.Sys) => x.client = .gone → .client .gone ∈ tr) (by simp [Conn.new, Full.new]) (by
        intro tr s l s' _ ih hs; cases hs <;> grind)
      exact this hg
    have sock : (s.lines c).sock = true → ∃ i, .closeWon i ∈ lineOf c tr := by
      intro hs
      refine hi.flag.1 ?_
      by_contra hf
      have := (hi.fresh (by simpa using hf)).2.1
      rw [hs] at this; cases this
    cases hs with
    | refuse n' c' b w x _ _ h3 =>
      simp [seenIn, wholeOf, netOf] at hr
      obtain ⟨rfl, rfl⟩ := hr
      cases h3 with
      | writeClosed _ _ _ _ hf =>
        obtain ⟨i, hi⟩ := hi.flag.1 hf
        exact .inl ⟨i, .inl hi⟩
    | fail n' c' b w x _ h3 =>
      simp [seenIn, wholeOf, netOf] at hr
      obtain ⟨rfl, rfl⟩ := hr
      cases h3 with
      | writeErr _ _ _ hf =>
        obtain ⟨i, hi⟩ := sock hf
        exact .inl ⟨i, .inl hi⟩
      | writePart _ _ _ _ hg _ => exact .inr (.inl (gone hg))
    | whole e w h1 h2 =>
      exact absurd hr ((apart_quiet h1 c).2.2.1 n)
    | _ => simp [seenIn, wholeOf, netOf] at hr

theorem feed_left (h : Exec (Full.Step ω) (Full.new d st) tr s) {c : Nat} (hl : (s.whole.feeds c).pc = .left) : .feed c .left ∈ seenIn tr := by
  obtain ⟨n, h1, h2⟩ := whole_net (full_exec h).1
  rw [← h2.feeds] at hl
  revert hl
  refine h1.inv (P := fun tr n => (n.feeds c).pc = .left → .feed c .left ∈ tr) (by simp [Net.new, Feed.new]) ?_
  intro tr n e n' _ ih hs hl
  rw [List.mem_append]
  have same : ∀ c' f x, Feed.Step (n.feeds c') f x → n'.feeds = upd n.feeds c' x → (f = .left → e = .feed c' .left) → .feed c .left ∈ tr ∨ .feed c .left ∈ [e] := by
    intro c' f x h1 h2 h3
    rw [h2] at hl
    by_cases hc : c = c'
    · subst hc
      rw [upd_same] at hl
      cases h1 with
      | leave => rw [h3 rfl]; exact .inr (by simp)
      | arrive | finish | read => exact .inl (ih hl)
      | stop | crash => cases hl
    · rw [upd_other _ _ hc] at hl; exact .inl (ih hl)
  cases hs with
  | feed c' f x _ _ _ _ h1 => exact same c' f x h1 rfl (by rintro rfl; rfl)
  | crash c' x _ _ _ h1 => exact same c' _ x h1 rfl (by nofun)
  | read c' k o x _ _ h1 _ => exact same c' _ x h1 rfl (by nofun)
  | pipe => exact .inl (ih hl)

/-- C82: a connection is closed only by its expire worker, because its timer has fired, or by the goroutine `Read` has started because its client has
ended its stream. -/
theorem C82_closed (h : Exec (Full.Step ω) (Full.new d st) tr s) {c i : Nat} (hw : .closeWon i ∈ lineOf c tr) :
    i = 0 ∧ .expired ∈ lineOf c tr ∨ i = 3 ∧ .feed c .left ∈ seenIn tr := by
  have := h.inv (P := fun tr s => (∀ i, ((s.lines c).pcs i = .closeStart ∨ Conn.closing ((s.lines c).pcs i) = true ∨ .closeWon i ∈ lineOf c tr) →
    i = 0 ∧ .expired ∈ lineOf c tr ∨ i = 3 ∧ .feed c .left ∈ seenIn tr)) (by simp [Full.new, Conn.new, Conn.closing, lineOf]) ?_
  · exact this i (.inr (.inr hw))
  intro tr s e s' hx ih hs i hi
  have more : (i = 0 ∧ .expired ∈ lineOf c tr ∨ i = 3 ∧ .feed c .left ∈ seenIn tr) →
      i = 0 ∧ .expired ∈ lineOf c (tr ++ [e]) ∨ i = 3 ∧ .feed c .left ∈ seenIn (tr ++ [e]) := by
    rw [lineOf_append, seenIn_append, List.mem_append, List.mem_append]
    rintro (⟨h1, h2⟩ | ⟨h1, h2⟩)
    · exact .inl ⟨h1, .inl h2⟩
    · exact .inr ⟨h1, .inl h2⟩
  have line : ∀ c' l x, Conn.Step (s.lines c') l x → s'.lines = upd s.lines c' x → lineOf c [e] = (if c' = c then [l] else []) →
      (l = .closeCall i → c' = c → i = 3 ∧ (s.whole.feeds c).pc = .left) →
      i = 0 ∧ .expired ∈ lineOf c (tr ++ [e]) ∨ i = 3 ∧ .feed c .left ∈ seenIn (tr ++ [e]) := by
    intro c' l x h1 h2 h3 h4
    rw [h2, lineOf_append, h3] at hi
    by_cases hc : c' = c
    · subst hc
      rw [upd_same] at hi
      simp only [if_true, List.mem_append, List.mem_singleton] at hi h3
      have hexp : l = .expired → .expired ∈ lineOf c' (tr ++ [e]) := by
        rintro rfl; rw [lineOf_append, h3]; simp
      by_cases hcall : l = .closeCall i
      · obtain ⟨rfl, h5⟩ := h4 hcall rfl
        exact more (.inr ⟨rfl, feed_left hx h5⟩)
      by_cases hex : l = .expired
      · subst hex
        cases h1
        simp only [upd] at hi
        by_cases h0 : i = 0
        · exact .inl ⟨h0, hexp rfl⟩
        · exact more (ih i (by simpa [h0] using hi))
      · refine more (ih i ?_)
        clear more hexp h4 h3 h2 ih
        cases h1 <;> grind [upd, Conn.closing]
    · rw [upd_other _ _ (Ne.symm hc), if_neg hc, List.append_nil] at hi
      exact more (ih i hi)
  have e1 : ∀ c' x, lineOf c [.line c' x] = if c' = c then [x] else [] := by
    intro c' x; simp only [lineOf, List.filterMap_cons, List.filterMap_nil]; split <;> simp_all
  have e2 : ∀ w c' x, lineOf c [.both w c' x] = if c' = c then [x] else [] := by
    intro w c' x; simp only [lineOf, List.filterMap_cons, List.filterMap_nil]; split <;> simp_all
  cases hs with
  | whole | send | kill => exact more (ih i (by rw [lineOf_append] at hi; simpa [lineOf] using hi))
  | readCall c' x _ _ _ _ h | writeCall _ c' _ x _ _ h => exact line c' _ x h rfl (e1 _ _) (by nofun)
  | closeCall c' x _ h1 _ h => exact line c' _ x h rfl (e1 _ _) (by rintro ⟨⟩ rfl; exact ⟨rfl, h1⟩)
  | cut c' x _ _ h => exact line c' _ x h rfl (e1 _ _) (by nofun)
  | own c' e x _ _ h0 h => exact line c' _ x h rfl (e1 _ _) (by rintro rfl; cases h0)
  | read c' _ _ _ x _ h | finish c' _ _ x _ _ h => exact line c' _ x h rfl (e2 _ _ _) (by nofun)
  | refuse _ c' _ _ x _ _ h => exact line c' _ x h rfl (e2 _ _ _) (by nofun)
  | fail _ c' _ _ x _ h | wrote _ c' _ _ x _ h => exact line c' _ x h rfl (e2 _ _ _) (by nofun)

/-- C82: once its timer has fired, or its expire worker has left, at most one more request is read from a connection. -/
theorem C82_last_request {before after : List Full.Ev} {c : Nat} {e : Conn.Ev} (he : e = .expired ∨ e = .workerLeft)
    (h : Exec (Full.Step ω) (Full.new d st) (before ++ .line c e :: after) s) : (askedBy c (seenIn after)).length ≤ 1 := by
  rw [show before ++ Full.Ev.line c e :: after = (before ++ [.line c e]) ++ after by simp] at h
  obtain ⟨s2, h2, hx⟩ := h.split
  obtain ⟨s1, h1, hs⟩ := h2.split_snoc
  have hw : (s2.lines c).worker ≠ .selecting := by
    have := (full_step hs).2 c
    rw [show lineOf c [.line c e] = [e] by simp [lineOf]] at this
    have := exec_single this
    generalize s2.lines c = x at this ⊢
    rcases he with rfl | rfl <;> cases this <;> simp
  have := hx.inv (P := fun tr s => (s.lines c).worker ≠ .selecting ∧ (askedBy c (seenIn tr)).length + (if (s.lines c).pcs 2 = .reading then 1 else 0) ≤ 1)
    ⟨hw, by simp only [seenIn, wholeOf, netOf, List.filterMap_nil, askedBy, List.length_nil]; split <;> simp⟩ ?_
  · have := this.2; omega
  rintro tr s e s' - ⟨i1, i2⟩ hs
  rw [seenIn_append, askedBy_append, List.length_append]
  have line : ∀ c' l x, Conn.Step (s.lines c') l x → s'.lines = upd s.lines c' x → l ≠ .read 2 → askedBy c (seenIn [e]) = [] →
      (s'.lines c).worker ≠ .selecting ∧ (askedBy c (seenIn tr)).length + (askedBy c (seenIn [e])).length + (if (s'.lines c).pcs 2 = .reading then 1 else 0) ≤ 1 := by
    intro c' l x h1 h2 h3 h4
    rw [h4, h2]
    by_cases hc : c = c'
    · subst hc
      rw [upd_same]
      have : x.worker ≠ .selecting ∧ (x.pcs 2 = .reading → (s.lines c).pcs 2 = .reading) := by
        clear i2 h2 h4
        cases h1 <;> grind [upd]
      refine ⟨this.1, ?_⟩
      split
      · rw [if_pos (this.2 (by assumption))] at i2; simpa using i2
      · simp only [List.length_nil]; omega
    · rw [upd_other _ _ hc]; exact ⟨i1, by simpa using i2⟩
  cases hs with
  | whole e w h1 h2 => rw [show seenIn [.whole e] = netOf [e] from rfl, (apart_quiet h1 c).2.1]; exact ⟨i1, i2⟩
  | send | kill => exact ⟨i1, i2⟩
  | readCall c' x _ _ _ _ h | writeCall _ c' _ x _ _ h => exact line c' _ x h rfl (by nofun) rfl
  | closeCall c' x _ h1 _ h => exact line c' _ x h rfl (by nofun) rfl
  | cut c' x _ _ h => exact line c' _ x h rfl (by nofun) rfl
  | own c' e x _ _ h0 h => exact line c' _ x h rfl (by rintro rfl; cases h0) rfl
  | finish c' _ _ x _ _ h => exact line c' _ x h rfl (by nofun) rfl
  | refuse _ c' _ _ x _ _ h => exact line c' _ x h rfl (by nofun) rfl
  | fail _ c' _ _ x _ h | wrote _ c' _ _ x _ h => exact line c' _ x h rfl (by nofun) rfl
  | read c' n o w x _ h =>
    by_cases hc : c = c'
    · subst hc
      cases h with
      | read _ hp =>
        rw [if_pos hp] at i2
        simp only [upd_same]
        refine ⟨i1, ?_⟩
        have : (askedBy c (seenIn [.both (.net (.read c n o)) c (.read 2)])).length = 1 := by simp [seenIn, wholeOf, netOf, askedBy]
        rw [this, if_neg (by simp)]
        omega
    · simp only [upd_other _ _ hc]
      refine ⟨i1, ?_⟩
      simpa [seenIn, wholeOf, netOf, askedBy, Ne.symm hc] using i2

theorem gone_said {tr : List Conn.Ev} {x : Conn.Sys} (h : Exec Conn.Step Conn.new tr x) : x.client = .gone → .client .gone ∈ tr := by
  refine h.inv (P := fun tr x => x.client = .gone → .client .gone ∈ tr) (by simp [Conn.new]) ?_
  intro tr x e y _ ih hs
  cases hs <;> grind

/-- C82: the server stops reading from a connection whose client has neither ended its stream nor sent nonsense only when the connection was closed or the
client has gone away. -/
theorem C82_heard (h : Exec (Full.Step ω) (Full.new d st) tr s) {c : Nat} (hr : .line c (.readErr 2) ∈ tr) :
    (∃ i, .closeWon i ∈ lineOf c tr) ∨ .client .gone ∈ lineOf c tr := by
  obtain ⟨before, after, rfl⟩ := List.append_of_mem hr
  rw [show before ++ Full.Ev.line c (.readErr 2) :: after = (before ++ [.line c (.readErr 2)]) ++ after by simp] at h
  obtain ⟨s2, h2, -⟩ := h.split
  obtain ⟨s1, h1, hs⟩ := h2.split_snoc
  have hx := (full_exec h1).2 c
  rw [lineOf_append]
  have : (∃ i, .closeWon i ∈ lineOf c before) ∨ .client .gone ∈ lineOf c before := by
    cases hs with
    | cut _ _ _ hc _ =>
      rcases hc with hc | hc
      · refine .inl ((connInv hx).flag.1 ?_)
        by_contra hf
        rw [((connInv hx).fresh (by simpa using hf)).2.1] at hc
        cases hc
      · exact .inr (gone_said hx hc)
    | own _ _ _ _ _ h0 => cases h0
  rcases this with ⟨i, h⟩ | h
  · exact .inl ⟨i, List.mem_append_left _ h⟩
  · exact .inr (List.mem_append_left _ h)

/-- C82: a crash is the last thing that happens, at the connections, too. -/
theorem C82_last {before after : List Full.Ev} {e : Net.Ev} (he : (∃ c, e = .feed c .crash) ∨ ∃ n env, e = .pipe (.crash n env))
    (h : Exec (Full.Step ω) (Full.new d st) (before ++ .whole (.net e) :: after) s) : after = [] := by
  refine h.last (fun s => ¬ s.up) ?_ ?_
  · intro s s' hs hu
    have hw : Whole.Step ω s.whole (.net e) s'.whole := exec_single (full_step hs).1
    obtain ⟨u1, u2⟩ := hu
    generalize s'.whole = w at hw u1 u2
    rcases he with ⟨c, rfl⟩ | ⟨n, env, rfl⟩
    · cases hw with
      | feed _ _ x _ _ _ ha _ => simp [Net.aside] at ha
      | kill => cases u1
    · cases hw with
      | pass _ h _ hb _ => simp [Whole.between] at hb
      | crash _ _ h _ _ hp => cases hp; cases u2
  · intro s e s' hd hs
    refine hd ?_
    cases hs with
    | whole _ _ _ h | read _ _ _ _ _ h => exact whole_up h
    | send _ _ _ _ _ _ h => exact whole_up h
    | finish _ _ _ _ _ h => exact whole_up h
    | kill _ _ _ h => exact whole_up h
    | wrote _ _ _ _ _ h | fail _ _ _ _ _ h => exact whole_up h
    | refuse _ _ _ _ _ _ h => exact whole_up h
    | readCall _ _ h | cut _ _ h | closeCall _ _ h | writeCall _ _ _ _ h | own _ _ _ h => exact h

/-- C82: whatever clients of the server of C70 can see, as long as no reply is refused, they can also see here, with no connection ever closed. -/
theorem C82_open {tr : List Net.Ev} {n : Net.Sys} (h : Exec Net.Step (Net.new st) tr n) (hr : ∀ c k, .pipe (.refused c k) ∉ tr) :
    ∃ tr' s, Exec (Full.Step ω) (Full.new d st) tr' s ∧ seenIn tr' = tr ∧ s.whole.out = n.out ∧ s.whole.hub.db = n.pipe.db ∧
      ∀ c, Open (s.lines c) ∧ ∀ x ∈ lineOf c tr', smooth x = true := by
  obtain ⟨ls, w, h1, h2, -, h3⟩ := whole_quiet (ω := ω) (d := d) h
  have hopen : ∀ c, Open ((Full.new d st).lines c) := fun c => ⟨rfl, rfl, rfl⟩
  obtain ⟨es, s, g1, g2, rfl, g4, -, g6⟩ := lift_exec (ω := ω) (d := d) (st := st) .nil h1 (fun c k hm => hr c k (by rw [← h2]; exact mem_netOf.2 hm)) (fun _ _ c _ => hopen c)
  exact ⟨es, s, g1, by rw [seenIn, g2, h2], h3.out.symm, h3.sim.db.symm, fun c => ⟨g4 c (hopen c), g6 c⟩⟩

theorem seen_exec {w w' : Whole.Sys} {n : Net.Sys} {ls : List Whole.Ev} (hs : Seen st w n) (hx : Exec (Whole.Step ω) w ls w') :
    ∃ n', Exec Net.Step n (netOf ls) n' ∧ Seen st w' n' := by
  refine hx.inv (P := fun ls w' => ∃ n', Exec Net.Step n (netOf ls) n' ∧ Seen st w' n') ⟨n, .nil, hs⟩ ?_
  rintro ls w1 l w2 - ⟨n1, h1, h2⟩ hst
  obtain ⟨n2, g1, g2⟩ := seen_step h2 hst
  exact ⟨n2, by rw [netOf_append]; exact h1.append g1, g2⟩

theorem netOf_cut {ls : List Whole.Ev} {e : Net.Ev} (h : netOf ls = [e]) : ∃ a b, ls = a ++ .net e :: b ∧ netOf a = [] := by
  obtain ⟨a, x, b, rfl, h1, h2, -⟩ := List.filterMap_eq_cons_iff.1 h
  refine ⟨a, b, ?_, List.filterMap_eq_nil_iff.2 h1⟩
  cases x <;> simp only [Option.some.injEq, reduceCtorEq] at h2
  subst h2
  rfl

/-- What does not touch a socket can happen whatever the connections are like. -/
theorem lift_apart (h : Exec (Full.Step ω) (Full.new d st) tr s) {ls : List Whole.Ev} {w : Whole.Sys} (hx : Exec (Whole.Step ω) s.whole ls w)
    (ht : ∀ e ∈ ls, touches e = none) : ∃ es s', Exec (Full.Step ω) s es s' ∧ wholeOf es = ls ∧ s'.whole = w ∧ ∀ c, s'.lines c = s.lines c := by
  obtain ⟨es, s', g1, g2, g3, -, g4, -⟩ := lift_exec h hx (fun c n hm => by simpa [touches] using ht _ hm) (fun e he c hc => by rw [ht e he] at hc; cases hc)
  exact ⟨es, s', g1, g2, g3, fun c => g4 c fun e he => by rw [ht e he]; nofun⟩

/-- What clients can see of the server of C70 they can see here, as long as only open connections are concerned and no reply is refused. -/
theorem net_lift (h : Exec (Full.Step ω) (Full.new d st) tr s) {n n' : Net.Sys} (hn : Seen st s.whole n) {ls : List Net.Ev} (hx : Exec Net.Step n ls n')
    (hr : ∀ c k, .pipe (.refused c k) ∉ ls) (ho : ∀ e ∈ ls, ∀ c, touches (.net e) = some c → Open (s.lines c)) :
    ∃ es s', Exec (Full.Step ω) s es s' ∧ seenIn es = ls ∧ Seen st s'.whole n' ∧ ∀ c, Open (s.lines c) → Open (s'.lines c) := by
  have back : ∃ lw w', Exec (Whole.Step ω) s.whole lw w' ∧ netOf lw = ls ∧ Seen st w' n' := by
    refine hx.inv (P := fun ls n' => ∃ lw w', Exec (Whole.Step ω) s.whole lw w' ∧ netOf lw = ls ∧ Seen st w' n') ⟨[], _, .nil, rfl, hn⟩ ?_
    rintro ls n1 e n2 - ⟨lw, w1, h1, h2, h3⟩ hst
    obtain ⟨lw', w2, g1, g2, -, g4⟩ := seen_back (ω := ω) h3 hst
    exact ⟨lw ++ lw', w2, h1.append g1, by rw [netOf_append, h2, g2], g4⟩
  obtain ⟨lw, w', b1, rfl, b3⟩ := back
  obtain ⟨es, s', g1, g2, rfl, g4, -⟩ := lift_exec h b1 (fun c k hm => hr c k (mem_netOf.2 hm)) (fun e he c hc => by
    cases e with
    | net e => exact ho e (mem_netOf.2 he) c hc
    | _ => cases hc)
  exact ⟨es, s', g1, by rw [seenIn, g2], b3, g4⟩

/-- Clients 7 and 8 ask for a key each; both requests are executed, and the reply to the first is queued. -/
abbrev twoAsked : List Net.Ev := [.pipe (.connected 7), .pipe (.connected 8), .feed 7 (.arrived getBytes), .feed 8 (.arrived getBytes),
  .read 7 0 (.array (req [b!"get", b!"k"])), .read 8 1 (.array (req [b!"get", b!"k"])), .pipe (.taken 0), .pipe (.executed 0 env0 .nullBulk), .pipe (.taken 1),
  .pipe (.executed 1 env0 .nullBulk), .pipe (.queued 0)]

theorem two_asked : ∃ n n', Exec Net.Step (Net.new State.empty) twoAsked n ∧ n.pipe.worker = none ∧ n.pipe.crashed = false ∧ n.dead = false ∧
    Net.Step n (.pipe (.answering 0)) n' ∧ n'.dead = false ∧ n'.pipe.crashed = false ∧ n'.pipe.worker = some (0, 7, b!"$-1\r\n") ∧
    n'.pipe.db = State.empty :=
  ⟨_, _,
    .cons (.pipe _ _ rfl rfl (.connect 7 b!"a" rfl rfl (fun _ => by simp [Net.new, Pipe.new])))
    (.cons (.pipe _ _ rfl rfl (.connect 8 b!"b" rfl rfl (fun c => by simp only [Net.new, Pipe.new, upd]; split <;> simp)))
    (.cons (.feed 7 _ _ rfl rfl (by simp [upd]) rfl (.arrive _ rfl))
    (.cons (.feed 8 _ _ rfl rfl (by simp [upd]) rfl (.arrive _ rfl))
    (.cons (.read 7 0 _ _ _ rfl (.read _ [] rfl getBytes_parse) (.read 7 b!"a" _ rfl rfl))
    (.cons (.read 8 1 _ _ _ rfl (.read _ [] rfl getBytes_parse) (.read 8 b!"b" _ rfl rfl))
    (.cons (.pipe _ _ rfl rfl (.take 0 _ [_] [] rfl rfl rfl))
    (.cons (.pipe _ _ rfl rfl (.execute 0 _ b!"a" (req [b!"get", b!"k"]) env0 State.empty .nullBulk rfl rfl rfl rfl))
    (.cons (.pipe _ _ rfl rfl (.take 1 _ [] [] rfl rfl rfl))
    (.cons (.pipe _ _ rfl rfl (.execute 1 _ b!"b" (req [b!"get", b!"k"]) env0 State.empty .nullBulk rfl rfl rfl rfl))
    (.one (.pipe _ _ rfl rfl (.queue 0 _ [_] [] rfl rfl (Nat.zero_lt_succ 99))))))))))))),
    rfl, rfl, rfl, .pipe _ _ rfl rfl (.answer 0 _ [] b!"a" .nullBulk 7 rfl rfl rfl rfl rfl), rfl, rfl, rfl, rfl⟩

/-- The response worker is about to write to client 7, whose connection, like that of client 8, is open. -/
theorem about_to_write (ω : Nat → Nat) (d : Bytes) : ∃ tr s, Exec (Full.Step ω) (Full.new d State.empty) tr s ∧ seenIn tr = twoAsked ++ [.pipe (.answering 0)] ∧ s.up ∧
    s.whole.hub.worker = .writing 0 7 b!"$-1\r\n" ∧ Open (s.lines 7) ∧ Open (s.lines 8) ∧ (s.lines 7).pcs 1 = .idle ∧
    s.whole.hub.db = State.empty ∧ s.whole.hub.conns 7 ≠ none := by
  obtain ⟨n, n', x1, x2, x3, x4, x5, x6, x7, x8, x9⟩ := two_asked
  have hopen : ∀ c, Open ((Full.new d State.empty).lines c) := fun c => ⟨rfl, rfl, rfl⟩
  obtain ⟨es, s, g1, g2, g3, g4⟩ := net_lift (ω := ω) (d := d) .nil seen_new x1 (by simp) (fun _ _ c _ => hopen c)
  have hidle : (s.lines 7).pcs 1 = .idle := by
    rcases (lineInv g1 7).writer with h | ⟨b, k, -, h⟩
    · exact h
    · have := g3.sim.worker
      rw [h] at this
      simp only [x2] at this
      cases this
  have hw : Net.Step n' (.pipe (.wrote 7 0 b!"$-1\r\n")) _ := .pipe _ _ x6 rfl (.write 0 7 _ x7 x8)
  obtain ⟨lw, w1, b1, b2, -, b4⟩ := seen_back (ω := ω) g3 x5
  obtain ⟨lw', w2, b5, b6, -, -⟩ := seen_back (ω := ω) b4 hw
  obtain ⟨a, rest, rfl, ha⟩ := netOf_cut b6
  obtain ⟨w3, c1, c2⟩ := b5.split
  obtain ⟨w4, c2, -⟩ := Exec.split (before := [Whole.Ev.net (.pipe (.wrote 7 0 b!"$-1\r\n"))]) c2
  have c2 := exec_single c2
  obtain ⟨es2, s2, q1, q2, rfl, q4⟩ := lift_apart g1 (b1.append c1) (by
    intro x hx
    cases x with
    | net y =>
      have : y ∈ netOf (lw ++ a) := mem_netOf.2 hx
      rw [netOf_append, b2, ha, List.append_nil, List.mem_singleton] at this
      subst this
      rfl
    | _ => rfl)
  refine ⟨es ++ es2, s2, g1.append q1, ?_, whole_up c2, (whole_wrote c2).1, ?_, ?_, ?_, ?_, writing_conn (g1.append q1) (whole_wrote c2).1⟩
  · rw [seenIn_append, g2, seenIn, q2, netOf_append, b2, ha]; rfl
  · rw [q4]; exact g4 7 (hopen 7)
  · rw [q4]; exact g4 8 (hopen 8)
  · rw [q4]; exact hidle
  · obtain ⟨n2, m1, m2⟩ := seen_exec b4 c1
    rw [ha] at m1
    have := exec_none m1
    subst this
    rw [← m2.sim.db, x9]

/-- The hypotheses of `C82_wire`, `C82_closed`, `C82_last_request` and `C82_refused` can be met: the connection of client 7 expires and is closed while the
response worker is about to write to it; the reply is refused. -/
example (ω : Nat → Nat) (d : Bytes) : ∃ before s, Exec (Full.Step ω) (Full.new d State.empty) (before ++ .line 7 .expired :: [.line 7 (.closeWon 0),
    .both (.net (.pipe (.refused 7 0))) 7 (.writeClosed 1 b!"$-1\r\n")]) s ∧ seenIn before = twoAsked ++ [.pipe (.answering 0)] := by
  obtain ⟨tr, s, h1, h2, h3, h4, h5, h6, h7, h8, h9⟩ := about_to_write ω d
  have s1 := Full.Step.own (ω := ω) 7 .expired _ h3 h9 rfl (.expire h5.worker)
  have s2 := Full.Step.own (ω := ω) (s := { s with lines := upd s.lines 7 { s.lines 7 with worker := .expired, pcs := upd (s.lines 7).pcs 0 .closeStart } }) 7 (.closeWon 0)
    _ h3 h9 rfl (.closeWon 0 (by simp [upd]) (by simpa [upd] using h5.flag))
  simp only [upd_same, upd_upd] at s2
  have s3 := Full.Step.refuse (ω := ω) (s := { s with lines := upd s.lines 7 { s.lines 7 with worker := .expired, flag := true, pcs := upd (s.lines 7).pcs 0 .farewell } })
    0 7 b!"$-1\r\n" _ _ h4 (.pass _ _ h3.1 rfl (.refuse 0 7 _ h3.2 h4)) (.writeClosed 1 _ (by decide) (by simpa [upd] using h7) (by simp [upd]))
  have hx := ((h1.snoc s1).snoc s2).snoc s3
  rw [List.append_assoc, List.append_assoc] at hx
  exact ⟨tr, _, hx, h2⟩

/-- Those of `C82_heard` can be met: the client goes away while the server waits for a request. -/
example (ω : Nat → Nat) (d : Bytes) : ∃ tr s, Exec (Full.Step ω) (Full.new d State.empty) tr s ∧ .line 7 (.readErr 2) ∈ tr := by
  refine ⟨[.whole (.net (.pipe (.connected 7))), .line 7 (.readCall 2), .line 7 (.readReset 2), .line 7 (.client .gone), .line 7 (.readErr 2)], _,
    .cons (.whole _ _ rfl (.pass (.connected 7) _ rfl rfl (.connect 7 b!"a" rfl rfl (fun _ => by simp [Full.new, Whole.new, Hub.new]))))
    (.cons (.readCall 7 _ ⟨rfl, rfl⟩ (by simp [upd]) rfl rfl (.readCall 2 (by decide) rfl))
    (.cons (.own 7 _ _ ⟨rfl, rfl⟩ (by simp [upd]) rfl (.readReset 2 rfl rfl))
    (.cons (.own 7 _ _ ⟨rfl, rfl⟩ (by simp [upd]) rfl (.client .gone reads_ne'))
    (.one (.cut 7 _ ⟨rfl, rfl⟩ (.inr rfl) (.readErr 2 rfl)))))), by simp⟩

/-- Those of `C82_last` can be met: client 7 connects and sends bytes that kill the process. -/
example (ω : Nat → Nat) (d : Bytes) : ∃ before s, Exec (Full.Step ω) (Full.new d State.empty) (before ++ .whole (.net (.feed 7 .crash)) :: []) s :=
  ⟨[.whole (.net (.pipe (.connected 7))), .whole (.net (.feed 7 (.arrived b!"*1\r\n$-2\r\n"))), .line 7 (.readCall 2), .line 7 (.readReset 2)], _,
    .cons (.whole _ _ rfl (.pass (.connected 7) _ rfl rfl (.connect 7 b!"a" rfl rfl (fun _ => by simp [Full.new, Whole.new, Hub.new]))))
    (.cons (.send 7 _ _ rfl rfl reads_ne' (.feed 7 _ _ rfl rfl (by simp [upd]) rfl (.arrive _ rfl)))
    (.cons (.readCall 7 _ ⟨rfl, rfl⟩ (by simp [upd]) rfl rfl (.readCall 2 (by decide) rfl))
    (.cons (.own 7 _ _ ⟨rfl, rfl⟩ (by simp [upd]) rfl (.readReset 2 rfl rfl))
    (.one (.kill 7 _ rfl (.kill 7 _ rfl rfl (by simp [upd]) (.crash rfl rfl)))))))⟩

/-- Those of `C82_open` can be met, too. -/
example : ∃ n, Exec Net.Step (Net.new State.empty) netTrace n ∧ ∀ c k, .pipe (.refused c k) ∉ netTrace := by
  obtain ⟨n, h⟩ := net_sample
  exact ⟨n, h, by simp⟩

end Verif.Props
