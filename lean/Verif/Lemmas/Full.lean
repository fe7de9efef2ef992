import Verif.Spec.Full
import Verif.Props.Whole
import Verif.Props.Conn

/-! Invariants of the whole server with its connections. -/

namespace Verif

open Spec
open Fut (upd)

variable {ω : Nat → Nat} {d : Bytes} {st : State}

theorem wholeOf_append (a b : List Full.Ev) : wholeOf (a ++ b) = wholeOf a ++ wholeOf b := List.filterMap_append

theorem lineOf_append (c : Nat) (a b : List Full.Ev) : lineOf c (a ++ b) = lineOf c a ++ lineOf c b := List.filterMap_append

theorem mem_lineOf {c : Nat} {x : Conn.Ev} {tr : List Full.Ev} : x ∈ lineOf c tr ↔ .line c x ∈ tr ∨ ∃ e, .both e c x ∈ tr := by
  simp only [lineOf, List.mem_filterMap]
  constructor
  · rintro ⟨y, hy, hx⟩
    cases y <;> simp only [Option.ite_none_right_eq_some, Option.some.injEq, reduceCtorEq] at hx
    · obtain ⟨rfl, rfl⟩ := hx; exact .inl hy
    · obtain ⟨rfl, rfl⟩ := hx; exact .inr ⟨_, hy⟩
  · rintro (h | ⟨e, h⟩)
    · exact ⟨_, h, by simp⟩
    · exact ⟨_, h, by simp⟩

theorem mem_wholeOf {e : Whole.Ev} {tr : List Full.Ev} : e ∈ wholeOf tr ↔ .whole e ∈ tr ∨ ∃ c x, .both e c x ∈ tr := by
  simp only [wholeOf, List.mem_filterMap]
  constructor
  · rintro ⟨y, hy, hx⟩
    cases y <;> simp only [Option.some.injEq, reduceCtorEq] at hx
    · subst hx; exact .inl hy
    · subst hx; exact .inr ⟨_, _, hy⟩
  · rintro (h | ⟨c, x, h⟩)
    · exact ⟨_, h, rfl⟩
    · exact ⟨_, h, rfl⟩

/-- One connection within the server. -/
structure LineInv (s : Full.Sys) (c : Nat) : Prop where
  reader : (s.lines c).pcs 2 = .idle ∨ (s.lines c).pcs 2 = .readReset ∨ (s.lines c).pcs 2 = .reading
  reads : (s.lines c).pcs 2 ≠ .idle → s.up → (s.whole.feeds c).pc = .reading ∧ s.cut c = false
  writer : (s.lines c).pcs 1 = .idle ∨ ∃ b n, ((s.lines c).pcs 1 = .writeReset b ∨ (s.lines c).pcs 1 = .writing b) ∧ s.whole.hub.worker = .writing n c b
  others : ∀ i, i ≠ 1 → i ≠ 2 → (s.lines c).pcs i = .idle ∨ (s.lines c).pcs i = .closeStart ∨ Conn.closing ((s.lines c).pcs i) = true
  cut : s.cut c = true → (s.lines c).sock = true ∨ (s.lines c).client = .gone
  started : (s.lines c).pcs 3 ≠ .idle → (s.whole.feeds c).pc = .left

theorem whole_up {w w' : Whole.Sys} {e : Whole.Ev} (hs : Whole.Step ω w e w') : w.dead = false ∧ w.hub.crashed = false := by
  have hp : ∀ e p, Hub.Step w.hub e p → w.hub.crashed = false := fun e p hp => by cases hp <;> assumption
  cases hs with
  | feed c e x h1 h2 | kill c x h1 h2 | record q b a h1 h2 | flush h1 h2 => exact ⟨h1, h2⟩
  | receive n m id q h1 h2 => exact ⟨h1, h2⟩
  | read c n o x p h1 _ h2 | bus e p h1 _ h2 | pass e p h1 _ h2 | execute n env r p h1 _ h2 | crash n env p h1 _ h2 => exact ⟨h1, hp _ _ h2⟩

/-- What does not touch a socket leaves readers and a writing worker alone. -/
theorem whole_apart {w w' : Whole.Sys} {e : Whole.Ev} (hs : Whole.Step ω w e w') (he : Full.apart e = true) :
    w'.feeds = w.feeds ∧ ∀ n c b, w.hub.worker = .writing n c b → w'.hub.worker = .writing n c b := by
  cases hs with
  | feed | kill | read => simp [Full.apart] at he
  | receive | record | flush => exact ⟨rfl, fun _ _ _ h => h⟩
  | bus e h _ h1 h2 => refine ⟨rfl, ?_⟩; cases h2 <;> simp_all [Whole.hidden]
  | pass e h _ h1 h2 => refine ⟨rfl, ?_⟩; cases h2 <;> simp_all [Whole.between, Full.apart]
  | execute _ _ _ h _ _ h2 | crash _ _ h _ _ h2 => refine ⟨rfl, ?_⟩; cases h2; simp

theorem whole_feed {w w' : Whole.Sys} {c : Nat} {e : Feed.Ev} (hs : Whole.Step ω w (.net (.feed c e)) w') :
    w.hub.conns c ≠ none ∧ ∃ x, Feed.Step (w.feeds c) e x ∧ w' = { w with feeds := upd w.feeds c x, dead := w'.dead } ∧ (e ≠ .crash → w'.dead = w.dead) ∧
      (e = .crash → w'.dead = true) := by
  cases hs with
  | feed _ _ x _ _ h1 h2 h3 => exact ⟨h1, x, h3, rfl, fun _ => rfl, fun h => by subst h; simp [Net.aside] at h2⟩
  | kill _ x _ _ h1 h2 => exact ⟨h1, x, h2, rfl, fun h => absurd rfl h, fun _ => rfl⟩

theorem whole_read {w w' : Whole.Sys} {c n : Nat} {o : Resp} (hs : Whole.Step ω w (.net (.read c n o)) w') :
    ∃ x h, Feed.Step (w.feeds c) (.read o) x ∧ Hub.Step w.hub (.seen (.read c n o)) h ∧ w' = { w with feeds := upd w.feeds c x, hub := h } := by
  cases hs with
  | read _ _ _ x h _ h1 h2 => exact ⟨x, h, h1, h2, rfl⟩

theorem whole_wrote {w w' : Whole.Sys} {c n : Nat} {b : Bytes} (hs : Whole.Step ω w (.net (.pipe (.wrote c n b))) w') :
    w.hub.worker = .writing n c b ∧ w' = { w with hub := { w.hub with worker := .away }, out := upd w.out c (w.out c ++ b) } := by
  cases hs with
  | pass _ h _ h1 h2 => cases h2 with | write _ _ _ _ h3 => exact ⟨h3, rfl⟩

theorem whole_refused {w w' : Whole.Sys} {c n : Nat} (hs : Whole.Step ω w (.net (.pipe (.refused c n))) w') :
    (∃ b, w.hub.worker = .writing n c b) ∧ w' = { w with hub := { w.hub with worker := .away } } := by
  cases hs with
  | pass _ h _ h1 h2 => cases h2 with | refuse _ _ b _ h3 => exact ⟨⟨b, h3⟩, rfl⟩

theorem lineInv_new (c : Nat) : LineInv (Full.new d st) c := by
  constructor <;> simp [Full.new, Conn.new]

theorem upd_same {α : Type} (f : Nat → α) (i : Nat) (v : α) : upd f i v i = v := by simp [upd]

theorem upd_self {α : Type} {f : Nat → α} {i : Nat} {v : α} (h : f i = v) : upd f i v = f := by
  funext j; simp only [upd]; split
  · subst_vars; rfl
  · rfl

theorem upd_upd {α : Type} (f : Nat → α) (i : Nat) (v w : α) : upd (upd f i v) i w = upd f i w := by
  funext j; simp only [upd]; split <;> rfl

theorem upd_other {α : Type} (f : Nat → α) {i j : Nat} (v : α) (h : j ≠ i) : upd f i v j = f j := by simp [upd, h]

/-- Nothing that matters to connection `c` has changed. -/
theorem LineInv.same {s s' : Full.Sys} {c : Nat} (h : LineInv s c) (h1 : s'.lines c = s.lines c) (h2 : s'.cut c = s.cut c)
    (h3 : s'.up → s.up ∧ (s'.whole.feeds c).pc = (s.whole.feeds c).pc)
    (h5 : ∀ n b, s.whole.hub.worker = .writing n c b → s'.whole.hub.worker = .writing n c b)
    (h6 : (s.whole.feeds c).pc = .left → (s'.whole.feeds c).pc = .left) : LineInv s' c := by
  obtain ⟨i1, i2, i3, i4, i6, i7⟩ := h
  refine ⟨by rwa [h1], fun h hu => ?_, ?_, by rwa [h1], by rwa [h1, h2], fun h => h6 (i7 (by rwa [← h1]))⟩
  · rw [h1] at h
    rw [(h3 hu).2, h2]
    exact i2 h (h3 hu).1
  · rw [h1]
    rcases i3 with h | ⟨b, n, h, h'⟩
    · exact .inl h
    · exact .inr ⟨b, n, h, h5 _ _ h'⟩

theorem LineInv.idle {s : Full.Sys} {c : Nat} (h : LineInv s c) {n c' : Nat} {b : Bytes} (hw : s.whole.hub.worker = .writing n c' b) (hc : c ≠ c') :
    ∀ n b, s.whole.hub.worker ≠ .writing n c b := by
  intro n b hw'
  rw [hw] at hw'
  cases hw'
  exact hc rfl

theorem LineInv.line {s : Full.Sys} {c : Nat} (h : LineInv s c) {c' : Nat} {x : Conn.Sys} {k : Bool} (hc : c ≠ c') :
    LineInv { s with lines := upd s.lines c' x, cut := upd s.cut c' k } c :=
  h.same (upd_other _ _ hc) (upd_other _ _ hc) (fun h => ⟨h, rfl⟩) (fun _ _ h => h) id

theorem LineInv.line' {s : Full.Sys} {c : Nat} (h : LineInv s c) {c' : Nat} {x : Conn.Sys} (hc : c ≠ c') :
    LineInv { s with lines := upd s.lines c' x } c :=
  h.same (upd_other _ _ hc) rfl (fun h => ⟨h, rfl⟩) (fun _ _ h => h) id

set_option maxHeartbeats 1000000 in
theorem lineInv_step {s s' : Full.Sys} {e : Full.Ev} (hall : ∀ c, LineInv s c) (hs : Full.Step ω s e s') (c : Nat) : LineInv s' c := by
  have hi := hall c
  cases hs with
  | whole e w h1 h2 =>
    obtain ⟨g1, g2⟩ := whole_apart h2 h1
    refine hi.same rfl rfl (fun _ => ⟨whole_up h2, by rw [← g1]⟩) (fun _ _ h => g2 _ _ _ h) ?_
    show _ → (w.feeds c).pc = _
    rw [g1]; exact id
  | send c' e w h1 h2 h3 h4 =>
    obtain ⟨g1, x, g2, g3, g4, g5⟩ := whole_feed h4
    have hpc : x.pc = (s.whole.feeds c').pc := by cases g2 <;> first | rfl | cases h1
    have hpc' : (w.feeds c).pc = (s.whole.feeds c).pc := by
      rw [g3]; show (upd s.whole.feeds c' x c).pc = _
      by_cases hc : c = c'
      · subst hc; rw [upd_same, hpc]
      · rw [upd_other _ _ hc]
    have hh : w.hub = s.whole.hub := by rw [g3]
    exact hi.same rfl rfl (fun _ => ⟨whole_up h4, hpc'⟩)  (by show ∀ n b, _ → w.hub.worker = _; rw [hh]; exact fun _ _ h => h) (by show _ → (w.feeds c).pc = _; rw [hpc']; exact id)
  | readCall c' x h1 h2 h3 h4 h5 =>
    by_cases hc : c = c'
    · subst hc
      obtain ⟨i1, i2, i3, i4, i6, i7⟩ := hi
      cases h5
      constructor <;> simp only [upd_same] <;> grind [upd]
    · exact hi.line' hc
  | read c' n o w x h1 h2 =>
    obtain ⟨f, h, g1, g2, rfl⟩ := whole_read h1
    have hu := whole_up h1
    have hpc : f.pc = (s.whole.feeds c').pc := by cases g1; rfl
    have hw : h.worker = s.whole.hub.worker := by cases g2; rfl
    by_cases hc : c = c'
    · subst hc
      obtain ⟨i1, i2, i3, i4, i6, i7⟩ := hi
      cases h2
      constructor <;> simp only [upd_same] <;> grind [upd]
    · exact hi.same (upd_other _ _ hc) rfl (fun _ => ⟨hu, by simp only [upd_other _ _ hc]⟩) (by simp only [hw]; exact fun _ _ h => h)
        (by simp only [upd_other _ _ hc]; exact id)
  | finish c' e w x h1 h2 h3 =>
    obtain ⟨g1, f, g2, g3, g4, g5⟩ := whole_feed h2
    have hu := whole_up h2
    have hh : w.hub = s.whole.hub := by rw [g3]
    have hf : w.feeds = upd s.whole.feeds c' f := by rw [g3]
    have hpc : (f.pc = .stopped ∨ f.pc = .left) ∧ (s.whole.feeds c').pc = .reading := by cases g2 <;> first | (simp [Full.ends] at h1; done) | (refine ⟨?_, by assumption⟩; simp)
    by_cases hc : c = c'
    · subst hc
      obtain ⟨i1, i2, i3, i4, i6, i7⟩ := hi
      cases h3
      constructor <;> simp only [upd_same, hh, hf] <;> grind [upd]
    · exact hi.same (upd_other _ _ hc) rfl (fun _ => ⟨hu, by simp only [hf, upd_other _ _ hc]⟩)
        (by simp only [hh]; exact fun _ _ h => h) (by simp only [hf, upd_other _ _ hc]; exact id)
  | kill c' w h1 h2 =>
    obtain ⟨g1, f, g2, g3, g4, g5⟩ := whole_feed h2
    have hu := whole_up h2
    have hh : w.hub = s.whole.hub := by rw [g3]
    have hf : w.feeds = upd s.whole.feeds c' f := by rw [g3]
    have hpr : (s.whole.feeds c').pc = .reading := by cases g2; assumption
    have hd := g5 rfl
    by_cases hc : c = c'
    · subst hc
      exact hi.same rfl rfl (fun h => by have := h.1; rw [hd] at this; cases this)
        (by simp only [hh]; exact fun _ _ h => h) (by rw [hpr]; intro h; cases h)
    · exact hi.same rfl rfl (fun _ => ⟨hu, by simp only [hf, upd_other _ _ hc]⟩)
        (by simp only [hh]; exact fun _ _ h => h) (by simp only [hf, upd_other _ _ hc]; exact id)
  | cut c' x h1 h2 h3 =>
    by_cases hc : c = c'
    · subst hc
      obtain ⟨i1, i2, i3, i4, i6, i7⟩ := hi
      cases h3
      constructor <;> simp only [upd_same] <;> grind [upd, Conn.new]
    · exact hi.line hc
  | closeCall c' x h1 h2 h3 h4 =>
    by_cases hc : c = c'
    · subst hc
      obtain ⟨i1, i2, i3, i4, i6, i7⟩ := hi
      cases h4
      constructor <;> simp only [upd_same] <;> grind [upd]
    · exact hi.line' hc
  | writeCall n c' b x h1 h2 h3 =>
    by_cases hc : c = c'
    · subst hc
      obtain ⟨i1, i2, i3, i4, i6, i7⟩ := hi
      cases h3
      constructor <;> simp only [upd_same] <;> grind [upd]
    · exact hi.line' hc
  | wrote n c' b w x h1 h2 =>
    obtain ⟨g1, rfl⟩ := whole_wrote h1
    by_cases hc : c = c'
    · subst hc
      obtain ⟨i1, i2, i3, i4, i6, i7⟩ := hi
      cases h2
      constructor <;> simp only [upd_same] <;> grind [upd, Full.Sys.up]
    · exact hi.same (upd_other _ _ hc) rfl (fun h => ⟨h, rfl⟩) (fun _ _ h => absurd h (hi.idle g1 hc _ _)) id
  | refuse n c' b w x h1 h2 h3 =>
    obtain ⟨⟨b', g1⟩, rfl⟩ := whole_refused h2
    by_cases hc : c = c'
    · subst hc
      obtain ⟨i1, i2, i3, i4, i6, i7⟩ := hi
      cases h3
      constructor <;> simp only [upd_same] <;> grind [upd, Full.Sys.up]
    · exact hi.same (upd_other _ _ hc) rfl (fun h => ⟨h, rfl⟩) (fun _ _ h => absurd h (hi.idle g1 hc _ _)) id
  | fail n c' b w x h1 h2 =>
    obtain ⟨⟨b', g1⟩, rfl⟩ := whole_refused h1
    by_cases hc : c = c'
    · subst hc
      obtain ⟨i1, i2, i3, i4, i6, i7⟩ := hi
      cases h2 <;> constructor <;> simp only [upd_same] <;> grind [upd, Full.Sys.up]
    · exact hi.same (upd_other _ _ hc) rfl (fun h => ⟨h, rfl⟩) (fun _ _ h => absurd h (hi.idle g1 hc _ _)) id
  | own c' e x h1 h2 h3 h4 =>
    by_cases hc : c = c'
    · subst hc
      obtain ⟨i1, i2, i3, i4, i6, i7⟩ := hi
      cases h4 <;> first | (simp [Full.own] at h3; done) | (constructor <;> simp only [upd_same] <;> grind [upd, Conn.closing])
    · exact hi.line' hc

theorem lineInv {tr : List Full.Ev} {s : Full.Sys} (h : Exec (Full.Step ω) (Full.new d st) tr s) (c : Nat) : LineInv s c :=
  h.inv (P := fun _ s => ∀ c, LineInv s c) lineInv_new (fun _ _ _ _ _ ih hs => lineInv_step ih hs) c

theorem full_step {s s' : Full.Sys} {e : Full.Ev} (hs : Full.Step ω s e s') :
    Exec (Whole.Step ω) s.whole (wholeOf [e]) s'.whole ∧ ∀ c, Exec Conn.Step (s.lines c) (lineOf c [e]) (s'.lines c) := by
  have hl : ∀ c x, Conn.Step (s.lines c) x (s'.lines c) → (∀ c', c' ≠ c → s'.lines c' = s.lines c') →
      ∀ c', Exec Conn.Step (s.lines c') (if c = c' then [x] else []) (s'.lines c') := by
    intro c x h1 h2 c'
    by_cases hc : c = c'
    · subst hc; simpa using Exec.one h1
    · rw [h2 c' (Ne.symm hc), if_neg hc]; exact .nil
  have h0 : ∀ (e : Conn.Ev) (c c' : Nat), ([if c = c' then some e else none] : List (Option Conn.Ev)).filterMap id = if c = c' then [e] else [] := by
    intro e c c'; split <;> rfl
  have h1 : ∀ c x c', lineOf c' [.line c x] = if c = c' then [x] else [] := by
    intro c x c'; simp only [lineOf, List.filterMap_cons, List.filterMap_nil]; split <;> simp_all
  have h2 : ∀ w c x c', lineOf c' [.both w c x] = if c = c' then [x] else [] := by
    intro w c x c'; simp only [lineOf, List.filterMap_cons, List.filterMap_nil]; split <;> simp_all
  cases hs with
  | whole _ _ _ h | send _ _ _ _ _ _ h | kill _ _ _ h => exact ⟨.one h, fun _ => .nil⟩
  | readCall c x _ _ _ _ h | cut c x _ _ h | closeCall c x _ _ _ h | writeCall _ c _ x _ _ h | own c _ x _ _ _ h =>
    refine ⟨.nil, ?_⟩
    simp only [h1]
    exact hl c _ (by simpa only [upd_same] using h) (fun c' hc => upd_other _ _ hc)
  | read c _ _ _ x h h' | finish c _ _ x _ h h' | wrote _ c _ _ x h h' | refuse _ c _ _ x _ h h' | fail _ c _ _ x h h' =>
    refine ⟨.one h, ?_⟩
    simp only [h2]
    exact hl c _ (by simpa only [upd_same] using h') (fun c' hc => upd_other _ _ hc)

theorem full_exec {s s' : Full.Sys} {tr : List Full.Ev} (h : Exec (Full.Step ω) s tr s') :
    Exec (Whole.Step ω) s.whole (wholeOf tr) s'.whole ∧ ∀ c, Exec Conn.Step (s.lines c) (lineOf c tr) (s'.lines c) := by
  refine h.inv (P := fun tr s' => Exec (Whole.Step ω) s.whole (wholeOf tr) s'.whole ∧ ∀ c, Exec Conn.Step (s.lines c) (lineOf c tr) (s'.lines c))
    ⟨.nil, fun _ => .nil⟩ ?_
  rintro tr s1 e s2 - ⟨h1, h2⟩ hs
  obtain ⟨g1, g2⟩ := full_step hs
  exact ⟨by rw [wholeOf_append]; exact h1.append g1, fun c => by rw [lineOf_append]; exact (h2 c).append (g2 c)⟩

theorem pipe_writing {tr : List Pipe.Ev} {p : Pipe.Sys} (h : Exec Pipe.Step (Pipe.new st) tr p) : ∀ n c b, p.worker = some (n, c, b) → p.conns c ≠ none := by
  refine h.inv (P := fun _ p => ∀ n c b, p.worker = some (n, c, b) → p.conns c ≠ none) (by simp [Pipe.new]) ?_
  intro tr p e p' hx ih hs
  have hi := (pipeInv hx).ids
  cases hs <;> grind [upd]

/-- The connection being written to is one of the server's. -/
theorem writing_conn {tr : List Full.Ev} {s : Full.Sys} (h : Exec (Full.Step ω) (Full.new d st) tr s) {n c : Nat} {b : Bytes}
    (hw : s.whole.hub.worker = .writing n c b) : s.whole.hub.conns c ≠ none := by
  obtain ⟨k, h1, h2⟩ := Props.whole_net (full_exec h).1
  obtain ⟨-, g2, -⟩ := Props.net_split h1
  have hs := h2.sim.worker
  rw [hw] at hs
  rw [← h2.sim.conns]
  exact pipe_writing g2 n c b hs

theorem open_sock {tr : List Full.Ev} {s : Full.Sys} (h : Exec (Full.Step ω) (Full.new d st) tr s) {c : Nat} (ho : Open (s.lines c)) :
    (s.lines c).sock = false ∧ s.cut c = false := by
  have h1 := ((connInv ((full_exec h).2 c)).fresh ho.flag).2.1
  refine ⟨h1, ?_⟩
  by_contra hc
  rcases (lineInv h c).cut (by simpa using hc) with h2 | h2
  · rw [h1] at h2; cases h2
  · rw [ho.client] at h2; cases h2

/-- In an open connection the reader can get to the socket. -/
theorem to_read {tr : List Full.Ev} {s : Full.Sys} (h : Exec (Full.Step ω) (Full.new d st) tr s) {c : Nat} (ho : Open (s.lines c)) (hu : s.up)
    (hc : s.whole.hub.conns c ≠ none) (hf : (s.whole.feeds c).pc = .reading) :
    ∃ es, Exec (Full.Step ω) s es { s with lines := upd s.lines c { s.lines c with pcs := upd (s.lines c).pcs 2 .reading } } ∧ wholeOf es = [] ∧
      ∀ e ∈ es, ∃ i, e = .line c (.readCall i) ∨ e = .line c (.readReset i) := by
  rcases (lineInv h c).reader with hp | hp | hp
  · refine ⟨[.line c (.readCall 2), .line c (.readReset 2)], .cons (.readCall c _ hu hc hf (open_sock h ho).2 (.readCall 2 (by decide) hp)) (.one ?_), rfl, by simp⟩
    have := Full.Step.own (ω := ω) (s := { s with lines := upd s.lines c { s.lines c with pcs := upd (s.lines c).pcs 2 .readReset } }) c (.readReset 2) _ hu hc rfl
      (.readReset 2 (by simp [upd]) (by simpa [upd] using ho.worker))
    simp only [upd_same, upd_upd] at this
    exact this
  · exact ⟨_, .one (.own c _ _ hu hc rfl (.readReset 2 hp ho.worker)), rfl, by simp⟩
  · refine ⟨[], ?_, rfl, by simp⟩
    rw [upd_self (f := s.lines) (by rw [upd_self hp])]
    exact .nil

/-- In an open connection the response worker can get to the socket. -/
theorem to_write {tr : List Full.Ev} {s : Full.Sys} (h : Exec (Full.Step ω) (Full.new d st) tr s) {n c : Nat} {b : Bytes} (ho : Open (s.lines c)) (hu : s.up)
    (hw : s.whole.hub.worker = .writing n c b) :
    ∃ es, Exec (Full.Step ω) s es { s with lines := upd s.lines c { s.lines c with pcs := upd (s.lines c).pcs 1 (.writing b) } } ∧ wholeOf es = [] ∧
      ∀ e ∈ es, ∃ i, (∃ m, e = .line c (.writeCall i m)) ∨ e = .line c (.writeReset i) := by
  have hc := writing_conn h hw
  rcases (lineInv h c).writer with hp | ⟨b', n', hp, hw'⟩
  · refine ⟨[.line c (.writeCall 1 b), .line c (.writeReset 1)], .cons (.writeCall n c b _ hu hw (.writeCall 1 b (by decide) hp ho.flag)) (.one ?_), rfl, by simp⟩
    have := Full.Step.own (ω := ω) (s := { s with lines := upd s.lines c { s.lines c with pcs := upd (s.lines c).pcs 1 (.writeReset b) } }) c (.writeReset 1) _ hu hc rfl
      (.writeReset 1 b (by simp [upd]) (by simpa [upd] using ho.worker))
    simp only [upd_same, upd_upd] at this
    exact this
  · rw [hw] at hw'
    cases hw'
    rcases hp with hp | hp
    · exact ⟨_, .one (.own c _ _ hu hc rfl (.writeReset 1 b hp ho.worker)), rfl, by simp⟩
    · refine ⟨[], ?_, rfl, by simp⟩
      rw [upd_self (f := s.lines) (by rw [upd_self hp])]
      exact .nil

theorem open_same {x y : Conn.Sys} (h : Open x) (h1 : y.flag = x.flag) (h2 : y.worker = x.worker) (h3 : y.client = x.client) : Open y :=
  ⟨by rw [h1, h.flag], by rw [h2, h.worker], by rw [h3, h.client]⟩

/-- Whatever the server can do at open connections and elsewhere, it can do with its connections in between. -/
theorem lift_step {tr : List Full.Ev} {s : Full.Sys} (h : Exec (Full.Step ω) (Full.new d st) tr s) {e : Whole.Ev} {w : Whole.Sys} (hs : Whole.Step ω s.whole e w)
    (hr : ∀ c n, e ≠ .net (.pipe (.refused c n))) (ho : ∀ c, touches e = some c → Open (s.lines c)) :
    ∃ es s', Exec (Full.Step ω) s es s' ∧ wholeOf es = [e] ∧ s'.whole = w ∧ (∀ c, Open (s.lines c) → Open (s'.lines c)) ∧
      (∀ c, touches e ≠ some c → s'.lines c = s.lines c) ∧ ∀ c, ∀ x ∈ lineOf c es, smooth x = true := by
  have hu := whole_up hs
  have alone : ∀ s', Full.Step ω s (.whole e) s' → s'.whole = w → s'.lines = s.lines →
      ∃ es s', Exec (Full.Step ω) s es s' ∧ wholeOf es = [e] ∧ s'.whole = w ∧ (∀ c, Open (s.lines c) → Open (s'.lines c)) ∧
      (∀ c, touches e ≠ some c → s'.lines c = s.lines c) ∧ ∀ c, ∀ x ∈ lineOf c es, smooth x = true :=
    fun s' h1 h2 h3 => ⟨_, s', .one h1, rfl, h2, by rw [h3]; exact fun _ h => h, by rw [h3]; exact fun _ _ => rfl, by simp [lineOf]⟩
  have reader : ∀ c, touches e = some c → s.whole.hub.conns c ≠ none → (s.whole.feeds c).pc = .reading → ∀ l s',
      Full.Step ω { s with lines := upd s.lines c { s.lines c with pcs := upd (s.lines c).pcs 2 .reading } } l s' → wholeOf [l] = [e] → s'.whole = w →
      (∀ c', c' ≠ c → s'.lines c' = s.lines c') → (s'.lines c).flag = (s.lines c).flag → (s'.lines c).worker = (s.lines c).worker →
      (s'.lines c).client = (s.lines c).client → (∀ c, ∀ x ∈ lineOf c [l], smooth x = true) →
      ∃ es s', Exec (Full.Step ω) s es s' ∧ wholeOf es = [e] ∧ s'.whole = w ∧ (∀ c, Open (s.lines c) → Open (s'.lines c)) ∧
      (∀ c, touches e ≠ some c → s'.lines c = s.lines c) ∧ ∀ c, ∀ x ∈ lineOf c es, smooth x = true := by
    intro c hc hn hp l s' hl hw hs1 hs2 f1 f2 f3 hsm
    obtain ⟨es, g1, g2, g3⟩ := to_read h (ho c hc) hu hn hp
    refine ⟨es ++ [l], s', g1.snoc hl, by rw [wholeOf_append, g2, hw]; rfl, hs1, fun c' h' => ?_, fun c' h' => ?_, ?_⟩
    · by_cases hcc : c' = c
      · subst hcc; exact open_same h' f1 f2 f3
      · rw [hs2 c' hcc]; exact h'
    · exact hs2 c' (by rintro rfl; exact h' hc)
    · intro c' x hx
      rw [lineOf_append, List.mem_append] at hx
      rcases hx with hx | hx
      · rcases mem_lineOf.1 hx with hx | ⟨e, hx⟩ <;> obtain ⟨i, hy | hy⟩ := g3 _ hx <;> cases hy <;> rfl
      · exact hsm c' x hx
  cases hs0 : hs with
  | feed c f x k1 k2 k3 k4 k5 =>
    have ho' := ho c rfl
    by_cases hf : Full.sends f = true
    · exact alone _ (.send c f _ hf (open_sock h ho').1 (by rw [ho'.client]; decide) hs) (by subst_vars; rfl) rfl
    · have he : Full.ends f = true ∧ (s.whole.feeds c).pc = .reading := by
        clear alone reader hs hs0 ho
        cases k5 <;> first | (simp [Full.sends] at hf; done) | (simp [Net.aside] at k4; done) | exact ⟨rfl, by assumption⟩
      refine reader c rfl k3 he.2 _ _ (.finish c f _ _ he.1 hs (.readErr 2 (by simp [upd]))) rfl (by subst_vars; rfl) ?_ ?_ ?_ ?_ ?_
      · intro c' hc'; simp [upd, hc']
      all_goals simp [upd, lineOf, smooth]
  | kill c x k1 k2 k3 k4 =>
    have hp : (s.whole.feeds c).pc = .reading := by cases k4; assumption
    refine reader c rfl k3 hp _ _ (.kill c _ (by simp [upd]) hs) rfl (by subst_vars; rfl) ?_ ?_ ?_ ?_ ?_
    · intro c' hc'; simp [upd, hc']
    all_goals simp [upd, lineOf]
  | read c n o x k k1 k2 k3 =>
    have hp : (s.whole.feeds c).pc = .reading := by cases k2; assumption
    have hn : s.whole.hub.conns c ≠ none := by cases k3; simp_all
    refine reader c rfl hn hp _ _ (.read c n o _ _ hs (.read 2 (by simp [upd]))) rfl (by subst_vars; rfl) ?_ ?_ ?_ ?_ ?_
    · intro c' hc'; simp [upd, hc']
    all_goals simp [upd, lineOf, smooth]
  | bus | receive | execute | crash | record | flush => exact alone _ (.whole _ _ rfl hs) (by subst_vars; rfl) rfl
  | pass f k k1 k2 k3 =>
    by_cases hf : Full.apart (.net (.pipe f)) = true
    · exact alone _ (.whole _ _ hf hs) (by subst_vars; rfl) rfl
    · cases f <;> simp [Full.apart] at hf
      case wrote c n b =>
        have ho' := ho c rfl
        obtain ⟨es, g1, g2, g3⟩ := to_write h ho' hu (whole_wrote hs).1
        refine ⟨es ++ [_], _, g1.snoc (.wrote n c b _ _ hs (.wrote 1 b (by simp [upd]) (by simpa [upd] using (open_sock h ho').1)
          (by simp [upd, ho'.client]))), by rw [wholeOf_append, g2]; rfl, by subst_vars; rfl, fun c' h' => ?_, fun c' h' => ?_, ?_⟩
        · by_cases hcc : c' = c
          · subst hcc; simp only [upd_same]; exact open_same h' rfl rfl rfl
          · simp only [upd_other _ _ hcc]; exact h'
        · have hcc : c' ≠ c := by rintro rfl; exact h' rfl
          simp only [upd_other _ _ hcc]
        · intro c' x hx
          rw [lineOf_append, List.mem_append] at hx
          rcases hx with hx | hx
          · rcases mem_lineOf.1 hx with hx | ⟨e, hx⟩ <;> obtain ⟨i, ⟨m, hy⟩ | hy⟩ := g3 _ hx <;> cases hy <;> rfl
          · rcases mem_lineOf.1 hx with hx | ⟨e, hx⟩ <;> cases List.mem_singleton.1 hx
            rfl
      case refused c n => exact absurd rfl (hr c n)

/-- Likewise for several steps. -/
theorem lift_exec {tr : List Full.Ev} {s : Full.Sys} (h : Exec (Full.Step ω) (Full.new d st) tr s) {ls : List Whole.Ev} {w : Whole.Sys}
    (hx : Exec (Whole.Step ω) s.whole ls w) (hr : ∀ c n, .net (.pipe (.refused c n)) ∉ ls) (ho : ∀ e ∈ ls, ∀ c, touches e = some c → Open (s.lines c)) :
    ∃ es s', Exec (Full.Step ω) s es s' ∧ wholeOf es = ls ∧ s'.whole = w ∧ (∀ c, Open (s.lines c) → Open (s'.lines c)) ∧
      (∀ c, (∀ e ∈ ls, touches e ≠ some c) → s'.lines c = s.lines c) ∧ ∀ c, ∀ x ∈ lineOf c es, smooth x = true := by
  revert hr ho
  refine hx.inv (P := fun ls w => (∀ c n, .net (.pipe (.refused c n)) ∉ ls) → (∀ e ∈ ls, ∀ c, touches e = some c → Open (s.lines c)) →
    ∃ es s', Exec (Full.Step ω) s es s' ∧ wholeOf es = ls ∧ s'.whole = w ∧ (∀ c, Open (s.lines c) → Open (s'.lines c)) ∧
      (∀ c, (∀ e ∈ ls, touches e ≠ some c) → s'.lines c = s.lines c) ∧ ∀ c, ∀ x ∈ lineOf c es, smooth x = true)
    (fun _ _ => ⟨[], s, .nil, rfl, rfl, fun _ h => h, fun _ _ => rfl, by simp [lineOf]⟩) ?_
  intro ls w l w' _ ih hs hr ho
  obtain ⟨es, s1, g1, g2, rfl, g4, g5, g6⟩ := ih (fun c n hm => hr c n (by simp [hm])) (fun e he => ho e (by simp [he]))
  obtain ⟨es', s2, k1, k2, k3, k4, k5, k6⟩ := lift_step (h.append g1) hs (fun c n he => hr c n (by simp [he])) (fun c hc => g4 c (ho l (by simp) c hc))
  refine ⟨es ++ es', s2, g1.append k1, by rw [wholeOf_append, g2, k2], k3, fun c h => k4 c (g4 c h), fun c hc => ?_, fun c x hx => ?_⟩
  · rw [k5 c (hc l (by simp)), g5 c fun e he => hc e (by simp [he])]
  · rw [lineOf_append, List.mem_append] at hx
    exact hx.elim (g6 c x) (k6 c x)

end Verif
