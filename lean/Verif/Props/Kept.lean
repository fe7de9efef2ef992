import Verif.Props.Counter

/-! # C106 – what every command executed keeps, nobody sees broken -/

namespace Verif.Props

open Spec
open Fut (upd)

variable {ω : Nat → Nat} {U : Nat → Bool} {d : Bytes} {st : State}

theorem trace_keeps {a a' : DB} {qs : List (List Resp)} {rs : List Resp} {P : DB → Prop} (ht : Trace a qs rs a')
    (hk : ∀ q ∈ qs, ∀ x b b1 o, Means q x → P b → Step b x (some (b1, o)) → P b1) (hp : P a) :
    P a' ∧ ∀ p x r, Placed qs rs p x r → ∃ b b1, P b ∧ P b1 ∧ (Step b x (done b1 r) ∨ ∃ e, Step b x (fails b1 e) ∧ ErrorReply e r) := by
  induction qs generalizing a rs with
  | nil => cases ht; exact ⟨hp, fun p x r ⟨_, h, _⟩ => by simp at h⟩
  | cons q qs ih =>
    obtain ⟨a1, r, rs, rfl, h1, h2⟩ := trace_uncons ht
    have hk' := fun q hq => hk q (List.mem_cons_of_mem _ hq)
    have hp1 : P a1 := by
      rcases h2 with ⟨x, g1, g2⟩ | ⟨x, e, g1, g2, -⟩ | ⟨-, rfl, -⟩
      · exact hk q (by simp) x _ _ _ g1 hp g2
      · exact hk q (by simp) x _ _ _ g1 hp g2
      · exact hp
    obtain ⟨i1, i2⟩ := ih h1 hk' hp1
    refine ⟨i1, fun p x r' hpl => ?_⟩
    cases p with
    | succ p => exact i2 p x r' (at_succ hpl)
    | zero =>
      obtain ⟨hm, rfl⟩ := at_zero hpl
      rcases h2 with ⟨y, g1, g2⟩ | ⟨y, e, g1, g2, g3⟩ | ⟨g1, -⟩
      · cases means_unique hm g1
        exact ⟨a, a1, hp, hp1, .inl g2⟩
      · cases means_unique hm g1
        exact ⟨a, a1, hp, hp1, .inr ⟨e, g2, g3⟩⟩
      · exact absurd ⟨_, hm⟩ g1

/-- C106: if something holds of the database at the beginning, and each of the commands ever executed keeps it, then it holds at the end, and every line a user types is answered as from a
database of which it holds – whoever else does what at the same time. -/
theorem C106_kept {a0 : DB} (h0 : Abs st a0) {tr : List Desk.Ev} {s : Desk.Sys} (h : Exec (Desk.Step ω U) (Desk.new d st) tr s)
    (ho : ∀ x ∈ doneIn (seenIn (serverOf tr)), x.2.1.ord.Fair ∧ Sized x.2.2) {P : DB → Prop}
    (hk : ∀ objs x b b1 o, Ran tr objs → Means objs x → P b → Step b x (some (b1, o)) → P b1) (hp : P a0) :
    (∃ a, Abs s.full.whole.hub.db a ∧ P a) ∧
      ∀ c i x r, U c = true → Got tr c i x r → ∃ b b1, P b ∧ P b1 ∧ (Step b x (done b1 r) ∨ ∃ e, Step b x (fails b1 e) ∧ ErrorReply e r) := by
  obtain ⟨qs, a, place, h1, h2, h3, h4, -⟩ := on_record h0 h ho
  obtain ⟨g1, g2⟩ := trace_keeps h1 (fun q hq x b b1 o hm => hk q x b b1 o (ran_of h4 q hq) hm) hp
  exact ⟨⟨a, h2, g1⟩, fun c i x r hu hg => g2 _ x r (got_at h3 hu hg)⟩

/-- C106: so a key that holds a number, and is only set to numbers, added to and subtracted from, always holds a number: every GET shows one, every INCRBY and DECRBY of a number is told one
and never an error. -/
theorem C106_number {a0 : DB} (h0 : Abs st a0) {tr : List Desk.Ev} {s : Desk.Sys} (h : Exec (Desk.Step ω U) (Desk.new d st) tr s)
    (ho : ∀ x ∈ doneIn (seenIn (serverOf tr)), x.2.1.ord.Fair ∧ Sized x.2.2) {k t0 : Bytes} {v : Int}
    (hk : ∀ objs, Ran tr objs → Writes .str objs k → (∃ t n, IsInt t n ∧ Means objs (.set k t)) ∨ ∃ arg, Means objs (.incr k arg) ∨ Means objs (.decr k arg))
    (hv : a0.strs k = some t0) (hi : IsInt t0 v) :
    (∃ a t n, Abs s.full.whole.hub.db a ∧ a.strs k = some t ∧ IsInt t n) ∧ ∀ c i r, U c = true →
      (Got tr c i (.get k) r → ∃ t n, IsInt t n ∧ r = .bulk t) ∧
      ∀ x e, AddsTo k x e → Got tr c i x r → ∃ n, InInt64 n ∧ r = .int n := by
  obtain ⟨⟨a, h1, t, n, h2, h3⟩, h4⟩ := C106_kept h0 h ho (P := fun b => ∃ t n, b.strs k = some t ∧ IsInt t n) (fun objs x b b1 o hr hm hb hs => by
    obtain ⟨t, n, g1, g2⟩ := hb
    by_cases hw : Writes .str objs k
    · rcases hk objs hr hw with ⟨t', n', g3, g4⟩ | ⟨arg, g3 | g3⟩
      · cases means_unique hm g4
        cases hs
        exact ⟨t', n', by simp [DB.setStr], g3⟩
      all_goals
        cases means_unique hm g3
        rcases add_step g1 g2 hs with ⟨e, m, s', -, -, j1, j2⟩ | ⟨-, e, j2⟩
        · cases j2
          exact ⟨s', m, by simp [DB.setStr], j1⟩
        · cases j2
          exact ⟨t, n, g1, g2⟩
    · exact ⟨t, n, ((step_frame hm hs).1 k hw).trans g1, g2⟩) ⟨t0, v, hv, hi⟩
  refine ⟨⟨a, t, n, h1, h2, h3⟩, fun c i r hu => ⟨fun hg => ?_, fun x e hx hg => ?_⟩⟩
  · obtain ⟨b, b1, ⟨t, n, g1, g2⟩, -, g | ⟨e, g, -⟩⟩ := h4 c i _ r hu hg
    · cases g
      exact ⟨t, n, g2, by rw [g1]; rfl⟩
    · cases g
  · obtain ⟨b, b1, ⟨t, n, g1, g2⟩, -, g⟩ := h4 c i _ r hu hg
    obtain ⟨arg, m, g3, ⟨rfl, rfl⟩ | ⟨rfl, rfl⟩⟩ := hx
    all_goals
      rcases g with g | ⟨e', g, -⟩ <;> rcases add_step g1 g2 g with ⟨e1, m1, s', j1, j3, -, j2⟩ | ⟨j1, e1, j2⟩
      · cases j2
        cases isInt_unique g3 j1
        exact ⟨m1, j3.1, rfl⟩
      · exact absurd ⟨_, g3⟩ j1
      · cases j2
      · exact absurd ⟨_, g3⟩ j1

/-! ### Example -/

/-- The hypotheses of `C106_kept` and `C106_number` can be met. -/
example : ∃ (tr : List Desk.Ev) (s : Desk.Sys), Exec (Desk.Step ω Script.isUser) (Desk.new d five) tr s ∧
    (∀ x ∈ doneIn (seenIn (serverOf tr)), x.2.1.ord.Fair ∧ Sized x.2.2) ∧
    (∀ objs, Ran tr objs → Writes .str objs b!"n" → (∃ t n, IsInt t n ∧ Means objs (.set b!"n" t)) ∨ ∃ arg, Means objs (.incr b!"n" arg) ∨ Means objs (.decr b!"n" arg)) ∧
    Got tr 7 0 (.incr b!"n" b!"3") (.int 8) ∧ Got tr 8 0 (.decr b!"n" b!"4") (.int 4) ∧
    AddsTo b!"n" (.incr b!"n" b!"3") 3 ∧ AddsTo b!"n" (.decr b!"n" b!"4") (-4) := by
  obtain ⟨tr, s, h1, h2, h3, h4⟩ := Script.played (ω := ω) (d := d) counting_plays five_abs
  refine ⟨tr, s, h1, h3, fun objs ho _ => ?_, got_play (h4 7 rfl).1 (h4 7 rfl).2 (xs := counting) (ws := [b!"incrby", b!"n", b!"3"]) rfl incrby_means,
    got_play (h4 8 rfl).1 (h4 8 rfl).2 (xs := counting) (ws := [b!"decrby", b!"n", b!"4"]) rfl decrby_means,
    ⟨_, 3, isInt_three, .inl ⟨rfl, rfl⟩⟩, ⟨_, 4, isInt_four, .inr ⟨rfl, rfl⟩⟩⟩
  obtain ⟨x, h5, rfl⟩ := ran_in_play h2 ho
  simp only [List.mem_cons, List.not_mem_nil, or_false] at h5
  rcases h5 with rfl | rfl
  · exact .inr ⟨_, .inl incrby_means⟩
  · exact .inr ⟨_, .inr decrby_means⟩

end Verif.Props
