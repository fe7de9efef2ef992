import Verif.Props.Leave
import Verif.Props.Logged
import Verif.Props.Desk
import Verif.Spec.Served

/-! C93: no user at a terminal waits for ever. -/

namespace Verif.Props

open Spec
open Fut (upd)

variable {ω : Nat → Nat} {U : Nat → Bool} {d : Bytes} {st : State} {a0 : DB} {r : Run (Desk.Step ω U) (Desk.new d st)}

theorem server_until (r : Run (Desk.Step ω U) (Desk.new d st)) (j : Nat) : serverOf (r.until j) = r.atServer.until j := by
  induction j with
  | zero => rfl
  | succ j ih =>
    rw [until_succ, until_succ, serverOf_append, ih]
    congr 1
    show serverOf (r.ev j).toList = ((r.ev j).bind _).toList
    cases r.ev j with
    | none => rfl
    | some e => cases e <;> rfl

theorem at_server {r : Run (Desk.Step ω U) (Desk.new d st)} {j : Nat} {e : Full.Ev} : r.atServer.ev j = some e ↔ r.ev j = some (.server e) := by
  show (r.ev j).bind _ = some e ↔ _
  cases r.ev j with
  | none => simp
  | some l => cases l <;> simp

theorem desk_inv (h0 : Abs st a0) (ho : r.atServer.Decent) {c : Nat} (hu : U c = true) (j : Nat) :
    TermInv c (r.atServer.until j) (r.state j).full ((r.state j).terms c) (typedBy c (r.until j)) (shownTo c (r.until j)) := by
  have := termInv h0 (run_exec r j) (by rw [server_until]; exact ho j) hu
  rwa [server_until] at this

/-- What a step does to a user who goes on waiting. -/
theorem wait_step {s s' : Desk.Sys} {e : Desk.Ev} (hs : Desk.Step ω U s e s') {c : Nat} (hu : U c = true) (h : Expecting s c) (h' : Expecting s' c) :
    (s'.terms c = s.terms c ∧ ¬ Carries c e ∧ ∀ b, e ≠ .took c b) ∨
    (∃ b, e = .server (.whole (.net (.feed c (.arrived b)))) ∧ b <+: (s.terms c).sent ∧ s'.terms c = { s.terms c with sent := (s.terms c).sent.drop b.length }) ∨
    ∃ b, e = .took c b ∧ b ≠ [] ∧ parse (s.terms c).buf = .eof ∧ b <+: (Desk.wire (s.full.lines c).out).drop (s.terms c).pos ∧ s'.full = s.full ∧
      s'.terms c = { s.terms c with pos := (s.terms c).pos + b.length, buf := (s.terms c).buf ++ b } := by
  have put : ∀ {c' : Nat} {t : Desk.Term}, c' ≠ c → (s.put c' t).terms c = s.terms c := fun hc => upd_other _ _ (Ne.symm hc)
  have mine : ∀ {t : Desk.Term}, (s.put c t).terms c = t := upd_same _ _ _
  have nc : ∀ {e : Desk.Ev}, (∀ x, e ≠ .server x) → ¬ Carries c e := fun h ⟨b, _, he⟩ => h _ he
  simp only [Expecting] at h h'
  cases hs with
  | server e f h1 h2 h3 =>
    rcases server_cases (U := U) h3 s.terms c with ⟨b, rfl⟩ | ⟨-, hm⟩
    · right; left
      exact ⟨b, rfl, h2 hu, by simp [Desk.moved, hu, upd_same]⟩
    · by_cases hb : ∃ b, e = .whole (.net (.feed c (.arrived b)))
      · obtain ⟨b, rfl⟩ := hb
        right; left
        exact ⟨b, rfl, h2 hu, by simp [Desk.moved, hu, upd_same]⟩
      · left
        refine ⟨hm, ?_, by simp⟩
        rintro ⟨b, -, he⟩
        cases he
        exact hb ⟨b, rfl⟩
  | gone => exact .inl ⟨rfl, nc (by simp), by simp⟩
  | took c' b g1 g2 g3 g4 g5 =>
    by_cases hc : c' = c
    · subst hc
      exact .inr (.inr ⟨b, rfl, g4, g3, g5, rfl, mine⟩)
    · exact .inl ⟨put hc, nc (by simp), by simp [hc]⟩
  | prompt c' g1 g2 | typed c' _ _ g1 g2 | unsent c' _ _ g1 g2 | quit c' g1 g2 | choke c' _ g1 g2 =>
    by_cases hc : c' = c
    · subst hc; rw [h] at g2; cases g2
    · exact .inl ⟨put hc, nc (by simp), by simp⟩
  | shown c' | failed c' | crash c' =>
    by_cases hc : c' = c
    · subst hc; rw [mine] at h'; cases h'
    · exact .inl ⟨put hc, nc (by simp), by simp⟩

/-- What ends the waiting. -/
theorem wait_end {s s' : Desk.Sys} {e : Desk.Ev} (hs : Desk.Step ω U s e s') {c : Nat} (h : Expecting s c) (h' : ¬ Expecting s' c) :
    (∃ x, e = .shown c x) ∨ (e = .failed c ∧ s'.full = s.full ∧ s'.gone = s.gone ∧ s'.terms c = { s.terms c with pc := .over, screen := (s.terms c).screen ++ [.readError] }) ∨
    (e = .crashed c ∧ parse (s.terms c).buf = .panic) := by
  have put : ∀ {c' : Nat} {t : Desk.Term}, c' ≠ c → (s.put c' t).terms c = s.terms c := fun hc => upd_other _ _ (Ne.symm hc)
  have mine : ∀ {t : Desk.Term}, (s.put c t).terms c = t := upd_same _ _ _
  simp only [Expecting] at h h'
  cases hs with
  | server e f h1 h2 h3 =>
    exfalso
    rcases server_cases (U := U) h3 s.terms c with ⟨b, rfl⟩ | ⟨-, hm⟩
    · apply h'
      simp only [Desk.moved]
      split
      · simpa [upd_same] using h
      · exact h
    · exact h' (by show (Desk.moved U s.terms e c).pc = _; rw [hm]; exact h)
  | gone => exact absurd h h'
  | shown c' x _ g1 g2 g3 =>
    by_cases hc : c' = c
    · subst hc; exact .inl ⟨x, rfl⟩
    · rw [put hc] at h'; exact absurd h h'
  | failed c' =>
    by_cases hc : c' = c
    · subst hc; exact .inr (.inl ⟨rfl, rfl, rfl, mine⟩)
    · rw [put hc] at h'; exact absurd h h'
  | crash c' g1 g2 g3 =>
    by_cases hc : c' = c
    · subst hc; exact .inr (.inr ⟨rfl, g3⟩)
    · rw [put hc] at h'; exact absurd h h'
  | took c' b =>
    by_cases hc : c' = c
    · subst hc; rw [mine] at h'; exact absurd h h'
    · rw [put hc] at h'; exact absurd h h'
  | prompt c' g1 g2 | typed c' _ _ g1 g2 | unsent c' _ _ g1 g2 | quit c' g1 g2 | choke c' _ g1 g2 =>
    by_cases hc : c' = c
    · subst hc; rw [h] at g2; cases g2
    · rw [put hc] at h'; exact absurd h h'

/-- While somebody waits for ever, nothing more is carried from some time on. -/
theorem carry_ceases {c : Nat} (hu : U c = true) {i : Nat} (hw : ∀ j, i ≤ j → Expecting (r.state j) c) : ∃ j, i ≤ j ∧ ∀ k l, j ≤ k → r.ev k = some l → ¬ Carries c l := by
  refine ceases r (Carries c) (fun j => ((r.state j).terms c).sent.length) (fun j hj => ?_) (fun j l hj he ha => ?_)
  · rcases r.next j with ⟨l, h1, h2⟩ | ⟨h1, h2⟩
    · rcases wait_step h2 hu (hw j hj) (hw _ (by omega)) with ⟨h, -⟩ | ⟨b, -, -, h⟩ | ⟨b, -, -, -, -, -, h⟩ <;> rw [h] <;> simp
    · simp only [h2]; exact Nat.le_refl _
  · rcases wait_step (run_step r he) hu (hw j hj) (hw _ (by omega)) with ⟨-, h, -⟩ | ⟨b, rfl, h1, h⟩ | ⟨b, rfl, -⟩
    · exact absurd ha h
    · obtain ⟨b', hb, hb'⟩ := ha
      cases hb'
      rw [h]
      have := h1.length_le
      have := List.length_pos_iff.2 hb
      simp only [List.length_drop]
      omega
    · obtain ⟨b', hb, hb'⟩ := ha
      cases hb'

/-- There is always something for the client of a waiting user to do, if there is something to read or the connection is cut off. -/
theorem client_can {s : Desk.Sys} {c : Nat} (hu : U c = true) (h : Expecting s c)
    (hp : parse (s.terms c).buf = .eof ∨ parse (s.terms c).buf = .bad ∨ ∃ x rest, parse (s.terms c).buf = .ok x rest)
    (hr : parse (s.terms c).buf = .eof → Desk.cutOff s c ∨ (s.terms c).pos < (Desk.wire (s.full.lines c).out).length) : Possible (Desk.Step ω U) (AtTerminal c) s := by
  rcases hp with hp | hp | ⟨x, rest, hp⟩
  · rcases hr hp with hr | hr
    · exact ⟨_, _, .failed, .failed c hu h (.inr ⟨hp, hr⟩)⟩
    · exact ⟨_, _, .took _, .took c _ hu h hp (by
        intro he
        have := congrArg List.length he
        simp only [List.length_drop, List.length_nil] at this
        omega) (List.prefix_refl _)⟩
  · exact ⟨_, _, .failed, .failed c hu h (.inl hp)⟩
  · exact ⟨_, _, .shown x, .shown c x rest hu h hp⟩

theorem desk_next (h0 : Abs st a0) (ho : r.atServer.Decent) {c : Nat} (hu : U c = true) {j : Nat} (hw : Expecting (r.state j) c) :
    parse ((r.state j).terms c).buf = .eof ∨ parse ((r.state j).terms c).buf = .bad ∨ ∃ x rest, parse ((r.state j).terms c).buf = .ok x rest := by
  rcases (desk_inv h0 ho hu j).next h0 (run_exec r.atServer j) (ho j) (by rw [hw]; simp) with h | ⟨h, -⟩ | ⟨x, rest, h, -⟩
  · exact .inl h
  · exact .inr (.inl h)
  · exact .inr (.inr ⟨x, rest, h⟩)

/-- Nobody waits for ever who takes only finitely often and has something to do all the time. -/
theorem wait_over {c : Nat} (hu : U c = true) (hf : r.Fair (AtTerminal c)) {i : Nat} (hw : ∀ j, i ≤ j → Expecting (r.state j) c)
    (hc : ∀ j, i ≤ j → Possible (Desk.Step ω U) (AtTerminal c) (r.state j)) (ht : ∀ j b, i ≤ j → r.ev j ≠ some (.took c b)) : False := by
  obtain ⟨j, l, h1, h2, h3⟩ := hf i hc
  have hs := run_step r h2
  rcases wait_step hs hu (hw j h1) (hw _ (by omega)) with ⟨h, -, -⟩ | ⟨b, rfl, -⟩ | ⟨b, rfl, -⟩
  · have hn := hw (j + 1) (by omega)
    have hy := hw j h1
    simp only [Expecting] at hn hy
    generalize r.state (j + 1) = s' at hs hn h
    cases h3 with
    | took b => exact ht j b h1 h2
    | shown x =>
      cases hs
      simp [Desk.Sys.put, upd_same] at hn
    | failed =>
      cases hs
      simp [Desk.Sys.put, upd_same] at hn
    | crashed => cases hs <;> simp [Desk.Sys.put, upd_same] at hn
  · cases h3
  · exact ht j b h1 h2

theorem out_last {f f' : Full.Sys} {e : Full.Ev} (hs : Full.Step ω f e f') {c : Nat} (h1 : (f.lines c).sock = true) (h2 : (f.lines c).client ≠ .gone) :
    (f'.lines c).out = (f.lines c).out := by
  rcases line_step hs c with ⟨h, -⟩ | ⟨x, -, h⟩
  · rw [h]
  · generalize f'.lines c = y at h
    cases h <;> first | rfl | simp_all

theorem client_here {tr : List Full.Ev} {f : Full.Sys} (h : Exec (Full.Step ω) (Full.new d st) tr f) {c : Nat} (hg : .client .gone ∉ lineOf c tr) :
    (f.lines c).client ≠ .gone := by
  have hl := (full_exec h).2 c
  generalize lineOf c tr = ls at hl hg
  generalize f.lines c = y at hl
  revert hg
  refine hl.inv (P := fun ls y => .client .gone ∉ ls → y.client ≠ .gone) (by simp [Full.new, Conn.new]) ?_
  intro ls y l y' _ ih hs hg
  have ih := ih fun h => hg (by simp [h])
  cases hs <;> simp_all
  exact fun h => hg.2 h.symm

theorem cut_step {s s' : Desk.Sys} {e : Desk.Ev} (hs : Desk.Step ω U s e s') {c : Nat} (h : Desk.cutOff s c) : Desk.cutOff s' c := by
  cases hs with
  | server e f h1 h2 h3 =>
    rcases h with h | h | h
    · exact .inl (sock_step h3 h)
    · exact absurd (full_up h3) h
    · rw [h1] at h; cases h
  | gone => exact .inr (.inr rfl)
  | _ => exact h

/-- Who waits for ever, waits at a connection that is never cut off. -/
theorem wait_uncut (h0 : Abs st a0) (ho : r.atServer.Decent) {c : Nat} (hu : U c = true) (hf : r.Fair (AtTerminal c)) {i : Nat} (hw : ∀ j, i ≤ j → Expecting (r.state j) c)
    {j : Nat} (hj : i ≤ j) (hc : Desk.cutOff (r.state j) c) : False := by
  have cut : ∀ k, j ≤ k → Desk.cutOff (r.state k) c := fun k hk => lasts r (fun s => Desk.cutOff s c) hc (fun _ _ _ h he => cut_step (run_step r he) h) hk
  have out : ∀ k, j ≤ k → ((r.state (k + 1)).full.lines c).out = ((r.state k).full.lines c).out := by
    intro k hk
    rcases r.next k with ⟨l, h1, h2⟩ | ⟨h1, h2⟩
    · have hg := client_here (run_exec r.atServer k) ((desk_inv h0 ho hu k).here (by rw [hw k (by omega)]; simp)).1
      have hk := cut k hk
      generalize r.state (k + 1) = s' at h2
      cases h2 with
      | server e f g1 g2 g3 =>
        rcases hk with hk | hk | hk
        · exact out_last g3 hk hg
        · exact absurd (full_up g3) hk
        · rw [g1] at hk; cases hk
      | _ => rfl
    · rw [h2]
  obtain ⟨k, g1, g2⟩ := ceases r (fun e => ∃ b, e = .took c b) (fun k => (Desk.wire ((r.state k).full.lines c).out).length - ((r.state k).terms c).pos) (i := j)
    (fun k hk => by
      simp only [out k hk]
      rcases r.next k with ⟨l, h1, h2⟩ | ⟨h1, h2⟩
      · rcases wait_step h2 hu (hw k (by omega)) (hw _ (by omega)) with ⟨h, -⟩ | ⟨b, -, -, h⟩ | ⟨b, -, -, -, -, -, h⟩ <;> rw [h] <;> simp <;> omega
      · simp only [h2]; exact Nat.le_refl _)
    (fun k l hk he ha => by
      simp only [out k hk]
      obtain ⟨b, rfl⟩ := ha
      rcases wait_step (run_step r he) hu (hw k (by omega)) (hw _ (by omega)) with ⟨-, -, h⟩ | ⟨b', he', -⟩ | ⟨b', he', h1, -, h2, -, h⟩
      · exact absurd rfl (h b)
      · cases he'
      · cases he'
        rw [h]
        have := h2.length_le
        have := List.length_pos_iff.2 h1
        simp only [List.length_drop] at *
        omega)
  exact wait_over hu hf (i := k) (fun l hl => hw l (by omega)) (fun l hl => client_can hu (hw l (by omega)) (desk_next h0 ho hu (hw l (by omega))) fun _ => .inl (cut l (by omega)))
    fun l b hl he => g2 l _ hl he ⟨b, rfl⟩

/-- The time at which somebody stops waiting. -/
theorem wait_until {c i : Nat} (hi : Expecting (r.state i) c) (h : ∃ j, i ≤ j ∧ ¬ Expecting (r.state j) c) :
    ∃ k l, i ≤ k ∧ (∀ j, i ≤ j → j ≤ k → Expecting (r.state j) c) ∧ ¬ Expecting (r.state (k + 1)) c ∧ r.ev k = some l ∧ Desk.Step ω U (r.state k) l (r.state (k + 1)) := by
  classical
  obtain ⟨h1, h2⟩ := Nat.find_spec h
  have h3 : ∀ j, i ≤ j → j < Nat.find h → Expecting (r.state j) c := fun j hj hlt => by
    by_contra hn
    exact Nat.find_min h hlt ⟨hj, hn⟩
  generalize Nat.find h = m at h1 h2 h3
  obtain _ | k := m
  · obtain rfl : i = 0 := by omega
    exact absurd hi h2
  · have hik : i ≤ k := by
      by_contra hn
      obtain rfl : i = k + 1 := by omega
      exact h2 hi
    rcases r.next k with ⟨l, g1, g2⟩ | ⟨-, g2⟩
    · exact ⟨k, l, hik, fun j hj hk => h3 j hj (by omega), h2, g1, g2⟩
    · rw [g2] at h2
      exact absurd (h3 k hik (by omega)) h2

/-- What has been typed when somebody stops waiting. -/
theorem typed_same {c i k : Nat} (hik : i ≤ k) (h : ∀ j, i ≤ j → j ≤ k → Expecting (r.state j) c) : typedBy c (r.until k) = typedBy c (r.until i) := by
  induction k, hik using Nat.le_induction with
  | base => rfl
  | succ k hk ih =>
    rw [until_succ, typedBy_append, ih fun j hj hjk => h j hj (by omega)]
    rcases r.next k with ⟨l, g1, g2⟩ | ⟨g1, -⟩
    · rw [g1]
      have hw := h k hk (by omega)
      generalize r.state (k + 1) = s' at g2
      cases g2 with
      | typed c' l _ _ hp =>
        have : c' ≠ c := by
          rintro rfl
          rw [hw] at hp
          cases hp
        simp [typedBy, this]
      | _ => simp [typedBy]
    · rw [g1]; simp [typedBy]

/-- How the waiting ends. -/
theorem wait_result (h0 : Abs st a0) (ho : r.atServer.Decent) {c : Nat} (hu : U c = true) {i : Nat} (hi : Expecting (r.state i) c) (h : ∃ j, i ≤ j ∧ ¬ Expecting (r.state j) c) :
    ∃ j, i ≤ j ∧ typedBy c (r.until j) = typedBy c (r.until i) ∧ ((∃ x, r.ev j = some (.shown c x)) ∨
      r.ev j = some (.failed c) ∧ (.expired ∈ lineOf c (r.atServer.until j) ∨ ¬ (r.state j).full.up ∨ (r.state j).gone = true)) := by
  obtain ⟨k, l, h1, h2, h3, h4, h5⟩ := wait_until hi h
  refine ⟨k, h1, typed_same h1 h2, ?_⟩
  have hk := h2 k h1 (Nat.le_refl _)
  rcases wait_end h5 hk h3 with ⟨x, rfl⟩ | ⟨rfl, g1, g2, g3⟩ | ⟨rfl, g⟩
  · exact .inl ⟨x, h4⟩
  · refine .inr ⟨h4, ?_⟩
    have hd : ∀ x ∈ doneIn (seenIn (serverOf (r.until (k + 1)))), x.2.1.ord.Fair ∧ Sized x.2.2 := by rw [server_until]; exact ho _
    obtain ⟨n, tail, i1, -, -, i4, -, i6⟩ := (screenInv h0 (run_exec r (k + 1)) hd hu).screen
    rw [g1, g2, server_until] at i6
    have hun : r.atServer.until (k + 1) = r.atServer.until k := by
      rw [← server_until, ← server_until, until_succ, serverOf_append, h4]
      simp [serverOf]
    rw [hun] at i6
    apply i6
    right
    have hl := congrArg List.getLast? i1
    rw [g3, List.getLast?_concat] at hl
    rcases i4 (by rw [g3]) with rfl | rfl
    · simp at hl
    · simp
  · rcases desk_next h0 ho hu hk with h | h | ⟨x, rest, h⟩ <;> rw [h] at g <;> cases g

/-- C93: nobody at a terminal waits for ever: in the end the reply to the line is shown, or reading it fails, and then because the timer of the connection
has fired or the server has died or ended. -/
theorem C93_released (h0 : Abs st a0) (ho : r.atServer.Decent) {c : Nat} (hu : U c = true) (hs : r.Served c) {i : Nat} (hc : (r.state i).full.whole.hub.conns c ≠ none)
    (hi : Expecting (r.state i) c) :
    ∃ j, i ≤ j ∧ typedBy c (r.until j) = typedBy c (r.until i) ∧ ((∃ x, r.ev j = some (.shown c x)) ∨
      r.ev j = some (.failed c) ∧ (.expired ∈ lineOf c (r.atServer.until j) ∨ ¬ (r.state j).full.up ∨ (r.state j).gone = true)) := by
  refine wait_result h0 ho hu hi ?_
  by_contra hn
  have hw : ∀ j, i ≤ j → Expecting (r.state j) c := fun j hj => by
    by_contra h
    exact hn ⟨j, hj, h⟩
  obtain ⟨i1, h1, h2⟩ := carry_ceases hu hw
  have uncut : ∀ j, i ≤ j → ¬ Desk.cutOff (r.state j) c := fun j hj h => wait_uncut h0 ho hu hs.client hw hj h
  have lives : r.atServer.Lives := lives_of r.atServer fun j => ⟨i + j, by omega, by
    by_contra h
    exact uncut (i + j) (by omega) (.inr (.inl h))⟩
  have here : ∀ j, (r.state j).gone = false := by
    intro j
    by_contra h
    have h : (r.state j).gone = true := by simpa using h
    refine uncut (i + j) (by omega) (.inr (.inr (lasts r (fun s => s.gone = true) h (fun k l hk hg he => ?_) (show j ≤ i + j by omega))))
    have hs := run_step r he
    generalize r.state (k + 1) = s' at hs
    cases hs with
    | server e f g1 => rw [hg] at g1; cases g1
    | gone => rfl
    | _ => exact hg
  have silent : r.atServer.Silent c i1 := by
    intro j b hj he
    by_contra hb
    exact h2 j _ hj (at_server.1 he) ⟨b, hb, rfl⟩
  have hc1 : (r.atServer.state i1).whole.hub.conns c ≠ none := conns_last (r := r.atServer) hc h1
  obtain ⟨i2, h3, h4⟩ := timer_over hc1 silent (hs.ticks fun j => ⟨lives j, here j⟩)
  have closers : r.atServer.FairToClosers c := by
    intro k m hm
    obtain ⟨j, l, g1, g2, x, rfl, g3⟩ := hs.closers k m fun j hj => by
      obtain ⟨l, f, g1, g2⟩ := hm j hj
      refine ⟨.server l, _, ⟨l, rfl, g1⟩, .server l f (here j) ?_ g2⟩
      cases g1 <;> trivial
    exact ⟨j, x, g1, at_server.2 g2, g3⟩
  obtain ⟨i3, h5⟩ := shut_finally lives closers (fun ⟨m, k, _, h⟩ => by
    obtain ⟨j, g1, g2⟩ := h (i + m) (by omega)
    exact hs.reads j (hw j (by omega)) g2) (conns_last (r := r.atServer) hc1 h3) h4
  exact uncut (i + i3) (by omega) (.inl (h5 (i + i3) (by omega)).sock)

/-! ### When all is well -/

theorem Lines.taken {c : Nat} {ftr : List Full.Ev} {L : List Bytes} (h : Lines c ftr [] L) :
    ∃ os, TakenAll os (piecesOf c (seenIn ftr)).flatten ∧ os.length = L.length ∧ ∀ o ∈ os, ∃ objs, ArrayOf o objs := by
  obtain ⟨reqs, h3, h4⟩ := h.bytes
  rw [List.append_nil] at h4
  rw [← h4]
  have hl := h.lines
  clear h h4
  induction h3 with
  | nil => exact ⟨[], .nil, rfl, by simp⟩
  | @cons l b L reqs hb _ ih =>
    obtain ⟨os, g1, g2, g3⟩ := ih fun l hl' => hl l (by simp [hl'])
    obtain ⟨ws, k1, k2⟩ := C52_received (isLine_bound (hl l (by simp))).1 hb []
    obtain ⟨b', k3, k4⟩ := (C62_read _ _ _).1 k2
    simp only [List.append_nil] at k3
    subst k3
    refine ⟨_ :: os, .cons k4 g1, by simp [g2], fun o ho => ?_⟩
    rcases List.mem_cons.1 ho with rfl | ho
    · exact ⟨_, .inl rfl⟩
    · exact g3 o ho

/-- A client that has not yet got the whole of a reply that is there has more to read. -/
theorem Stream.more {out : List Conn.Out} {t : Desk.Term} {k : Nat} (h : Stream out t k) {x : Resp} (hb : (repliesIn out)[k]? = some x.encode)
    (hx : ∀ rest, parse (x.encode ++ rest) = .ok x rest) (hp : ∀ p, .part p ∉ out) (hf : .farewell ∉ out) (he : parse t.buf = .eof) :
    t.buf.length < x.encode.length ∧ t.pos < (wireOf out).length := by
  obtain ⟨y, o1, o2, q, rfl, g2, g3, g4, g5, g6, g7, g8⟩ := h
  obtain rfl : y = [] := by
    by_contra hy
    exact hf (by simp [g8 hy])
  rw [List.nil_append] at g3 g5
  rw [repliesIn_append, List.getElem?_append_right (by omega), g6, Nat.sub_self] at hb
  cases o2 with
  | nil => simp [repliesIn] at hb
  | cons a o2 =>
    cases a with
    | part p => exact absurd (by simp) (hp p)
    | farewell => exact absurd (by simp) hf
    | reply b =>
      rw [repliesIn_reply] at hb
      simp only [List.getElem?_cons_zero, Option.some.injEq] at hb
      subst hb
      have hw : wireOf (.reply x.encode :: o2) = x.encode ++ wireOf o2 := by simp [wireOf]
      rw [hw] at g3 g5
      have hlt : t.buf.length < x.encode.length := by
        by_contra hn
        obtain ⟨z, hz⟩ := List.prefix_of_prefix_length_le (List.prefix_append x.encode (wireOf o2)) g5 (by omega)
        rw [← hz, hx] at he
        cases he
      have := congrArg List.length g3
      simp only [List.length_drop, List.length_append] at this g4 ⊢
      omega

theorem expired_over {tr : List Full.Ev} {f : Full.Sys} (h : Exec (Full.Step ω) (Full.new d st) tr f) {c : Nat} (he : .expired ∈ lineOf c tr) : (f.lines c).worker ≠ .selecting := by
  have hl := (full_exec h).2 c
  generalize lineOf c tr = ls at hl he
  generalize f.lines c = y at hl
  revert he
  refine hl.inv (P := fun ls y => .expired ∈ ls → y.worker ≠ .selecting) (by simp) ?_
  intro ls y l y' _ ih hs
  cases hs <;> simp_all

theorem asked_nodup {tr : List Full.Ev} {f : Full.Sys} (h : Exec (Full.Step ω) (Full.new d st) tr f) (c : Nat) : ((askedBy c (seenIn tr)).map Prod.fst).Nodup := by
  obtain ⟨n, hn, -⟩ := (C82_parts h).2.1
  obtain ⟨-, hp, -, -, h5⟩ := net_split hn
  refine (C46_once hp).1.sublist ?_
  clear hn hp
  generalize seenIn tr = l at h5
  induction l with
  | nil => exact .slnil
  | cons e a ih =>
    have ih := ih fun e he => h5 e (by simp [he])
    cases e with
    | pipe e =>
      cases e with
      | read c' n o => exact absurd rfl (h5 _ (by simp) c' n o)
      | _ => exact ih
    | read c' n' o' =>
      simp only [askedBy, pipeOf, requestsOf, List.map_cons]
      split
      · exact ih.cons_cons _
      · exact ih.cons _
    | feed c e => exact ih

theorem answers_mono (r : Run (Full.Step ω) (Full.new d st)) (c : Nat) {i j : Nat} (h : i ≤ j) : answersTo c (seenIn (r.until i)) <+: answersTo c (seenIn (r.until j)) := by
  obtain ⟨t, ht⟩ := until_le r h
  rw [ht, seenIn_append, answersTo_append]
  exact List.prefix_append _ _

/-- What a client has sent arrives in the end. -/
theorem all_carried (h0 : Abs st a0) (ho : r.atServer.Decent) {c : Nat} (hu : U c = true) (hh : r.Healthy c) {i : Nat} (hc : (r.state i).full.whole.hub.conns c ≠ none)
    (hw : ∀ j, i ≤ j → Expecting (r.state j) c) : ∃ j, i ≤ j ∧ ((r.state j).terms c).sent = [] := by
  obtain ⟨i1, h1, h2⟩ := carry_ceases hu hw
  refine ⟨i1, h1, ?_⟩
  by_contra hne
  have same : ∀ j, i1 ≤ j → ((r.state j).terms c).sent = ((r.state i1).terms c).sent := by
    intro j hj
    induction j, hj using Nat.le_induction with
    | base => rfl
    | succ j hj ih =>
      rcases r.next j with ⟨l, g1, g2⟩ | ⟨-, g2⟩
      · rcases wait_step g2 hu (hw j (by omega)) (hw _ (by omega)) with ⟨h, -⟩ | ⟨b, rfl, -, h⟩ | ⟨b, -, -, -, -, -, h⟩
        · rw [h, ih]
        · obtain rfl : b = [] := by
            by_contra hb
            exact h2 j _ hj g1 ⟨b, hb, rfl⟩
          rw [h]; simpa using ih
        · rw [h]; exact ih
      · rw [g2]; exact ih
  obtain ⟨j, l, g1, g2, g3⟩ := hh.network i1 fun j hj => by
    have hx := run_exec r.atServer j
    have hk := hh.keeps j
    have hlv := hh.lives j
    have hin := (desk_inv h0 ho hu j).here (by rw [hw j (by omega)]; simp)
    have hend : ((r.state j).full.whole.feeds c).ended = false := by
      by_contra he
      obtain ⟨n, e1, e2⟩ := whole_net (full_exec hx).1
      have g := (net_split e1).1 c
      rw [e2.feeds] at g
      exact hin.2 ((mem_feedOf (by simp)).1 (ended_said g (Bool.eq_true_of_not_eq_false he)))
    refine ⟨_, _, ⟨((r.state j).terms c).sent, by rw [same j hj]; exact hne, rfl⟩, .server _ _ (hh.here j) (fun _ => List.prefix_refl _)
      (.send c _ _ rfl ((connInv ((full_exec hx).2 c)).fresh hk.1).2.1 hk.2.2 (.feed c _ _ hlv.1 hlv.2 ?_ rfl (.arrive _ hend)))⟩
    exact conns_last (r := r.atServer) hc (show i ≤ j by omega)
  exact h2 j l g1 g2 g3

/-- C93: when all is well, the reply to every line is shown in the end. -/
theorem C93_answered (h0 : Abs st a0) (ho : r.atServer.Decent) {c : Nat} (hu : U c = true) (hh : r.Healthy c) {i : Nat} (hc : (r.state i).full.whole.hub.conns c ≠ none)
    (hi : Expecting (r.state i) c) : ∃ j x, i ≤ j ∧ typedBy c (r.until j) = typedBy c (r.until i) ∧ r.ev j = some (.shown c x) := by
  suffices h : ∃ j, i ≤ j ∧ ¬ Expecting (r.state j) c by
    obtain ⟨j, h1, h2, ⟨x, h3⟩ | ⟨-, h3 | h3 | h3⟩⟩ := wait_result h0 ho hu hi h
    · exact ⟨j, x, h1, h2, h3⟩
    · exact absurd (hh.keeps j).2.1 (expired_over (run_exec r.atServer j) h3)
    · exact absurd (hh.lives j) h3
    · rw [hh.here j] at h3; cases h3
  by_contra hn
  have hw : ∀ j, i ≤ j → Expecting (r.state j) c := fun j hj => by
    by_contra h
    exact hn ⟨j, hj, h⟩
  obtain ⟨i1, h1, h2⟩ := all_carried h0 ho hu hh hc hw
  have hin : ∀ j, TermInv c (r.atServer.until j) (r.state j).full ((r.state j).terms c) (typedBy c (r.until j)) (shownTo c (r.until j)) := desk_inv h0 ho hu
  -- how many replies it has seen
  obtain ⟨k, hk⟩ : ∃ k, k = (shownTo c (r.until i)).length := ⟨_, rfl⟩
  have count : ∀ j, i ≤ j → (typedBy c (r.until j)).length = k + 1 ∧ (shownTo c (r.until j)).length = k := by
    intro j hj
    have e1 := typed_same hj fun j' h _ => hw j' h
    have e2 := (hin i).count.2.2 (hw i (Nat.le_refl _))
    have e3 := (hin j).count.2.2 (hw j hj)
    rw [e1] at e3 ⊢
    omega
  have hL := (hin i1).lines
  rw [h2] at hL
  obtain ⟨os, t1, t2, t3⟩ := hL.taken
  rw [(count i1 h1).1] at t2
  obtain ⟨j0, a1, a2⟩ := C89_answered h0 hh.lives (fun j x hx => (ho j x (by rw [doneIn_eq]; exact hx)).1) hh.all hh.free hh.reader hh.keeps t1
    (i := i1) (List.prefix_refl _) hh.delivers
  have hlen : k < (r.atServer.readBy c j0).length := by
    have := a1.length_le
    simp at this
    omega
  obtain ⟨x, hx⟩ : ∃ x, (r.atServer.readBy c j0)[k]? = some x := ⟨_, List.getElem?_eq_getElem hlen⟩
  obtain ⟨j1, env, reply, b1, b2⟩ := a2 x (List.mem_of_getElem? hx) (t3 x.2 (by
    obtain ⟨z, hz⟩ := a1
    have : ((r.atServer.readBy c j0).map Prod.snd)[k]? = os[k]? := by rw [← hz, List.getElem?_append_left (by omega)]
    rw [List.getElem?_map, hx] at this
    exact List.mem_of_getElem? this.symm))
  -- from then on the reply is on the wire
  have there : ∀ j, i1 + j0 + j1 ≤ j → (answersTo c (seenIn (r.atServer.until j)))[k]? = some (x.1, reply.encode) := by
    intro j hj
    have m1 : (x.1, reply.encode) ∈ answersTo c (seenIn (r.atServer.until j)) := by
      refine (answers_mono r.atServer c (show j1 ≤ j by omega)).subset ?_
      rw [mem_answersTo]
      exact writtenOf_mem.1 ((mem_pipeOf (by simp)).2 b2)
    obtain ⟨m, hm⟩ := List.mem_iff_getElem?.1 m1
    obtain ⟨z, hz⟩ := (hin j).order
    have hlt := (List.getElem?_eq_some_iff.1 hm).1
    have e1 : ((askedBy c (seenIn (r.atServer.until j))).map Prod.fst)[m]? = some x.1 := by
      rw [← hz, List.getElem?_append_left (by simpa using hlt), List.getElem?_map, hm]; rfl
    have e2 : ((askedBy c (seenIn (r.atServer.until j))).map Prod.fst)[k]? = some x.1 := by
      obtain ⟨w, hw'⟩ := readBy_mono r.atServer c (show j0 ≤ j by omega)
      show ((r.atServer.readBy c j).map Prod.fst)[k]? = _
      rw [← hw', List.getElem?_map, List.getElem?_append_left hlen, hx]; rfl
    have hk' := (List.getElem?_eq_some_iff.1 e2).1
    have hm' := (List.getElem?_eq_some_iff.1 e1).1
    obtain rfl : m = k := (asked_nodup (run_exec r.atServer j) c).getElem_inj_iff.1 (by
      have := (List.getElem?_eq_some_iff.1 e1).2
      rw [this, (List.getElem?_eq_some_iff.1 e2).2])
    exact hm
  have more : ∀ j, i1 + j0 + j1 ≤ j → parse ((r.state j).terms c).buf = .eof →
      ((r.state j).terms c).buf.length < reply.encode.length ∧ ((r.state j).terms c).pos < (wireOf ((r.state j).full.lines c).out).length := by
    intro j hj he
    have hxj := run_exec r.atServer j
    obtain ⟨w1, -, w3, -⟩ := C82_wire hxj c
    have hpc : ((r.state j).terms c).pc ≠ .over := by rw [hw j (by omega)]; simp
    have hgo := there j hj
    obtain ⟨env', r', -, f2, f3⟩ := answer_framed h0 (hin j).lines hxj (ho j) (List.mem_of_getElem? hgo)
    have hstr := (hin j).stream hpc
    rw [(count j (by omega)).2] at hstr
    have hci := connInv ((full_exec hxj).2 c)
    rw [f2]
    refine hstr.more ?_ f3 (fun p hm => ((hin j).here hpc).1 (w3 p hm)) (fun hm => ?_) he
    · show (repliesIn ((r.atServer.state j).lines c).out)[k]? = _
      rw [w1, List.getElem?_map, hgo, ← f2]; rfl
    · obtain ⟨i', hi'⟩ := hci.farewells.1 hm
      exact ((hci.fresh (hh.keeps j).1).2.2 i').1 hi'
  obtain ⟨i2, c1, c2⟩ := ceases r (fun e => ∃ b, e = .took c b) (fun j => reply.encode.length - ((r.state j).terms c).buf.length) (i := i1 + j0 + j1)
    (fun j hj => by
      rcases r.next j with ⟨l, g1, g2⟩ | ⟨g1, g2⟩
      · rcases wait_step g2 hu (hw j (by omega)) (hw _ (by omega)) with ⟨h, -⟩ | ⟨b, -, -, h⟩ | ⟨b, -, -, -, -, -, h⟩ <;> rw [h] <;> simp <;> omega
      · simp only [g2]; exact Nat.le_refl _)
    (fun j l hj he ha => by
      obtain ⟨b, rfl⟩ := ha
      rcases wait_step (run_step r he) hu (hw j (by omega)) (hw _ (by omega)) with ⟨-, -, h⟩ | ⟨b', he', -⟩ | ⟨b', he', g1, g2, -, -, h⟩
      · exact absurd rfl (h b)
      · cases he'
      · cases he'
        rw [h]
        have := (more j hj g2).1
        have := List.length_pos_iff.2 g1
        simp only [List.length_append]
        omega)
  exact wait_over hu hh.client (i := i2) (fun j hj => hw j (by omega)) (fun j hj => client_can hu (hw j (by omega)) (desk_next h0 ho hu (hw j (by omega))) fun he => .inr
    (more j (by omega) he).2) fun j b hj he => c2 j _ hj he ⟨b, rfl⟩

/-! ### Examples -/

theorem net_up {tr : List Net.Ev} {n : Net.Sys} (h : Exec Net.Step (Net.new st) tr n) (h1 : ∀ c, .feed c .crash ∉ tr) (h2 : ∀ k env, .pipe (.crash k env) ∉ tr) :
    n.dead = false ∧ n.pipe.crashed = false := by
  revert h1 h2
  refine h.inv (P := fun tr n => (∀ c, .feed c .crash ∉ tr) → (∀ k env, .pipe (.crash k env) ∉ tr) → n.dead = false ∧ n.pipe.crashed = false)
    (fun _ _ => ⟨rfl, rfl⟩) ?_
  intro tr n l n' _ ih hs h1 h2
  have ih := ih (fun c hc => h1 c (by simp [hc])) (fun k env hc => h2 k env (by simp [hc]))
  cases hs with
  | feed => exact ih
  | crash c => exact absurd (by simp) (h1 c)
  | pipe e p _ _ hp =>
    cases hp with
    | crash k _ _ _ env => exact absurd (by simp) (h2 k env)
    | _ => exact ⟨ih.1, by assumption⟩
  | read c k o x p _ _ hp => cases hp with | read => exact ⟨ih.1, by assumption⟩

theorem answer_conn {tr : List Full.Ev} {f : Full.Sys} (h : Exec (Full.Step ω) (Full.new d st) tr f) {c : Nat} (ha : answersTo c (seenIn tr) ≠ []) :
    f.whole.hub.conns c ≠ none := by
  revert ha
  refine h.inv (P := fun tr f => answersTo c (seenIn tr) ≠ [] → f.whole.hub.conns c ≠ none) (fun h => absurd rfl h) ?_
  intro tr f e f' hx ih hs ha
  rw [seenIn_append, answersTo_append] at ha
  by_cases h1 : answersTo c (seenIn tr) = []
  · rw [h1, List.nil_append] at ha
    refine full_conns hs ?_
    have hw : ∃ n b w, e = .both (.net (.pipe (.wrote c n b))) c (.wrote 1 b) ∧ Whole.Step ω f.whole (.net (.pipe (.wrote c n b))) w := by
      cases hs with
      | wrote n c' b w x g1 g2 =>
        by_cases hc : c' = c
        · subst hc; exact ⟨n, b, w, rfl, g1⟩
        · exact absurd (by simp [seenIn, wholeOf, netOf, answersTo, hc]) ha
      | whole e w g1 g2 =>
        cases e with
        | net e =>
          cases e with
          | pipe e => cases e <;> first | exact absurd rfl ha | simp [Full.apart] at g1
          | _ => exact absurd rfl ha
        | _ => exact absurd rfl ha
      | _ => exact absurd rfl ha
    obtain ⟨n, b, w, -, g⟩ := hw
    exact writing_conn hx (whole_wrote g).1
  · exact full_conns hs (ih h1)

/-- A user at connection 7 sets a key and is shown the reply; another client asks for the key. -/
theorem seven_served (ω : Nat → Nat) (d : Bytes) : ∃ tr s, Exec (Desk.Step ω (· == 7)) (Desk.new d State.empty) tr s ∧ seenIn (serverOf tr) = deskTrace ∧ s.full.up ∧ s.gone = false ∧
    s.full.whole.hub.conns 7 ≠ none ∧ Rests s.full 7 ∧ (∀ c, Open (s.full.lines c)) ∧ (s.full.whole.feeds 7).pc = .reading ∧
    (s.terms 7).sent = [] ∧ (s.terms 7).pc = .top ∧ (shownTo 7 tr).length = 1 ∧ ∀ x ∈ lineOf 7 (serverOf tr), smooth x = true := by
  obtain ⟨n, hn⟩ := desk_net
  obtain ⟨ftr, f, h1, h2, -, -, h3⟩ := C82_open (ω := ω) (d := d) hn (by simp)
  obtain ⟨k, g1, g2⟩ := whole_net (full_exec h1).1
  have hup : f.up := by
    have := net_up g1 (by rw [← seenIn, h2]; simp) (by rw [← seenIn, h2]; simp)
    exact ⟨g2.dead ▸ this.1, g2.sim.crashed ▸ this.2⟩
  have hc := answer_conn h1 (c := 7) (by rw [h2]; simp [answersTo])
  have hfeed : (f.whole.feeds 7).pending = [] ∧ (f.whole.feeds 7).ended = false ∧ (f.whole.feeds 7).pc = .reading := by
    have g := (net_split g1).1 7
    rw [g2.feeds, ← seenIn, h2] at g
    have g : Exec Feed.Step Feed.new ([.arrived setBytes] ++ [.read (.array (req [b!"set", b!"k", b!"1"]))]) (f.whole.feeds 7) := g
    obtain ⟨x, e1, e2⟩ := g.split
    have e1 := exec_single e1
    have e2 := exec_single e2
    generalize f.whole.feeds 7 = y at e2 ⊢
    cases e1
    cases e2 with
    | read _ rest _ hp =>
      rw [show Feed.new.pending ++ setBytes = setBytes from rfl, setBytes_parse] at hp
      cases hp
      exact ⟨rfl, rfl, rfl⟩
  obtain ⟨tr', f', x1, x2, x3, x4, -, x6, x7, x8⟩ := settle_reader h1 hup hc (h3 7).1 hfeed.2.2
  have hseen : seenIn (ftr ++ tr') = deskTrace := by rw [seenIn_append, h2, x2, List.append_nil]
  have hsm : ∀ c, ∀ x ∈ lineOf c (ftr ++ tr'), smooth x = true := by
    intro c x hx
    rw [lineOf_append, List.mem_append] at hx
    rcases hx with hx | hx
    · exact (h3 c).2 x hx
    · rcases mem_lineOf.1 hx with hx | ⟨e, hx⟩ <;> rcases x8 _ hx with h | h <;> cases h <;> rfl
  obtain ⟨tr, s, d1, d2, rfl, d4, d5⟩ := attended_desk (U := (· == 7)) abs_empty x1 (desk_decent hseen) (fun c _ => desk_attended hseen (hsm c))
  have d6 := d5 7 rfl
  refine ⟨tr, s, d1, by rw [d2, hseen], by rw [Full.Sys.up, x3]; exact hup, d4, by rw [x3]; exact hc,
    ⟨by rw [x3]; exact hfeed.1, by rw [x3]; exact hfeed.2.1, x4, ((connInv ((full_exec x1).2 7)).fresh x6.flag).2.1, by rw [x6.client]; simp⟩, fun c => ?_,
    by rw [x3]; exact hfeed.2.2, d6.sent, ?_, ?_, by rw [d2]; exact hsm 7⟩
  · by_cases h : c = 7
    · subst h; exact x6
    · rw [x7 c h]; exact (h3 c).1
  · rcases d6.pc with h | ⟨-, h⟩
    · exact h.1
    · rw [hseen] at h; simp [piecesOf, answersTo] at h
  · rw [(d5 7 rfl).shown, hseen]; rfl

/-- When a reply was shown, somebody was waiting for it. -/
theorem shown_waited {c k : Nat} (h0 : Abs st a0) (ho : r.atServer.Decent) (hu : U c = true) (h : (shownTo c (r.until k)).length = 1) :
    ∃ i, i < k ∧ Expecting (r.state i) c ∧ (r.state i).full.whole.hub.conns c ≠ none := by
  induction k with
  | zero => cases h
  | succ k ih =>
    by_cases h1 : (shownTo c (r.until k)).length = 1
    · obtain ⟨i, g1, g2⟩ := ih h1
      exact ⟨i, by omega, g2⟩
    · refine ⟨k, by omega, ?_⟩
      rw [until_succ, shownTo_append] at h
      cases he : r.ev k with
      | none => rw [he] at h; exact absurd (by simpa [shownTo] using h) h1
      | some l =>
        rw [he] at h
        by_cases hl : ∃ x, l = .shown c x
        · obtain ⟨x, rfl⟩ := hl
          have hs := run_step r he
          have hin := desk_inv h0 ho hu (k + 1)
          rw [until_succ, until_succ, he, shownTo_append, show r.atServer.ev k = none by show (r.ev k).bind _ = none; rw [he]; rfl] at hin
          generalize r.state (k + 1) = s' at hs hin
          cases hs with
          | shown _ _ rest _ g1 g2 =>
            refine ⟨g1, answer_conn (run_exec r.atServer k) fun hn => ?_⟩
            obtain ⟨n, env, g3, -⟩ := hin.shown (shownTo c (r.until k)).length x (by simp [shownTo])
            simp only [Option.toList_none, List.append_nil, hn] at g3
            cases g3
        · have : shownTo c [l] = [] := by
            cases l <;> simp [shownTo]
            rintro rfl
            exact hl ⟨_, rfl⟩
          rw [Option.toList_some, this, List.append_nil] at h
          exact absurd h h1

/-- What two executions have in common from some time on. -/
theorem fair_shift {S L : Type} {step : S → L → S → Prop} {s0 s1 : S} {r : Run step s0} {r' : Run step s1} {n m : Nat}
    (h : ∀ i, r.state (n + i) = r'.state (m + i) ∧ r.ev (n + i) = r'.ev (m + i)) {acts : L → Prop} (hf : r'.Fair acts) : r.Fair acts := by
  intro i hi
  obtain ⟨j, l, h1, h2, h3⟩ := hf (m + i) fun j hj => by
    have := hi (n + (j - m)) (by omega)
    rw [(h _).1] at this
    rwa [show m + (j - m) = j by omega] at this
  exact ⟨n + (j - m), l, by omega, by rw [(h _).2, show m + (j - m) = j by omega]; exact h2, h3⟩

/-- What happens at the server without anything arriving or anybody going away leaves the terminals alone. -/
theorem quiet_lift {T : Nat → Desk.Term} {f f' : Full.Sys} {es : List Full.Ev} (h : Exec (Full.Step ω) f es f') (hq : ∀ e ∈ es, Desk.fits U T e ∧ Desk.moved U T e = T) :
    Exec (Desk.Step ω U) ⟨f, T, false⟩ (es.map .server) ⟨f', T, false⟩ := by
  induction h with
  | nil => exact .nil
  | @snoc tr s1 s2 l h1 h2 ih =>
    rw [List.map_append]
    have g := hq l (by simp)
    have hs := Desk.Step.server (ω := ω) (U := U) (s := ⟨s1, T, false⟩) l s2 rfl g.1 h2
    simp only [g.2] at hs
    exact (ih fun e he => hq e (by simp [he])).snoc hs

theorem done_quietly {g : Goroutine} {e : Full.Ev} (h : DoneBy g e) (U : Nat → Bool) (T : Nat → Desk.Term) : Desk.fits U T e ∧ Desk.moved U T e = T := by
  cases h <;> exact ⟨trivial, rfl⟩

theorem client_reads {tr : List Full.Ev} {f : Full.Sys} (h : Exec (Full.Step ω) (Full.new d st) tr f) {c : Nat} (hg : ∀ x, .client x ∉ lineOf c tr) :
    (f.lines c).client = .reads := by
  have hl := (full_exec h).2 c
  generalize lineOf c tr = ls at hl hg
  generalize f.lines c = y at hl
  revert hg
  refine hl.inv (P := fun ls y => (∀ x, .client x ∉ ls) → y.client = .reads) (by simp [Full.new, Conn.new]) ?_
  intro ls y l y' _ ih hs hg
  have ih := ih fun x h => hg x (by simp [h])
  cases hs with
  | client x => exact absurd (by simp) (hg x)
  | _ => exact ih

theorem no_closing {s : Full.Sys} {c k : Nat} (h : (s.lines c).pcs k ≠ .closeStart ∧ Conn.closing ((s.lines c).pcs k) = false) (hf : (s.whole.feeds c).pc ≠ .left) :
    ¬ Possible (Full.Step ω) (Closer c k) s := by
  rintro ⟨l, s', hc, hs⟩
  cases hc with
  | call =>
    cases hs with
    | closeCall _ _ _ h1 h2 => exact hf h1
    | own _ _ _ _ _ h3 => simp [Full.own] at h3
  | _ =>
    cases hs with
    | own _ _ _ _ _ _ h4 => cases h4 <;> simp_all [Conn.closing]

/-- The hypotheses of `C93_answered` can be met. -/
example (ω : Nat → Nat) (d : Bytes) : ∃ (r : Run (Desk.Step ω (· == 7)) (Desk.new d State.empty)) (i : Nat), r.atServer.Decent ∧ r.Healthy 7 ∧
    (r.state i).full.whole.hub.conns 7 ≠ none ∧ Expecting (r.state i) 7 := by
  obtain ⟨tr, s, h1, h2, h3, h4, h5, h6, h7, h8, h9, h10, h11, -⟩ := seven_served ω d
  obtain ⟨rf, g1, g2, g3, g4, g5, g6⟩ := calm (C85_parts h1) h3 (by
    rw [h2]
    intro n c o h
    simp [pipeOf, requestsOf] at h
    rcases h with ⟨rfl, rfl, rfl⟩ | ⟨rfl, rfl, rfl⟩
    · exact ⟨env0, .simple b!"OK", env0_fair, by simp [pipeOf, executedOf]⟩
    · exact ⟨env0, .bulk b!"1", env0_fair, by simp [pipeOf, executedOf]⟩)
  generalize hm : (serverOf tr).length = m at *
  obtain ⟨sf, sT, sg⟩ := s
  simp only at h4
  subst h4
  let r2 : Run (Desk.Step ω (· == 7)) ⟨sf, sT, false⟩ :=
    { state := fun i => ⟨rf.state (m + i), sT, false⟩
      ev := fun i => (rf.ev (m + i)).map .server
      start := by rw [Nat.add_zero, g2]
      next := fun i => by
        rcases rf.next (m + i) with ⟨l, k1, k2⟩ | ⟨k1, k2⟩
        · obtain ⟨g, hd⟩ := g6 _ l (by omega) k1
          have hq := done_quietly hd (· == 7) sT
          have hs := Desk.Step.server (ω := ω) (U := (· == 7)) (s := ⟨rf.state (m + i), sT, false⟩) l _ rfl hq.1 k2
          simp only [hq.2] at hs
          exact .inl ⟨.server l, by rw [k1]; rfl, hs⟩
        · exact .inr ⟨by rw [k1]; rfl, by rw [← Nat.add_assoc, k2]⟩ }
  obtain ⟨r, q1, q2⟩ := run_after h1 r2
  have same : ∀ i, r.atServer.state (tr.length + i) = rf.state (m + i) ∧ r.atServer.ev (tr.length + i) = rf.ev (m + i) := by
    intro i
    refine ⟨by show (r.state _).full = _; rw [(q2 i).1], ?_⟩
    show (r.ev _).bind _ = _
    rw [(q2 i).2]
    show ((rf.ev (m + i)).map Desk.Ev.server).bind _ = _
    cases rf.ev (m + i) <;> rfl
  have before : ∀ i, r.atServer.until (tr.length + i) = rf.until (m + i) := by
    intro i
    induction i with
    | zero => rw [Nat.add_zero, Nat.add_zero, ← server_until, q1, g1]
    | succ i ih => rw [← Nat.add_assoc, ← Nat.add_assoc, until_succ, until_succ, ih, (same i).2]
  have lifts : ∀ {acts : Full.Ev → Prop}, rf.Fair acts → r.atServer.Fair acts := fair_shift same
  have late : ∀ (P : Desk.Sys → Prop), (∀ i, P (r2.state i)) → ∀ j, tr.length ≤ j → P (r.state j) := by
    intro P hP j hj
    have := hP (j - tr.length)
    rwa [← (q2 _).1, show tr.length + (j - tr.length) = j by omega] at this
  have all : ∀ j, m ≤ j → (∀ c, ((rf.state j).lines c).client = .reads ∧ ((rf.state j).lines c).worker = .selecting) ∧
      ((rf.state j).lines 7).flag = false ∧ Rests (rf.state j) 7 := by
    intro j hj
    refine lasts rf (fun s => (∀ c, (s.lines c).client = .reads ∧ (s.lines c).worker = .selecting) ∧ (s.lines 7).flag = false ∧ Rests s 7)
      (g2 ▸ ⟨fun c => ⟨(h7 c).client, (h7 c).worker⟩, (h7 7).flag, h6⟩) ?_ hj
    intro j l hj ⟨i1, i2, i3⟩ he
    obtain ⟨g, hd⟩ := g6 j l hj he
    have k1 := done_line (run_step rf he) hd
    obtain ⟨k2, k3, k4⟩ := done_apart (run_step rf he) hd 7
    exact ⟨fun c => by rw [(k1 c).1, (k1 c).2.1]; exact i1 c, k3.trans i2, ⟨by rw [k2]; exact i3.pending, by rw [k2]; exact i3.ended, k4.trans i3.pc,
      (k1 7).2.2.1.trans i3.sock, by rw [(k1 7).1]; exact i3.client⟩⟩
  have reads : ∀ j, requestsOf (pipeOf (seenIn (rf.until (m + j)))) = requestsOf (pipeOf deskTrace) := by
    intro j
    induction j with
    | zero => rw [Nat.add_zero, g1, h2]
    | succ j ih =>
      rw [← Nat.add_assoc, until_succ]
      cases he : rf.ev (m + j) with
      | none => simpa using ih
      | some l =>
        obtain ⟨g, hd⟩ := g6 _ _ (by omega) he
        rw [Option.toList_some, seenIn_append, pipeOf_append, requestsOf_append, ih, done_reads hd, List.append_nil]
  have grown : ∀ j, ∃ t, seenIn (rf.until (m + j)) = deskTrace ++ t := fun j => by
    obtain ⟨t, ht⟩ := until_le rf (show m ≤ m + j by omega)
    exact ⟨seenIn t, by rw [ht, g1, seenIn_append, h2]⟩
  have decent : r.atServer.Decent := by
    intro j x hx
    obtain ⟨t, ht⟩ := until_le r.atServer (show j ≤ tr.length + j by omega)
    have hx : x ∈ executedOf (pipeOf (seenIn (rf.until (m + j)))) := by
      rw [← before, ht, seenIn_append, ← doneIn_eq, doneIn_append]
      exact List.mem_append_left _ hx
    obtain ⟨p, hp, -⟩ := (run_at rf (m + j)).pipe
    obtain ⟨n, env, reply⟩ := x
    obtain ⟨c, o, objs, -, -, -, hq, -⟩ := executed_handle abs_empty hp (g5 _) hx
    rw [reads] at hq
    obtain ⟨t, ht⟩ := grown j
    have inj := List.inj_on_of_nodup_map (C46_once hp).2.1 hx
    rw [ht, pipeOf_append, executedOf_append] at inj
    simp [pipeOf, requestsOf] at hq
    rcases hq with ⟨rfl, -⟩ | ⟨rfl, -⟩
    · have := @inj (0, env0, .simple b!"OK") (by simp [pipeOf, executedOf]) rfl
      cases this
      exact ⟨env0_fair, .simple⟩
    · have := @inj (1, env0, .bulk b!"1") (by simp [pipeOf, executedOf]) rfl
      cases this
      exact ⟨env0_fair, .bulk (by decide)⟩
  have no : ∀ {p : Desk.Ev → Prop}, (∀ j, tr.length ≤ j → ¬ Possible (Desk.Step ω (· == 7)) p (r.state j)) → r.Fair p := fun h i hi =>
    absurd (hi (tr.length + i) (by omega)) (h _ (by omega))
  obtain ⟨i, -, i1, i2⟩ := shown_waited (r := r) (c := 7) (k := tr.length) abs_empty decent rfl (by rw [q1]; exact h11)
  refine ⟨r, i, decent, ⟨?_, ?_, fun g => lifts (g3 g), ?_, lifts ?_, ?_, ?_, ?_, ?_⟩, i2, i1⟩
  · exact lives_of r.atServer fun j => ⟨tr.length + j, by omega, by rw [(same j).1]; exact g4 _⟩
  · intro j
    by_contra h
    have h : (r.state j).gone = true := by simpa using h
    have := lasts r (fun s => s.gone = true) h (fun k l hk hg he => by
      have hs := run_step r he
      generalize r.state (k + 1) = s' at hs
      cases hs with
      | server e f g1 => rw [hg] at g1; cases g1
      | gone => rfl
      | _ => exact hg) (show j ≤ tr.length + j by omega)
    rw [(q2 j).1] at this
    cases this
  · rintro ⟨i, c, b, h | ⟨-, h'⟩⟩
    · have := (h (tr.length + i) (by omega)).2
      rw [(same i).1] at this
      exact this ((all _ (by omega)).1 c).2
    · obtain ⟨k, hk, hcl⟩ := h' (tr.length + i) (by omega)
      obtain ⟨k, rfl⟩ : ∃ k', k = tr.length + k' := ⟨k - tr.length, by omega⟩
      rw [(same k).1, ((all _ (by omega)).1 c).1] at hcl
      cases hcl
  · intro i hi
    exact absurd (hi (m + i) (by omega)) (rests_none (all _ (by omega)).2.2)
  · refine keeps_from (k := tr.length) fun j hj => ?_
    obtain ⟨j, rfl⟩ : ∃ k, j = tr.length + k := ⟨j - tr.length, by omega⟩
    rw [(same j).1]
    obtain ⟨a1, a2, a3⟩ := all (m + j) (by omega)
    exact ⟨a2, (a1 7).2, by rw [(a1 7).1]; simp⟩
  · intro j x hx
    have hx := (readBy_mono r.atServer 7 (show j ≤ tr.length + j by omega)).subset hx
    rw [Run.readBy, before] at hx
    obtain ⟨p, hp, -⟩ := (run_at rf (m + j)).pipe
    have hq := (mem_askedBy (run_at rf (m + j)).plain).1 hx
    rw [reads] at hq
    obtain ⟨n, o⟩ := x
    obtain ⟨rfl, -⟩ : n = 0 ∧ o = .array (req [b!"set", b!"k", b!"1"]) := by simpa [pipeOf, requestsOf] using hq
    obtain ⟨k1, k2⟩ := not_lost hp (n := 0) ((mem_pipeOf (by simp)).2 (by
      obtain ⟨t, ht⟩ := grown j
      rw [ht]
      simp))
    rw [mem_pipeOf (by simp), ← before] at k1 k2
    obtain ⟨t, ht⟩ := until_le r.atServer (show j ≤ tr.length + j by omega)
    rw [ht, seenIn_append] at k1 k2
    exact ⟨fun h => k1 (List.mem_append_left _ h), fun h => k2 (List.mem_append_left _ h)⟩
  · refine no (late (fun s => ¬ Possible (Desk.Step ω (· == 7)) (Carries 7) s) fun i => ?_)
    rintro ⟨l, s', ⟨b, hb, rfl⟩, hs⟩
    cases hs with
    | server _ f _ hf =>
      have : b <+: (sT 7).sent := hf rfl
      rw [h9] at this
      exact hb (List.prefix_nil.1 this)
  · refine no (late (fun s => ¬ Possible (Desk.Step ω (· == 7)) (AtTerminal 7) s) fun i => ?_)
    rintro ⟨l, s', hl, hs⟩
    have hp : ((r2.state i).terms 7).pc = .top := h10
    cases hl <;> cases hs <;> simp_all

/-- Those of `C93_released` can be met: after the reply the user types nothing more, the timer fires, and the connection is closed. -/
example (ω : Nat → Nat) (d : Bytes) : ∃ (r : Run (Desk.Step ω (· == 7)) (Desk.new d State.empty)) (i : Nat), r.atServer.Decent ∧ r.Served 7 ∧
    (r.state i).full.whole.hub.conns 7 ≠ none ∧ Expecting (r.state i) 7 := by
  obtain ⟨tr, s, h1, h2, h3, h4, h5, h6, h7, h8, h9, h10, h11, h12⟩ := seven_served ω d
  obtain ⟨f, T, sg⟩ := s
  simp only at h3 h4 h5 h6 h7 h8 h9 h10
  subst h4
  have hx0 : Exec (Full.Step ω) (Full.new d State.empty) (serverOf tr) f := C85_parts h1
  have hci := connInv ((full_exec hx0).2 7)
  have hfr := hci.fresh (h7 7).flag
  have p : Exec Conn.Step (f.lines 7) [.expired, .closeWon 0, .farewell 0, .sockClosed 0, .closed 0] _ :=
    .cons (.expire (h7 7).worker) (.cons (.closeWon 0 (by simp [upd]) (h7 7).flag) (.cons (.farewell 0 (by simp [upd]) h6.sock (by rw [(h7 7).client]; simp))
      (.cons (.sockClose 0 (by simp [upd])) (.one (.chanClose 0 (by simp [upd]) hfr.1)))))
  obtain ⟨f', g1, g2, g3, g4⟩ := own_exec (ω := ω) p h3 h5 rfl (by simp [Full.own])
  have h13 := h1.append (quiet_lift (U := (· == 7)) (T := T) g1 (by simp [Desk.fits, Desk.moved]))
  have hs' : serverOf (tr ++ ([.expired, .closeWon 0, .farewell 0, .sockClosed 0, .closed 0].map (Full.Ev.line 7)).map Desk.Ev.server) =
      serverOf tr ++ [.expired, .closeWon 0, .farewell 0, .sockClosed 0, .closed 0].map (Full.Ev.line 7) := by rw [serverOf_append]; rfl
  generalize hn : (tr ++ ([.expired, .closeWon 0, .farewell 0, .sockClosed 0, .closed 0].map (Full.Ev.line 7)).map Desk.Ev.server) = tr' at *
  obtain ⟨r, q1, q2⟩ := run_after h13 (⟨fun _ => ⟨f', T, false⟩, fun _ => none, rfl, fun _ => .inr ⟨rfl, rfl⟩⟩ : Run (Desk.Step ω (· == 7)) ⟨f', T, false⟩)
  have still : ∀ j, r.until (tr'.length + j) = tr' := by
    intro j
    induction j with
    | zero => exact q1
    | succ j ih => rw [← Nat.add_assoc, until_succ, ih, (q2 j).2, Option.toList_none, List.append_nil]
  have grow : ∀ j, ∃ t, serverOf tr' = r.atServer.until j ++ t := by
    intro j
    obtain ⟨t, ht⟩ := until_le r.atServer (show j ≤ tr'.length + j by omega)
    exact ⟨t, by rw [← ht, ← server_until, still]⟩
  have hseen : seenIn (serverOf tr') = deskTrace := by rw [hs', seenIn_append, h2]; rfl
  have decent : r.atServer.Decent := by
    intro j x hx
    obtain ⟨t, ht⟩ := grow j
    refine desk_decent hseen x ?_
    rw [ht, seenIn_append, doneIn_append]
    exact List.mem_append_left _ hx
  have no : ∀ {p : Desk.Ev → Prop}, ¬ Possible (Desk.Step ω (· == 7)) p ⟨f', T, false⟩ → r.Fair p := fun h i hi => by
    have := hi (tr'.length + i) (by omega)
    rw [(q2 i).1] at this
    exact absurd this h
  obtain ⟨i, -, i1, i2⟩ := shown_waited (r := r) (c := 7) (k := tr'.length) abs_empty decent rfl (by
    rw [q1, ← hn, shownTo_append, List.length_append, h11]; rfl)
  refine ⟨r, i, decent, ⟨no ?_, no ?_, fun j _ => ?_, fun k => no ?_, fun _ => ?_⟩, i2, i1⟩
  · rintro ⟨l, s', hl, hs⟩
    cases hl <;> cases hs <;> simp_all
  · rintro ⟨l, s', ⟨b, hb, rfl⟩, hs⟩
    cases hs with
    | server _ f _ hf =>
      have : b <+: (T 7).sent := hf rfl
      rw [h9] at this
      exact hb (List.prefix_nil.1 this)
  · have := client_reads (run_exec r.atServer j) (c := 7) (fun x hx => by
      obtain ⟨t, ht⟩ := grow j
      have hx : .client x ∈ lineOf 7 (serverOf tr') := by rw [ht, lineOf_append]; exact List.mem_append_left _ hx
      rw [hs', lineOf_append, List.mem_append] at hx
      rcases hx with hx | hx
      · exact absurd (h12 _ hx) (by simp [smooth])
      · simp [lineOf] at hx)
    show ((r.atServer.state j).lines 7).client ≠ _
    rw [this]
    simp
  · rintro ⟨l, s', ⟨x, rfl, hx⟩, hs⟩
    cases hs with
    | server _ f'' _ _ hs =>
      have hp := properInv hx0 7
      have h3' : (f.lines 7).pcs 3 = .idle := by
        by_contra h
        rw [(lineInv hx0 7).started h] at h8
        cases h8
      have hk : ∀ k, (f'.lines 7).pcs k ≠ .closeStart ∧ Conn.closing ((f'.lines 7).pcs k) = false := by
        intro k
        rw [g4]
        by_cases h0 : k = 0
        · subst h0; simp [upd, Conn.closing]
        · simp only [upd, h0, if_false]
          by_cases h4 : 3 < k
          · simp [hp.rest k h4, Conn.closing]
          · obtain rfl | rfl | rfl : k = 1 ∨ k = 2 ∨ k = 3 := by omega
            · rcases hp.one with h | ⟨b, h⟩ | ⟨b, h⟩ <;> simp [h, Conn.closing]
            · rcases hp.two with h | h | h <;> simp [h, Conn.closing]
            · simp [h3', Conn.closing]
      exact no_closing (hk k) (by rw [g2, h8]; simp) ⟨_, _, hx, hs⟩
  · intro i _ _
    refine ⟨tr'.length + i, by omega, ?_⟩
    show ((r.state _).full.lines 7).worker ≠ _
    rw [(q2 i).1]
    show (f'.lines 7).worker ≠ _
    rw [g4]
    simp

end Verif.Props
