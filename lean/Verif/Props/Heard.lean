import Verif.Spec.Heard
import Verif.Props.Fair

/-! # C89 – in the end everything a client sends is read, and answered -/

namespace Verif.Props

open Spec
open Fut (upd)

variable {ω : Nat → Nat} {d : Bytes} {st : State} {s s' : Full.Sys} {a0 : DB}

/-- What other goroutines do leaves a reader that can read alone; what it does brings it on. -/
theorem reader_step {e : Full.Ev} (hs : Full.Step ω s e s') {c : Nat} {o : Resp} (hp : ∃ rest, parse (s.whole.feeds c).pending = .ok o rest)
    (hr : (s.whole.feeds c).pc = .reading) (hi : LineInv s c) (hk : (s.lines c).sock = false) (hg : (s.lines c).client ≠ .gone) :
    (∃ n, e = .both (.net (.read c n o)) c (.read 2)) ∨
    ((∃ rest, parse (s'.whole.feeds c).pending = .ok o rest) ∧ (s'.whole.feeds c).pc = .reading ∧
      (((s'.lines c).pcs 2 = (s.lines c).pcs 2 ∧ ¬ Reader c e) ∨ ((s.lines c).pcs 2 = .idle ∧ (s'.lines c).pcs 2 = .readReset) ∨
        ((s.lines c).pcs 2 = .readReset ∧ (s'.lines c).pcs 2 = .reading))) := by
  obtain ⟨rest, hp⟩ := hp
  have ok : ∀ b, ∃ rest, parse ((s.whole.feeds c).pending ++ b) = .ok o rest := by
    intro b
    obtain ⟨f, e1, e2⟩ := (C62_read _ _ _).1 hp
    exact ⟨rest ++ b, (C62_read _ _ _).2 ⟨f, by rw [e1, List.append_assoc], e2⟩⟩
  have feed : ∀ c' x y, Feed.Step (s.whole.feeds c') x y → (∀ o, x ≠ .read o) → (∃ rest, parse (upd s.whole.feeds c' y c).pending = .ok o rest) ∧
      (upd s.whole.feeds c' y c).pc = .reading := by
    intro c' x y hx hn
    by_cases hc : c = c'
    · subst hc
      rw [upd_same]
      cases hx with
      | arrive b => exact ⟨ok b, hr⟩
      | finish => exact ⟨⟨rest, hp⟩, hr⟩
      | read o' => exact absurd rfl (hn o')
      | stop _ h => rw [hp] at h; cases h
      | leave _ _ h => rw [hp] at h; cases h
      | crash _ h => rw [hp] at h; cases h
    · rw [upd_other _ _ hc]; exact ⟨⟨rest, hp⟩, hr⟩
  have line : ∀ c' x y, Conn.Step (s.lines c') x y → (x ≠ .readCall 2 ∧ x ≠ .readReset 2 ∧ x ≠ .read 2 ∧ x ≠ .readErr 2 ∧ (∀ i b, x = .writeCall i b → i ≠ 2) ∧
      x ≠ .closeCall 2) → (upd s.lines c' y c).pcs 2 = (s.lines c).pcs 2 := by
    intro c' x y hx hn
    by_cases hc : c = c'
    · subst hc
      rw [upd_same]
      have := hi.reader
      clear feed ok hs hi
      cases hx <;> grind [upd]
    · rw [upd_other _ _ hc]
  have quiet : ∀ {e : Full.Ev} {w : Whole.Sys} {l : Nat → Conn.Sys} {k : Nat → Bool}, ((∃ rest, parse (w.feeds c).pending = .ok o rest) ∧ (w.feeds c).pc = .reading) →
      (l c).pcs 2 = (s.lines c).pcs 2 → ¬ Reader c e → (∃ n, e = .both (.net (.read c n o)) c (.read 2)) ∨
      ((∃ rest, parse ((Full.Sys.mk w l k).whole.feeds c).pending = .ok o rest) ∧ ((Full.Sys.mk w l k).whole.feeds c).pc = .reading ∧
      ((((Full.Sys.mk w l k).lines c).pcs 2 = (s.lines c).pcs 2 ∧ ¬ Reader c e) ∨ ((s.lines c).pcs 2 = .idle ∧ ((Full.Sys.mk w l k).lines c).pcs 2 = .readReset) ∨
        ((s.lines c).pcs 2 = .readReset ∧ ((Full.Sys.mk w l k).lines c).pcs 2 = .reading))) :=
    fun h1 h2 h3 => .inr ⟨h1.1, h1.2, .inl ⟨h2, h3⟩⟩
  cases hs with
  | whole e w h1 h2 =>
    refine quiet ?_ rfl (by rintro ⟨⟩; simp [Full.apart] at h1)
    cases h2 with
    | feed | kill | read => simp [Full.apart] at h1
    | _ => exact ⟨⟨rest, hp⟩, hr⟩
  | send c' e w h1 h2 h3 h4 =>
    obtain ⟨-, x, g1, g2, -⟩ := whole_feed h4
    refine quiet ?_ rfl (by rintro ⟨⟩; simp [Full.sends] at h1)
    rw [g2]
    exact feed c' e x g1 (by rintro o rfl; simp [Full.sends] at h1)
  | readCall c' x h1 h2 h3 h4 h5 =>
    by_cases hc : c = c'
    · subst hc
      cases h5 with
      | readCall _ _ h6 => exact .inr ⟨⟨rest, hp⟩, hr, .inr (.inl ⟨h6, by simp [upd]⟩)⟩
    · exact quiet ⟨⟨rest, hp⟩, hr⟩ (by rw [upd_other _ _ hc]) (by rintro ⟨⟩; exact hc rfl)
  | read c' n o' w x h1 h2 =>
    obtain ⟨y, hub, g1, -, rfl⟩ := whole_read h1
    by_cases hc : c = c'
    · subst hc
      cases g1 with
      | read _ _ _ g => rw [hp] at g; cases g; exact .inl ⟨n, rfl⟩
    · exact quiet (by simp only [upd_other _ _ hc]; exact ⟨⟨rest, hp⟩, hr⟩) (by rw [upd_other _ _ hc]) (by rintro ⟨⟩; exact hc rfl)
  | finish c' e w x h1 h2 h3 =>
    obtain ⟨-, y, g1, g2, -⟩ := whole_feed h2
    by_cases hc : c = c'
    · subst hc
      cases g1 with
      | arrive | finish | read | crash => simp [Full.ends] at h1
      | stop _ h => rw [hp] at h; cases h
      | leave _ _ h => rw [hp] at h; cases h
    · refine quiet ?_ (by rw [upd_other _ _ hc]) (by rintro ⟨⟩; exact hc rfl)
      rw [g2]
      exact feed c' e y g1 (by rintro o rfl; simp [Full.ends] at h1)
  | kill c' w h1 h2 =>
    obtain ⟨-, y, g1, g2, -⟩ := whole_feed h2
    by_cases hc : c = c'
    · subst hc
      cases g1 with
      | crash _ h => rw [hp] at h; cases h
    · refine quiet ?_ rfl (by rintro ⟨⟩; exact hc rfl)
      rw [g2]
      exact feed c' _ y g1 (by simp)
  | cut c' x h1 h2 h3 =>
    by_cases hc : c = c'
    · subst hc
      rcases h2 with h | h
      · rw [hk] at h; cases h
      · exact absurd h hg
    · exact quiet ⟨⟨rest, hp⟩, hr⟩ (by rw [upd_other _ _ hc]) (by rintro ⟨⟩; exact hc rfl)
  | closeCall c' x h1 h2 h3 h4 => exact quiet ⟨⟨rest, hp⟩, hr⟩ (line _ _ _ h4 (by simp)) (by rintro ⟨⟩)
  | writeCall n c' b x h1 h2 h3 => exact quiet ⟨⟨rest, hp⟩, hr⟩ (line _ _ _ h3 (by simp)) (by rintro ⟨⟩)
  | wrote n c' b w x h1 h2 =>
    obtain ⟨-, rfl⟩ := whole_wrote h1
    exact quiet ⟨⟨rest, hp⟩, hr⟩ (line _ _ _ h2 (by simp)) (by rintro ⟨⟩)
  | refuse n c' b w x h1 h2 h3 =>
    obtain ⟨-, rfl⟩ := whole_refused h2
    exact quiet ⟨⟨rest, hp⟩, hr⟩ (line _ _ _ h3 (by simp)) (by rintro ⟨⟩)
  | fail n c' b w x h1 h2 =>
    obtain ⟨-, rfl⟩ := whole_refused h1
    exact quiet ⟨⟨rest, hp⟩, hr⟩ (line _ _ _ h2 (by simp)) (by rintro ⟨⟩)
  | own c' x y h1 h2 h3 h4 =>
    by_cases hx : c = c' ∧ x = .readReset 2
    · obtain ⟨rfl, rfl⟩ := hx
      cases h4 with
      | readReset _ h6 => exact .inr ⟨⟨rest, hp⟩, hr, .inr (.inr ⟨h6, by simp [upd]⟩)⟩
    · by_cases hc : c = c'
      · subst hc
        have hx : x ≠ .readReset 2 := fun h => hx ⟨rfl, h⟩
        refine quiet ⟨⟨rest, hp⟩, hr⟩ (line _ _ _ h4 ⟨?_, hx, ?_, ?_, ?_, ?_⟩) (by rintro ⟨⟩ <;> first | exact hx rfl | simp [Full.own] at h3)
        all_goals first | rintro rfl | rintro i b rfl
        all_goals simp [Full.own] at h3
      · exact quiet ⟨⟨rest, hp⟩, hr⟩ (by rw [upd_other _ _ hc]) (by rintro ⟨⟩ <;> exact hc rfl)

variable {r : Run (Full.Step ω) (Full.new d st)}

theorem hub_conns {h h' : Hub.Sys} {e : Hub.Ev} (hs : Hub.Step h e h') {c : Nat} (hc : h.conns c ≠ none) : h'.conns c ≠ none := by
  cases hs with
  | connect c' id => by_cases e : c = c' <;> simp_all [upd]
  | _ => exact hc

theorem whole_conns {w w' : Whole.Sys} {e : Whole.Ev} (hs : Whole.Step ω w e w') {c : Nat} (hc : w.hub.conns c ≠ none) : w'.hub.conns c ≠ none := by
  cases hs with
  | read _ _ _ _ _ _ _ g | bus _ _ _ _ g | pass _ _ _ _ g | execute _ _ _ _ _ _ g | crash _ _ _ _ _ g => exact hub_conns g hc
  | _ => exact hc

theorem full_conns {e : Full.Ev} (hs : Full.Step ω s e s') {c : Nat} (hc : s.whole.hub.conns c ≠ none) : s'.whole.hub.conns c ≠ none := by
  cases hs with
  | whole _ _ _ g | send _ _ _ _ _ _ g | read _ _ _ _ _ g | finish _ _ _ _ _ g | kill _ _ _ g | wrote _ _ _ _ _ g | refuse _ _ _ _ _ _ g
  | fail _ _ _ _ _ g => exact whole_conns g hc
  | _ => exact hc

theorem whole_pending {w w' : Whole.Sys} {e : Whole.Ev} (hs : Whole.Step ω w e w') {c : Nat} (hp : (w'.feeds c).pending ≠ []) :
    (w.feeds c).pending ≠ [] ∨ w.hub.conns c ≠ none := by
  cases hs with
  | feed c' _ _ _ _ g | kill c' _ _ _ g =>
    by_cases h : c = c'
    · exact .inr (h ▸ g)
    · simp only [upd_other _ _ h] at hp; exact .inl hp
  | read c' n o x h _ g =>
    by_cases h : c = c'
    · subst h
      cases g with
      | read _ rest _ g => exact .inl (by rintro h; rw [h] at g; rw [show parse [] = .eof from rfl] at g; cases g)
    · simp only [upd_other _ _ h] at hp; exact .inl hp
  | _ => exact .inl hp

/-- Bytes arrive on connections only. -/
theorem pending_conn {tr : List Full.Ev} (h : Exec (Full.Step ω) (Full.new d st) tr s) {c : Nat} (hp : (s.whole.feeds c).pending ≠ []) :
    s.whole.hub.conns c ≠ none := by
  revert hp
  refine (full_exec h).1.inv (P := fun _ w => (w.feeds c).pending ≠ [] → w.hub.conns c ≠ none) (by simp [Full.new, Whole.new, Feed.new]) ?_
  intro _ w e w' _ ih hs hp
  exact whole_conns hs ((whole_pending hs hp).elim ih id)

/-- How far a reader is from the socket. -/
def farFrom : Conn.Pc → Nat
  | .idle => 2
  | .readReset => 1
  | _ => 0

theorem keeps_sock {c : Nat} (hk : r.Keeps c) (j : Nat) : ((r.state j).lines c).sock = false :=
  ((connInv ((full_exec (run_exec r j)).2 c)).fresh (hk j).1).2.1

theorem keeps_cut {c : Nat} (hk : r.Keeps c) (j : Nat) : (r.state j).cut c = false := by
  by_contra hc
  rcases ((run_at r j).line c).cut (by simpa using hc) with h | h
  · rw [keeps_sock hk j] at h; cases h
  · exact (hk j).2.2 h

/-- The next object is read. -/
theorem next_read (hu : r.Lives) {c : Nat} (hf : r.Fair (Reader c)) (hk : r.Keeps c) (k : Nat) : ∀ {i : Nat} {o : Resp},
    (∃ rest, parse ((r.state i).whole.feeds c).pending = .ok o rest) → ((r.state i).whole.feeds c).pc = .reading → (r.state i).whole.hub.conns c ≠ none →
    farFrom (((r.state i).lines c).pcs 2) = k → ∃ j n, i ≤ j ∧ r.ev j = some (.both (.net (.read c n o)) c (.read 2)) := by
  induction k using Nat.strongRecOn with
  | ind k ih =>
    intro i o h1 h2 h3 h4
    have hcn : ∀ j, i ≤ j → (r.state j).whole.hub.conns c ≠ none :=
      fun j hj => lasts r (fun s => s.whole.hub.conns c ≠ none) h3 (fun j l _ hp he => full_conns (run_step r he) hp) hj
    let P : Full.Sys → Prop := fun s => (∃ rest, parse (s.whole.feeds c).pending = .ok o rest) ∧ (s.whole.feeds c).pc = .reading ∧ farFrom ((s.lines c).pcs 2) = k
    let Q : Nat → Prop := fun j => ∃ j' n, i ≤ j' ∧ r.ev j' = some (.both (.net (.read c n o)) c (.read 2))
    have step : ∀ j l, i ≤ j → P (r.state j) → r.ev j = some l → Q (j + 1) ∨ (P (r.state (j + 1)) ∧ ¬ Reader c l) := by
      intro j l hj ⟨p1, p2, p3⟩ he
      rcases reader_step (run_step r he) p1 p2 ((run_at r j).line c) (keeps_sock hk j) (hk j).2.2 with ⟨n, rfl⟩ | ⟨q1, q2, q3⟩
      · exact .inl ⟨j, n, hj, he⟩
      · rcases q3 with ⟨q3, q4⟩ | ⟨q3, q4⟩ | ⟨q3, q4⟩
        · exact .inr ⟨⟨q1, q2, by rw [q3]; exact p3⟩, q4⟩
        · rw [q3] at p3
          obtain ⟨j', n, g1, g2⟩ := ih 1 (by simp [farFrom] at p3; omega) q1 q2 (hcn (j + 1) (by omega)) (by rw [q4]; rfl)
          exact .inl ⟨j', n, by omega, g2⟩
        · rw [q3] at p3
          obtain ⟨j', n, g1, g2⟩ := ih 0 (by simp [farFrom] at p3; omega) q1 q2 (hcn (j + 1) (by omega)) (by rw [q4]; rfl)
          exact .inl ⟨j', n, by omega, g2⟩
    obtain ⟨j, -, hq⟩ := leads r hf P Q ⟨h1, h2, h4⟩ (fun j l hj hp he => (step j l hj hp he).elim .inr fun h => .inl h.1)
      (by
        rintro j hj ⟨⟨rest, p1⟩, p2, p3⟩
        have hup := hu j
        rcases ((run_at r j).line c).reader with g | g | g
        · exact ⟨_, _, .call, .readCall c _ hup (hcn j hj) p2 (keeps_cut hk j) (.readCall 2 (by decide) g)⟩
        · exact ⟨_, _, .reset, .own c _ _ hup (hcn j hj) rfl (.readReset 2 g (hk j).2.1)⟩
        · obtain ⟨id, hid⟩ := Option.ne_none_iff_exists'.1 (hcn j hj)
          obtain ⟨tr, hi⟩ := (run_at r j).inv
          have hn : (r.state j).whole.hub.req.topic.dists (r.state j).whole.hub.next = none := by
            by_contra hn
            exact Nat.lt_irrefl _ (hi.unread _ hn)
          exact ⟨_, _, .read (r.state j).whole.hub.next o, .read c _ o _ _ (.read c _ o _ _ hup.1 (.read o rest p2 p1) (.read c id o _ hup.2 hid
            (.publish _ _ _ (.publish _ hn)))) (.read 2 g)⟩)
      (fun j l hj hp he hd => (step j l hj hp he).elim id fun h => absurd hd h.2)
    exact hq

/-- What is sent is taken as objects in one way only. -/
theorem taken_more {os : List Resp} {b : Bytes} (h : TakenAll os b) : ∀ {os' : List Resp} {used pending t : Bytes}, TakenAll os' used →
    b ++ t = used ++ pending → os <+: os' ∨ ∃ o rest, (os' ++ [o]) <+: os ∧ parse pending = .ok o rest := by
  induction os generalizing b with
  | nil => exact fun _ _ => .inl (List.nil_prefix)
  | cons o os ih =>
    intro os' used pending t h' he
    cases h with
    | @cons _ _ b1 bs h1 h2 =>
      have p1 : parse (b1 ++ (bs ++ t)) = .ok o (bs ++ t) := (C62_read _ _ _).2 ⟨b1, rfl, h1⟩
      cases h' with
      | nil =>
        refine .inr ⟨o, bs ++ t, by simp, ?_⟩
        rw [← p1]
        exact congrArg parse (by simpa using he.symm)
      | @cons o' os' b2 bs' h3 h4 =>
        have p2 : parse (b2 ++ (bs' ++ pending)) = .ok o' (bs' ++ pending) := (C62_read _ _ _).2 ⟨b2, rfl, h3⟩
        have he : b1 ++ (bs ++ t) = b2 ++ (bs' ++ pending) := by simpa using he
        rw [he, p2] at p1
        obtain ⟨rfl, e⟩ := ReadRes.ok.inj p1
        rcases ih h2 h4 e.symm with h | ⟨o2, rest, g1, g2⟩
        · exact .inl (List.cons_prefix_cons.2 ⟨rfl, h⟩)
        · exact .inr ⟨o2, rest, List.cons_prefix_cons.2 ⟨rfl, g1⟩, g2⟩

theorem run_feed (r : Run (Full.Step ω) (Full.new d st)) (c j : Nat) : ∃ used, TakenAll ((r.readBy c j).map Prod.snd) used ∧
    r.sentBy c j = used ++ ((r.state j).whole.feeds c).pending ∧
    ∀ o rest, parse ((r.state j).whole.feeds c).pending = .ok o rest → ((r.state j).whole.feeds c).pc = .reading := by
  obtain ⟨k, h1, h2⟩ := whole_net (full_exec (run_exec r j)).1
  obtain ⟨g1, -, -, g4, -⟩ := net_split h1
  have g1 := g1 c
  rw [h2.feeds] at g1
  obtain ⟨used, k1, k2⟩ := C69_requests g1
  obtain ⟨i1, i2, i3⟩ := pc_parse g1
  refine ⟨used, ?_, ?_, ?_⟩
  · rw [Run.readBy, seenIn, askedBy_eq c g4]; exact k1
  · rw [Run.sentBy, seenIn, piecesOf_eq]; exact k2
  · intro o rest hp
    change parse ((r.state j).whole.feeds c).pending = _ at hp
    cases hc : ((r.state j).whole.feeds c).pc with
    | reading => rfl
    | stopped => rw [i1 hc] at hp; cases hp
    | crashed => rw [i2 hc] at hp; cases hp
    | left => rw [(i3 hc).1] at hp; cases hp

theorem readBy_mono (r : Run (Full.Step ω) (Full.new d st)) (c : Nat) {i j : Nat} (h : i ≤ j) : r.readBy c i <+: r.readBy c j := by
  obtain ⟨t, ht⟩ := until_le r h
  rw [Run.readBy, Run.readBy, ht, seenIn_append, askedBy_append]
  exact List.prefix_append _ _

theorem sentBy_mono (r : Run (Full.Step ω) (Full.new d st)) (c : Nat) {i j : Nat} (h : i ≤ j) : r.sentBy c i <+: r.sentBy c j := by
  obtain ⟨t, ht⟩ := until_le r h
  rw [Run.sentBy, Run.sentBy, ht, seenIn_append, piecesOf_append, List.flatten_append]
  exact List.prefix_append _ _

/-- C89: all objects that have arrived are read in the end, in their order, if the process lives, the goroutine reading is not forgotten, and nobody closes
the connection and its client does not go away. -/
theorem C89_read (hu : r.Lives) {c : Nat} (hf : r.Fair (Reader c)) (hk : r.Keeps c) {os : List Resp} {b : Bytes} (hb : TakenAll os b) {i : Nat}
    (hs : b <+: r.sentBy c i) : ∃ j, os <+: (r.readBy c j).map Prod.snd := by
  suffices h : ∀ m i, b <+: r.sentBy c i → os.length - (r.readBy c i).length = m → ∃ j, os <+: (r.readBy c j).map Prod.snd from h _ i hs rfl
  intro m
  induction m using Nat.strongRecOn with
  | ind m ih =>
    intro i ⟨t, ht⟩ hm
    obtain ⟨used, h1, h2, h3⟩ := run_feed r c i
    rcases taken_more hb h1 (ht.trans h2) with h | ⟨o, rest, g1, g2⟩
    · exact ⟨i, h⟩
    · have hp : ((r.state i).whole.feeds c).pending ≠ [] := by
        intro h
        rw [h, show parse [] = .eof from rfl] at g2
        cases g2
      obtain ⟨j, n, k1, k2⟩ := next_read hu hf hk _ ⟨rest, g2⟩ (h3 o rest g2) (pending_conn (run_exec r i) hp) rfl
      have hl := g1.length_le
      simp only [List.length_append, List.length_map, List.length_singleton] at hl
      have hj : r.readBy c (j + 1) = r.readBy c j ++ [(n, o)] := by
        rw [Run.readBy, until_succ, k2, seenIn_append, askedBy_append]
        simp [Run.readBy, seenIn, wholeOf, netOf, askedBy]
      have hij := (readBy_mono r c k1).length_le
      refine ih _ ?_ (j + 1) (List.IsPrefix.trans ⟨t, ht⟩ (sentBy_mono r c (by omega))) rfl
      rw [hj]
      simp
      omega

theorem keeps_line {tr : List Conn.Ev} {x : Conn.Sys} (h : Exec Conn.Step Conn.new tr x) : ((∃ k, .closeWon k ∈ tr) → x.flag = true) ∧
    (.client .gone ∈ tr → x.client = .gone) := by
  refine h.inv (P := fun tr x => ((∃ k, .closeWon k ∈ tr) → x.flag = true) ∧ (.client .gone ∈ tr → x.client = .gone)) (by simp) ?_
  intro tr x e x' _ ih hs
  cases hs <;> simp only [List.mem_append, List.mem_singleton] <;> grind

/-- C89: and every command among them is answered, with the reply it got, if moreover no goroutine is forgotten, the response worker is not held for ever and
neither bus loses one of them. -/
theorem C89_answered (h0 : Abs st a0) (hu : r.Lives) (ho : r.Sane) (hf : r.FairToAll) (hh : ¬ r.Holds) {c : Nat} (hr : r.Fair (Reader c)) (hk : r.Keeps c)
    {os : List Resp} {b : Bytes} (hb : TakenAll os b) {i : Nat} (hs : b <+: r.sentBy c i)
    (hl : ∀ j, ∀ x ∈ r.readBy c j, .pipe (.dropped x.1) ∉ seenIn (r.until j) ∧ .pipe (.unqueued x.1) ∉ seenIn (r.until j)) :
    ∃ j, os <+: (r.readBy c j).map Prod.snd ∧ ∀ x ∈ r.readBy c j, (∃ objs, ArrayOf x.2 objs) →
      ∃ j' env reply, .pipe (.executed x.1 env reply) ∈ seenIn (r.until j') ∧ .pipe (.wrote c x.1 reply.encode) ∈ seenIn (r.until j') := by
  obtain ⟨j, hj⟩ := C89_read hu hr hk hb hs
  refine ⟨j, hj, fun x hx ⟨objs, ha⟩ => ?_⟩
  refine C88_answered h0 hf hu ho hh (mem_asked hx) ha ?_ ?_
  · intro j'
    have hm : x ∈ r.readBy c (j + j') := (readBy_mono r c (by omega)).subset hx
    obtain ⟨g1, g2⟩ := hl _ x hm
    obtain ⟨t, ht⟩ := until_le r (show j' ≤ j + j' by omega)
    rw [ht, seenIn_append] at g1 g2
    exact ⟨fun h => g1 (List.mem_append_left _ h), fun h => g2 (List.mem_append_left _ h)⟩
  · intro j'
    obtain ⟨g1, g2⟩ := keeps_line ((full_exec (run_exec r j')).2 c)
    obtain ⟨k1, -, k2⟩ := hk j'
    exact ⟨fun k h => (by rw [g1 ⟨k, h⟩] at k1; cases k1), fun h => k2 (g2 h)⟩

/-! ### the hypotheses can be met -/

/-- A connection with nothing to be read from it, its goroutine waiting in `Read`. -/
structure Rests (s : Full.Sys) (c : Nat) : Prop where
  pending : (s.whole.feeds c).pending = []
  ended : (s.whole.feeds c).ended = false
  pc : (s.lines c).pcs 2 = .reading
  sock : (s.lines c).sock = false
  client : (s.lines c).client ≠ .gone

theorem rests_none {c : Nat} (h : Rests s c) : ¬ Possible (Full.Step ω) (Reader c) s := by
  obtain ⟨h1, h2, h3, h4, h5⟩ := h
  rintro ⟨l, s', hr, hs⟩
  have hp : parse (s.whole.feeds c).pending = .eof := by rw [h1]; rfl
  cases hr with
  | call =>
    cases hs with
    | readCall _ x _ _ _ _ h6 => cases h6 with | readCall _ _ g => rw [h3] at g; cases g
    | own _ _ _ _ _ g => simp [Full.own] at g
  | reset => cases hs with | own _ _ _ _ _ _ h6 => cases h6 with | readReset _ g => rw [h3] at g; cases g
  | read n o =>
    cases hs with
    | read _ _ _ w x g => obtain ⟨y, -, g, -⟩ := whole_read g; cases g with | read _ _ _ g => rw [hp] at g; cases g
  | finish e =>
    cases hs with
    | finish _ _ w x g1 g2 =>
      obtain ⟨-, y, g, -⟩ := whole_feed g2
      cases g with
      | arrive | finish | read | crash => simp [Full.ends] at g1
      | stop _ g => rw [hp] at g; cases g
      | leave _ g => rw [h2] at g; cases g
  | crash =>
    cases hs with
    | whole _ w g => simp [Full.apart] at g
    | send _ _ w g => simp [Full.sends] at g
    | kill _ w _ g => obtain ⟨-, y, g, -⟩ := whole_feed g; cases g with | crash _ g => rw [hp] at g; cases g
  | fail =>
    cases hs with
    | cut _ x _ g =>
      rcases g with g | g
      · rw [h4] at g; cases g
      · exact h5 g
    | own _ _ _ _ _ g => simp [Full.own] at g

/-- What the other goroutines do leaves the readers, and what they have to read, alone. -/
theorem done_apart {g : Goroutine} {e : Full.Ev} (hs : Full.Step ω s e s') (hd : DoneBy g e) (c : Nat) :
    s'.whole.feeds = s.whole.feeds ∧ (s'.lines c).flag = (s.lines c).flag ∧ (s'.lines c).pcs 2 = (s.lines c).pcs 2 := by
  constructor
  · have hw : ∀ {e w}, Whole.Step ω s.whole e w → (∀ c x, e ≠ .net (.feed c x)) → (∀ c n o, e ≠ .net (.read c n o)) → w.feeds = s.whole.feeds := by
      intro e w h h1 h2
      cases h <;> first | rfl | exact absurd rfl (h1 _ _) | exact absurd rfl (h2 _ _ _)
    cases hs with
    | whole e w h1 h2 => exact hw h2 (by rintro c x rfl; cases hd) (by rintro c n o rfl; cases hd)
    | send _ _ _ _ _ _ h | kill _ _ _ h => cases hd
    | read | finish => cases hd
    | wrote _ _ _ _ _ h => exact hw h (by simp) (by simp)
    | refuse _ _ _ _ _ _ h => exact hw h (by simp) (by simp)
    | fail _ _ _ _ _ h => exact hw h (by simp) (by simp)
    | _ => rfl
  · have h1 : ∀ x ∈ lineOf c [e], (∃ b, x = .writeCall 1 b ∨ x = .wrote 1 b ∨ x = .writeClosed 1 b ∨ x = .writeErr 1 b) ∨ x = .writeReset 1 := by
      intro x hx
      rcases mem_lineOf.1 hx with h | ⟨w, h⟩ <;> simp only [List.mem_singleton] at h <;> subst h <;> cases hd <;> simp
    refine ((full_step hs).2 c).inv (P := fun t x => (∀ y ∈ t, y ∈ lineOf c [e]) → x.flag = (s.lines c).flag ∧ x.pcs 2 = (s.lines c).pcs 2)
      (fun _ => ⟨rfl, rfl⟩) ?_ (fun _ h => h)
    intro t x y x' _ ih hst hm
    have ih := ih fun z hz => hm z (List.mem_append_left _ hz)
    have := h1 y (hm y (by simp))
    obtain ⟨i1, i2⟩ := ih
    clear hs hd ih h1 hm
    cases hst <;> grind [upd]

theorem kept_before {e : Full.Ev} (hs : Full.Step ω s e s') (c : Nat) (h : ¬ ((s.lines c).flag = false ∧ (s.lines c).worker = .selecting ∧ (s.lines c).client ≠ .gone)) :
    ¬ ((s'.lines c).flag = false ∧ (s'.lines c).worker = .selecting ∧ (s'.lines c).client ≠ .gone) := by
  refine ((full_step hs).2 c).inv (P := fun _ x => ¬ (x.flag = false ∧ x.worker = .selecting ∧ x.client ≠ .gone)) h ?_
  intro tr x l x' _ hx hst
  cases hst <;> grind

theorem keeps_from {c k : Nat} (h : ∀ j, k ≤ j → ((r.state j).lines c).flag = false ∧ ((r.state j).lines c).worker = .selecting ∧
    ((r.state j).lines c).client ≠ .gone) : r.Keeps c := by
  intro j
  by_contra hj
  exact lasts r (fun s => ¬ ((s.lines c).flag = false ∧ (s.lines c).worker = .selecting ∧ (s.lines c).client ≠ .gone)) hj
    (fun j l _ hx he => kept_before (run_step r he) c hx) (show j ≤ k + j by omega) (h _ (by omega))

/-- A goroutine reading gets to `Read`. -/
theorem settle_reader {tr : List Full.Ev} (h : Exec (Full.Step ω) (Full.new d st) tr s) {c : Nat} (hu : s.up) (hc : s.whole.hub.conns c ≠ none)
    (ho : Open (s.lines c)) (hr : (s.whole.feeds c).pc = .reading) :
    ∃ tr' s', Exec (Full.Step ω) (Full.new d st) (tr ++ tr') s' ∧ seenIn tr' = [] ∧ s'.whole = s.whole ∧ (s'.lines c).pcs 2 = .reading ∧
      (s'.lines c).pcs 1 = (s.lines c).pcs 1 ∧ Open (s'.lines c) ∧ (∀ c', c' ≠ c → s'.lines c' = s.lines c') ∧
      ∀ e ∈ tr', e = .line c (.readCall 2) ∨ e = .line c (.readReset 2) := by
  have hk : s.cut c = false := by
    by_contra hk
    rcases (lineInv h c).cut (by simpa using hk) with h' | h'
    · rw [((connInv ((full_exec h).2 c)).fresh ho.flag).2.1] at h'; cases h'
    · rw [ho.client] at h'; cases h'
  have second : ∀ {tr : List Full.Ev} {s : Full.Sys}, Exec (Full.Step ω) (Full.new d st) tr s → s.up → s.whole.hub.conns c ≠ none → Open (s.lines c) →
      (s.lines c).pcs 2 = .readReset → ∃ tr' s', Exec (Full.Step ω) (Full.new d st) (tr ++ tr') s' ∧ seenIn tr' = [] ∧ s'.whole = s.whole ∧
      (s'.lines c).pcs 2 = .reading ∧ (s'.lines c).pcs 1 = (s.lines c).pcs 1 ∧ Open (s'.lines c) ∧ (∀ c', c' ≠ c → s'.lines c' = s.lines c') ∧
      ∀ e ∈ tr', e = .line c (.readCall 2) ∨ e = .line c (.readReset 2) := by
    intro tr s h hu hc ho hp
    refine ⟨[.line c (.readReset 2)], _, h.snoc (.own c _ _ hu hc rfl (.readReset 2 hp ho.worker)), rfl, rfl, by simp [upd], by simp [upd],
      ⟨by simp [upd, ho.flag], by simp [upd, ho.worker], by simp [upd, ho.client]⟩, fun c' hc => by simp [upd, hc], by simp⟩
  rcases (lineInv h c).reader with g | g | g
  · have s1 := Full.Step.readCall (ω := ω) c _ hu hc hr hk (.readCall 2 (by decide) g)
    obtain ⟨tr', s', k1, k2, k3, k4, k5, k6, k7, k8⟩ := second (h.snoc s1) hu hc ⟨by simp [upd, ho.flag], by simp [upd, ho.worker], by simp [upd, ho.client]⟩ (by simp [upd])
    refine ⟨.line c (.readCall 2) :: tr', s', by simpa using k1, ?_, k3, k4, by simpa [upd] using k5, k6, fun c' hc => by rw [k7 c' hc]; simp [upd, hc], by simpa using k8⟩
    rw [← List.singleton_append, seenIn_append, k2]; rfl
  · exact second h hu hc ho g
  · exact ⟨[], s, by simpa using h, rfl, rfl, g, rfl, ho, fun _ _ => rfl, by simp⟩

/-- A reply being written has not been lost. -/
theorem not_lost {tr : List Pipe.Ev} {p : Pipe.Sys} (h : Exec Pipe.Step (Pipe.new st) tr p) {n : Nat} (ha : .answering n ∈ tr) :
    .dropped n ∉ tr ∧ .unqueued n ∉ tr := by
  suffices hh : (.unqueued n ∈ tr → 0 < cnt (executedOf tr) n ∧ cnt p.responses n = 0 ∧ cnt p.buffer n = 0) ∧
      (.answering n ∈ tr → 0 < cnt (executedOf tr) n ∧ cnt p.responses n = 0 ∧ .unqueued n ∉ tr) ∧
      (.dropped n ∈ tr → n < p.next ∧ cnt p.requests n = 0 ∧ cnt p.engine.toList n = 0 ∧ cnt (executedOf tr) n = 0) by
    obtain ⟨-, h2, h3⟩ := hh
    refine ⟨fun hd => ?_, (h2 ha).2.2⟩
    have := (h2 ha).1
    have := (h3 hd).2.2.2
    omega
  clear ha
  refine h.inv (P := fun tr p => (.unqueued n ∈ tr → 0 < cnt (executedOf tr) n ∧ cnt p.responses n = 0 ∧ cnt p.buffer n = 0) ∧
      (.answering n ∈ tr → 0 < cnt (executedOf tr) n ∧ cnt p.responses n = 0 ∧ .unqueued n ∉ tr) ∧
      (.dropped n ∈ tr → n < p.next ∧ cnt p.requests n = 0 ∧ cnt p.engine.toList n = 0 ∧ cnt (executedOf tr) n = 0)) (by simp) ?_
  rintro tr s e s' hx ⟨i1, i2, i3⟩ hs
  have inv := pipeInv hx
  have k1 := inv.one n
  have k2 := inv.two n
  have k3 := inv.reads n
  have k4 := inv.fresh n
  cases hs <;> simp only [List.mem_append, List.mem_singleton, executedOf_append] <;> grind [executedOf, cnt_nil, cnt_append, cnt_cons]

/-- A connection with up to two requests to be read from it. -/
structure Waits (s : Full.Sys) (c : Nat) : Prop where
  up : s.up
  pending : (s.whole.feeds c).pending = getBytes ++ getBytes ∨ (s.whole.feeds c).pending = getBytes ∨ (s.whole.feeds c).pending = []
  ended : (s.whole.feeds c).ended = false
  line : Open (s.lines c)
  sock : (s.lines c).sock = false

theorem waits_step {e : Full.Ev} {c : Nat} (hs : Full.Step ω s e s') (hr : Reader c e) (h : Waits s c) : Waits s' c := by
  obtain ⟨h1, h2, h3, ⟨h4, h5, h6⟩, h7⟩ := h
  have hp : parse (getBytes ++ getBytes) = .ok (.array (req [b!"get", b!"k"])) getBytes := by
    obtain ⟨b, e, h⟩ := (C62_read _ _ _).1 getBytes_parse
    rw [List.append_nil] at e
    exact (C62_read _ _ _).2 ⟨b, by rw [← e], h⟩
  have hq : ∀ {o rest}, parse (s.whole.feeds c).pending = .ok o rest → rest = getBytes ∨ rest = [] := by
    intro o rest h
    rcases h2 with g | g | g
    · rw [g, hp] at h; cases h; exact .inl rfl
    · rw [g, getBytes_parse] at h; cases h; exact .inr rfl
    · rw [g, show parse [] = .eof from rfl] at h; cases h
  have hn : parse (s.whole.feeds c).pending ≠ .bad ∧ parse (s.whole.feeds c).pending ≠ .panic := by
    rcases h2 with g | g | g
    · rw [g, hp]; simp
    · rw [g, getBytes_parse]; simp
    · rw [g, show parse [] = .eof from rfl]; simp
  cases hr with
  | call =>
    cases hs with
    | readCall _ x _ _ _ _ g => cases g; exact ⟨h1, h2, h3, ⟨by simp [upd, h4], by simp [upd, h5], by simp [upd, h6]⟩, by simp [upd, h7]⟩
    | own _ _ _ _ _ g => simp [Full.own] at g
  | reset =>
    cases hs with
    | own _ x _ _ _ _ g => cases g; exact ⟨h1, h2, h3, ⟨by simp [upd, h4], by simp [upd, h5], by simp [upd, h6]⟩, by simp [upd, h7]⟩
  | read n o =>
    cases hs with
    | read _ _ _ w x g g' =>
      obtain ⟨y, hub, g1, g2, rfl⟩ := whole_read g
      cases g'
      cases g1 with
      | read _ rest _ g1 =>
        refine ⟨⟨h1.1, ?_⟩, .inr (by simpa [upd] using hq g1), by simp [upd, h3], ⟨by simp [upd, h4], by simp [upd, h5], by simp [upd, h6]⟩, by simp [upd, h7]⟩
        have := h1.2
        cases g2 <;> assumption
  | finish e =>
    cases hs with
    | finish _ _ w x g1 g2 =>
      obtain ⟨-, y, g, -⟩ := whole_feed g2
      cases g with
      | arrive | finish | read | crash => simp [Full.ends] at g1
      | stop _ g => exact absurd g hn.1
      | leave _ g => rw [h3] at g; cases g
  | crash =>
    cases hs with
    | whole _ w g => simp [Full.apart] at g
    | send _ _ w g => simp [Full.sends] at g
    | kill _ w _ g => obtain ⟨-, y, g, -⟩ := whole_feed g; cases g with | crash _ g => exact absurd g hn.2
  | fail =>
    cases hs with
    | cut _ x _ g =>
      rcases g with g | g
      · rw [h7] at g; cases g
      · rw [h6] at g; cases g
    | own _ _ _ _ _ g => simp [Full.own] at g

/-- The hypotheses of `C89_read` can be met, with two requests not yet read. -/
example (ω : Nat → Nat) (dd : Bytes) : ∃ (r : Run (Full.Step ω) (Full.new dd State.empty)) (i : Nat), r.Lives ∧ r.Fair (Reader 7) ∧ r.Keeps 7 ∧
    TakenAll [.array (req [b!"get", b!"k"]), .array (req [b!"get", b!"k"])] (getBytes ++ getBytes) ∧ getBytes ++ getBytes <+: r.sentBy 7 i ∧
    r.readBy 7 i = [] := by
  have s1 : Full.Step ω (Full.new dd State.empty) (.whole (.net (.pipe (.connected 7)))) _ :=
    .whole _ _ rfl (.pass _ _ rfl rfl (.connect 7 b!"a" rfl rfl (fun _ => by simp [Full.new, Whole.new, Hub.new])))
  have s2 := Full.Step.send (ω := ω) 7 (.arrived (getBytes ++ getBytes)) _ rfl (by rfl) (by simp [Full.new, Conn.new])
    (.feed 7 _ _ (by rfl) (by rfl) (by simp [upd]) rfl (.arrive _ rfl)) |> fun h => (Exec.one s1).snoc h
  obtain ⟨s, hs⟩ : ∃ s, Exec (Full.Step ω) (Full.new dd State.empty) [.whole (.net (.pipe (.connected 7))), .whole (.net (.feed 7 (.arrived (getBytes ++ getBytes))))] s ∧
      Waits s 7 := ⟨_, s2, ⟨⟨rfl, rfl⟩, .inl (by rfl), by rfl, ⟨rfl, rfl, rfl⟩, rfl⟩⟩
  obtain ⟨r, g1, g2, g3, g4⟩ := fair_run (fun _ : Unit => Reader 7) hs.1
  have all : ∀ j, 2 ≤ j → Waits (r.state j) 7 := by
    intro j hj
    refine lasts r (fun s => Waits s 7) (show Waits (r.state 2) 7 from g2 ▸ hs.2) ?_ hj
    intro j l hj hw he
    obtain ⟨-, hd⟩ := g4 j l hj he
    exact waits_step (run_step r he) hd hw
  refine ⟨r, 2, ?_, g3 (), keeps_from (k := 2) fun j hj => ?_, ?_, ?_, ?_⟩
  · intro j
    by_contra hj
    have := lasts r (fun s => ¬ s.up) hj (fun j l _ h he => absurd (up_before (run_step r he)) h) (show j ≤ j + 2 by omega)
    exact this (all _ (by omega)).up
  · have := (all j hj).line
    exact ⟨this.flag, this.worker, by rw [this.client]; simp⟩
  · obtain ⟨b, e, h⟩ := (C62_read _ _ _).1 getBytes_parse
    rw [List.append_nil] at e
    rw [e]
    exact .cons h (by rw [← List.append_nil b]; exact .cons h .nil)
  · rw [Run.sentBy, show r.until 2 = _ from g1]; simp [seenIn, wholeOf, netOf, piecesOf]
  · rw [Run.readBy, show r.until 2 = _ from g1]; simp [seenIn, wholeOf, netOf, askedBy]

/-- The hypotheses of `C89_answered` can be met, with the reply not yet written. -/
example (ω : Nat → Nat) (dd : Bytes) : ∃ (r : Run (Full.Step ω) (Full.new dd State.empty)) (i : Nat), r.Lives ∧ r.Sane ∧ r.FairToAll ∧ ¬ r.Holds ∧
    r.Fair (Reader 7) ∧ r.Keeps 7 ∧ TakenAll [.array (req [b!"get", b!"k"])] getBytes ∧ getBytes <+: r.sentBy 7 i ∧
    (∀ j, ∀ x ∈ r.readBy 7 j, .pipe (.dropped x.1) ∉ seenIn (r.until j) ∧ .pipe (.unqueued x.1) ∉ seenIn (r.until j)) ∧
    fatesOf (pipeOf (seenIn (r.until i))) = [] := by
  obtain ⟨tr0, s0, h1, h2, h3, h4, h5, h6, -, -, h7⟩ := about_to_write ω dd
  have hfeed : (s0.whole.feeds 7).pending = [] ∧ (s0.whole.feeds 7).ended = false ∧ (s0.whole.feeds 7).pc = .reading := by
    obtain ⟨k, g1, g2⟩ := whole_net (full_exec h1).1
    have g := (net_split g1).1 7
    rw [g2.feeds, ← seenIn, h2] at g
    have g : Exec Feed.Step Feed.new ([.arrived getBytes] ++ [.read (.array (req [b!"get", b!"k"]))]) (s0.whole.feeds 7) := g
    obtain ⟨x, e1, e2⟩ := g.split
    have e1 := exec_single e1
    have e2 := exec_single e2
    generalize s0.whole.feeds 7 = y at e2 ⊢
    cases e1
    cases e2 with
    | read _ rest _ hp =>
      rw [show Feed.new.pending ++ getBytes = getBytes from rfl, getBytes_parse] at hp
      cases hp
      exact ⟨rfl, rfl, rfl⟩
  obtain ⟨tr', s, x1, x2, x3, x4, x5, x6, x7, -⟩ := settle_reader h1 h3 h7 h5 hfeed.2.2
  have hseen : seenIn (tr0 ++ tr') = twoAsked ++ [.pipe (.answering 0)] := by rw [seenIn_append, h2, x2, List.append_nil]
  obtain ⟨r, g1, g2, g3, g4, g5, g6⟩ := calm x1 (by simpa [Full.Sys.up, x3] using h3) (by
    rw [hseen]
    intro n c o h
    simp [pipeOf, requestsOf] at h
    rcases h with ⟨rfl, rfl, rfl⟩ | ⟨rfl, rfl, rfl⟩ <;> exact ⟨env0, .nullBulk, env0_fair, by simp [pipeOf, executedOf]⟩)
  have good : ∀ c, (s.lines c).client = .reads ∧ (s.lines c).worker = .selecting := by
    intro c
    by_cases hc : c = 7
    · subst hc
      exact ⟨x6.client, x6.worker⟩
    · rw [x7 c hc]
      by_cases hc8 : c = 8
      · subst hc8; exact ⟨h6.client, h6.worker⟩
      · rw [unconnected_line h1 (c := c) (by rw [h2]; simp; omega)]
        exact ⟨rfl, rfl⟩
  have all : ∀ j, (tr0 ++ tr').length ≤ j → (∀ c, ((r.state j).lines c).client = .reads ∧ ((r.state j).lines c).worker = .selecting) ∧
      ((r.state j).lines 7).flag = false ∧ Rests (r.state j) 7 := by
    intro j hj
    refine lasts r (fun s => (∀ c, (s.lines c).client = .reads ∧ (s.lines c).worker = .selecting) ∧ (s.lines 7).flag = false ∧ Rests s 7)
      (g2 ▸ ⟨good, x6.flag, ⟨by rw [x3]; exact hfeed.1, by rw [x3]; exact hfeed.2.1, x4, ((connInv ((full_exec x1).2 7)).fresh x6.flag).2.1, by rw [x6.client]; simp⟩⟩) ?_ hj
    intro j l hj ⟨i1, i2, i3⟩ he
    obtain ⟨g, hd⟩ := g6 j l hj he
    have k1 := done_line (run_step r he) hd
    obtain ⟨k2, k3, k4⟩ := done_apart (run_step r he) hd 7
    exact ⟨fun c => by rw [(k1 c).1, (k1 c).2.1]; exact i1 c, k3.trans i2, ⟨by rw [k2]; exact i3.pending, by rw [k2]; exact i3.ended, k4.trans i3.pc,
      (k1 7).2.2.1.trans i3.sock, by rw [(k1 7).1]; exact i3.client⟩⟩
  have reads : ∀ j, requestsOf (pipeOf (seenIn (r.until ((tr0 ++ tr').length + j)))) = requestsOf (pipeOf (seenIn (tr0 ++ tr'))) := by
    intro j
    induction j with
    | zero => rw [Nat.add_zero, g1]
    | succ j ih =>
      rw [← Nat.add_assoc, until_succ]
      cases he : r.ev ((tr0 ++ tr').length + j) with
      | none => simpa using ih
      | some l =>
        obtain ⟨g, hd⟩ := g6 _ _ (by omega) he
        rw [Option.toList_some, seenIn_append, pipeOf_append, requestsOf_append, ih, done_reads hd, List.append_nil]
  refine ⟨r, (tr0 ++ tr').length, g4, g5, g3, ?_, ?_, keeps_from (k := (tr0 ++ tr').length) fun j hj => ?_, ?_, ?_, ?_, ?_⟩
  · rintro ⟨i, c, b, h | ⟨h, h'⟩⟩
    · exact (h ((tr0 ++ tr').length + i) (by omega)).2 ((all _ (by omega)).1 c).2
    · obtain ⟨k, hk, hcl⟩ := h' ((tr0 ++ tr').length + i) (by omega)
      rw [((all k (by omega)).1 c).1] at hcl
      cases hcl
  · intro i hi
    exact absurd (hi ((tr0 ++ tr').length + i) (by omega)) (rests_none (all _ (by omega)).2.2)
  · obtain ⟨a1, a2, a3⟩ := all j hj
    exact ⟨a2, (a1 7).2, by rw [(a1 7).1]; simp⟩
  · obtain ⟨b, e, h⟩ := (C62_read _ _ _).1 getBytes_parse
    rw [List.append_nil] at e
    rw [e, ← List.append_nil b]
    exact .cons h .nil
  · rw [Run.sentBy, g1, hseen]
    simp [piecesOf]
  · intro j x hx
    obtain ⟨p, hp, -⟩ := (run_at r ((tr0 ++ tr').length + j)).pipe
    have hq := (mem_askedBy (run_at r ((tr0 ++ tr').length + j)).plain).1 ((readBy_mono r 7 (show j ≤ (tr0 ++ tr').length + j by omega)).subset hx)
    rw [reads, hseen] at hq
    obtain ⟨n, o⟩ := x
    obtain ⟨rfl, -⟩ : n = 0 ∧ o = .array (req [b!"get", b!"k"]) := by simpa [pipeOf, requestsOf] using hq
    obtain ⟨k1, k2⟩ := not_lost hp (n := 0) ((mem_pipeOf (by simp)).2 (by
      obtain ⟨t, ht⟩ := until_le r (show (tr0 ++ tr').length ≤ (tr0 ++ tr').length + j by omega)
      rw [ht, g1, seenIn_append, hseen]
      simp))
    rw [mem_pipeOf (by simp)] at k1 k2
    obtain ⟨t, ht⟩ := until_le r (show j ≤ (tr0 ++ tr').length + j by omega)
    rw [ht, seenIn_append] at k1 k2
    exact ⟨fun h => k1 (List.mem_append_left _ h), fun h => k2 (List.mem_append_left _ h)⟩
  · rw [g1, hseen]; simp [pipeOf, fatesOf]

end Verif.Props
