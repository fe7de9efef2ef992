import Verif.Spec.Leave
import Verif.Props.Heard
import Verif.Props.Gone

/-! # C92 – what is left of a connection in the end -/

namespace Verif.Props

open Spec
open Fut (upd)

variable {ω : Nat → Nat} {d : Bytes} {st : State} {s s' : Full.Sys}

/-! ### what happens in one connection -/

theorem line_step {e : Full.Ev} (hs : Full.Step ω s e s') (c : Nat) :
    s'.lines c = s.lines c ∧ (∀ x, e ≠ .line c x) ∨ ∃ x, (e = .line c x ∨ ∃ w, e = .both w c x) ∧ Conn.Step (s.lines c) x (s'.lines c) := by
  have h := (full_step hs).2 c
  have nil : ∀ {x y : Conn.Sys} {tr : List Conn.Ev}, Exec Conn.Step x tr y → tr = [] → y = x := fun h e => by
    cases h with
    | nil => rfl
    | snoc => simp at e
  cases e with
  | whole e => exact .inl ⟨nil h rfl, by simp⟩
  | line c' x =>
    by_cases hc : c' = c
    · subst hc
      exact .inr ⟨x, .inl rfl, exec_single (by simpa [lineOf] using h)⟩
    · simp only [lineOf, List.filterMap_cons, if_neg hc, List.filterMap_nil] at h
      exact .inl ⟨nil h rfl, by simp [hc]⟩
  | both w c' x =>
    by_cases hc : c' = c
    · subst hc
      exact .inr ⟨x, .inr ⟨w, rfl⟩, exec_single (by simpa [lineOf] using h)⟩
    · simp only [lineOf, List.filterMap_cons, if_neg hc, List.filterMap_nil] at h
      exact .inl ⟨nil h rfl, by simp⟩

/-- Whose calls these are: the reader's, the response worker's, and that of the goroutine started at the end of the stream. -/
def proper : Conn.Ev → Prop
  | .readCall i => i = 2
  | .writeCall i _ => i = 1
  | .closeCall i => i = 3
  | _ => True

theorem proper_step {e : Full.Ev} (hs : Full.Step ω s e s') {c : Nat} {x : Conn.Ev} (he : e = .line c x ∨ ∃ w, e = .both w c x) : proper x := by
  cases hs with
  | whole | send | kill => rcases he with he | ⟨w, he⟩ <;> cases he
  | own c' y z _ _ h =>
    rcases he with he | ⟨w, he⟩ <;> cases he
    cases x <;> simp_all [proper, Full.own]
  | _ => rcases he with he | ⟨w, he⟩ <;> cases he <;> simp [proper]

/-- What is known of a connection when only those call who do. -/
structure ProperInv (x : Conn.Sys) : Prop where
  rest : ∀ i, 3 < i → x.pcs i = .idle
  two : x.pcs 2 = .idle ∨ x.pcs 2 = .readReset ∨ x.pcs 2 = .reading
  one : x.pcs 1 = .idle ∨ (∃ b, x.pcs 1 = .writeReset b) ∨ ∃ b, x.pcs 1 = .writing b
  zero : x.pcs 0 = .idle ∨ x.pcs 0 = .closeStart ∨ Conn.closing (x.pcs 0) = true
  three : x.pcs 3 = .idle ∨ x.pcs 3 = .closeStart ∨ Conn.closing (x.pcs 3) = true
  flag : x.flag = true → x.chan = true ∨ Conn.closing (x.pcs 0) = true ∨ Conn.closing (x.pcs 3) = true
  selecting : x.worker = .selecting → x.pcs 0 = .idle
  expired : x.worker = .expired → x.flag = true ∨ x.pcs 0 = .closeStart

set_option maxHeartbeats 4000000 in
theorem properInv_step {x x' : Conn.Sys} {e : Conn.Ev} (h : ProperInv x) (hs : Conn.Step x e x') (he : proper e) : ProperInv x' := by
  obtain ⟨h1, h2, h3, h4, h5, h6, h7, h8⟩ := h
  cases hs <;> simp only [proper] at he <;> constructor <;> grind [upd, Conn.closing]

theorem properInv {tr : List Full.Ev} (h : Exec (Full.Step ω) (Full.new d st) tr s) (c : Nat) : ProperInv (s.lines c) := by
  refine h.inv (P := fun _ s => ProperInv (s.lines c)) ?_ ?_
  · exact ⟨fun _ _ => rfl, .inl rfl, .inl rfl, .inl rfl, .inl rfl, by simp [Full.new, Conn.new], fun _ => rfl, by simp [Full.new, Conn.new]⟩
  · intro _ s e s' _ ih hs
    rcases line_step hs c with ⟨g, -⟩ | ⟨x, he, hx⟩
    · rw [g]; exact ih
    · exact properInv_step ih hx (proper_step hs he)

/-! ### closing -/

/-- How far a goroutine is from the end of `Close`. -/
def closeRank : Conn.Pc → Nat
  | .closeStart => 4
  | .farewell => 3
  | .sockClose => 2
  | .chanClose => 1
  | _ => 0

/-- A connection marked closed, with nobody there to reset its timer. -/
structure Closing (x : Conn.Sys) : Prop where
  flag : x.flag = true
  worker : x.worker ≠ .selecting

theorem conn_flag {x x' : Conn.Sys} {e : Conn.Ev} (hs : Conn.Step x e x') (h : x.flag = true) : x'.flag = true := by
  cases hs <;> simp_all

theorem flag_step {e : Full.Ev} (hs : Full.Step ω s e s') {c : Nat} (h : (s.lines c).flag = true) : (s'.lines c).flag = true := by
  rcases line_step hs c with ⟨g, -⟩ | ⟨x, -, hx⟩
  · rw [g]; exact h
  · exact conn_flag hx h

theorem sock_step {e : Full.Ev} (hs : Full.Step ω s e s') {c : Nat} (h : (s.lines c).sock = true) : (s'.lines c).sock = true := by
  rcases line_step hs c with ⟨g, -⟩ | ⟨x, -, hx⟩
  · rw [g]; exact h
  · generalize s'.lines c = y at hx ⊢
    cases hx <;> simp_all

theorem closing_step {e : Full.Ev} (hs : Full.Step ω s e s') {c : Nat} (h : Closing (s.lines c)) : Closing (s'.lines c) :=
  ⟨flag_step hs h.flag, never_select hs c h.worker⟩

set_option maxHeartbeats 1000000 in
/-- In such a connection closing only gets on. -/
theorem closeRank_step {e : Full.Ev} (hs : Full.Step ω s e s') {c k : Nat} (hk : k = 0 ∨ k = 3) (h : Closing (s.lines c)) (hp : ProperInv (s.lines c)) :
    ((s'.lines c).pcs k = (s.lines c).pcs k ∧ ¬ Closer c k e) ∨ closeRank ((s'.lines c).pcs k) < closeRank ((s.lines c).pcs k) := by
  have hcl : ∀ x, e = .line c x → Closer c k e → Closer c k (.line c x) := fun x he h => he ▸ h
  rcases line_step hs c with ⟨g, hn⟩ | ⟨x, he, hx⟩
  · refine .inl ⟨by rw [g], fun h => ?_⟩
    cases h <;> exact hn _ rfl
  · have hpx := proper_step hs he
    have hc3 : ∀ i, x = .closeCall i → False := by
      rintro i rfl
      cases hs with
      | closeCall _ _ _ _ hf => rcases he with he | ⟨w, he⟩ <;> cases he; rw [h.flag] at hf; cases hf
      | own _ _ _ _ _ ho => rcases he with he | ⟨w, he⟩ <;> cases he; simp [Full.own] at ho
      | _ => rcases he with he | ⟨w, he⟩ <;> cases he
    have hcx : Closer c k e → Closer c k (.line c x) := by
      rcases he with rfl | ⟨w, rfl⟩
      · exact id
      · intro h; cases h
    obtain ⟨hf, hw⟩ := h
    obtain ⟨h1, h2, h3, h4, h5, h6, h7, h8⟩ := hp
    have same : ∀ {y : Nat → Conn.Pc}, y k = (s.lines c).pcs k → ¬ Closer c k (.line c x) → (y k = (s.lines c).pcs k ∧ ¬ Closer c k e) ∨ closeRank (y k) < closeRank ((s.lines c).pcs k) :=
      fun h1 h2 => .inl ⟨h1, fun h => h2 (hcx h)⟩
    clear hcl hs he
    generalize s'.lines c = y at hx ⊢
    cases hx with
    | readCall i | writeCall i => simp only [proper] at hpx; subst hpx; exact same (by rcases hk with rfl | rfl <;> simp [upd]) (by rintro ⟨⟩)
    | closeCall i => exact (hc3 i rfl).elim
    | closeWon _ _ g => rw [hf] at g; cases g
    | expire g => exact absurd g hw
    | workerLeft g => exact absurd g hw
    | crash i g1 g2 => exact same rfl (by rintro ⟨⟩)
    | client => exact same rfl (by rintro ⟨⟩)
    | writeClosed => exact same rfl (by rintro ⟨⟩)
    | readReset i g | read i g | readErr i g | writeReset i _ g | wrote i _ g | writeErr i _ g | writePart i _ _ g =>
      refine same ?_ (by rintro ⟨⟩)
      have : k ≠ i := by
        rintro rfl
        rcases hk with rfl | rfl
        · rw [g] at h4; simp [Conn.closing] at h4
        · rw [g] at h5; simp [Conn.closing] at h5
      simp [upd, this]
    | closeLost i g | farewell i g | farewellErr i g | farewellPart i _ g | sockClose i g | chanClose i g =>
      by_cases hi : k = i
      · subst hi; right; simp [upd, g, closeRank]
      · exact same (by simp [upd, hi]) (by rintro ⟨⟩; exact hi rfl)

variable {r : Run (Full.Step ω) (Full.new d st)}

theorem conns_last {c i : Nat} (hc : (r.state i).whole.hub.conns c ≠ none) {j : Nat} (hj : i ≤ j) : (r.state j).whole.hub.conns c ≠ none :=
  lasts r (fun s => s.whole.hub.conns c ≠ none) hc (fun _ _ _ hp he => full_conns (run_step r he) hp) hj

theorem closing_last {c i : Nat} (h : Closing ((r.state i).lines c)) {j : Nat} (hj : i ≤ j) : Closing ((r.state j).lines c) :=
  lasts r (fun s => Closing (s.lines c)) h (fun _ _ _ hp he => closing_step (run_step r he) hp) hj

/-- Whoever is closing comes to the end, unless it is held at the farewell. -/
theorem close_ends (hu : r.Lives) {c : Nat} (hf : r.FairToClosers c) (hh : ¬ r.Parting c) {k : Nat} (hk : k = 0 ∨ k = 3) (n : Nat) :
    ∀ {i : Nat}, (r.state i).whole.hub.conns c ≠ none → Closing ((r.state i).lines c) → closeRank (((r.state i).lines c).pcs k) = n →
    ∃ j, i ≤ j ∧ closeRank (((r.state j).lines c).pcs k) = 0 := by
  induction n using Nat.strongRecOn with
  | ind n ih =>
    intro i hc hcl hn
    by_cases h0 : n = 0
    · exact ⟨i, Nat.le_refl i, by rw [hn, h0]⟩
    have ih : ∀ {j}, i ≤ j → closeRank (((r.state j).lines c).pcs k) < n → ∃ j, i ≤ j ∧ closeRank (((r.state j).lines c).pcs k) = 0 := by
      intro j hj hlt
      obtain ⟨j', h1, h2⟩ := ih _ hlt (conns_last hc hj) (closing_last hcl hj) rfl
      exact ⟨j', by omega, h2⟩
    have hpi : ∀ j, ProperInv ((r.state j).lines c) := fun j => properInv (run_exec r j) c
    have hci : ∀ j, ConnInv _ ((r.state j).lines c) := fun j => connInv ((full_exec (run_exec r j)).2 c)
    -- from the time on at which its next step can always be made
    have go : ∀ i', i ≤ i' → ((r.state i').lines c).pcs k = ((r.state i).lines c).pcs k →
        (∀ j, i' ≤ j → ((r.state j).lines c).pcs k = ((r.state i).lines c).pcs k → Possible (Full.Step ω) (Closer c k) (r.state j)) →
        ∃ j, i ≤ j ∧ closeRank (((r.state j).lines c).pcs k) = 0 := by
      intro i' hi' hp can
      obtain ⟨j, hj, hq⟩ := leads r (hf k) (fun s => (s.lines c).pcs k = ((r.state i).lines c).pcs k) (fun j => ∃ j', i ≤ j' ∧ closeRank (((r.state j').lines c).pcs k) = 0) hp
        (fun j l hj hP he => by
          rcases closeRank_step (run_step r he) hk (closing_last hcl (by omega)) (hpi j) with ⟨g, -⟩ | g
          · exact .inl (g.trans hP)
          · exact .inr (ih (j := j + 1) (by omega) (by rw [hP, hn] at g; exact g)))
        can
        (fun j l hj hP he hd => by
          rcases closeRank_step (run_step r he) hk (closing_last hcl (by omega)) (hpi j) with ⟨-, g⟩ | g
          · exact absurd hd g
          · exact ih (j := j + 1) (by omega) (by rw [hP, hn] at g; exact g))
      exact hq
    have hown : ∀ j e x, i ≤ j → Full.own e = true → Conn.Step ((r.state j).lines c) e x → Full.Step ω (r.state j) (.line c e) _ :=
      fun j e x hj ho hx => .own c e x (hu j) (conns_last hc hj) ho hx
    cases hpc : ((r.state i).lines c).pcs k with
    | closeStart =>
      refine go i (Nat.le_refl i) rfl fun j hj hP => ?_
      rw [hpc] at hP
      exact ⟨_, _, .lost, hown j _ _ hj rfl (.closeLost k hP (closing_last hcl hj).flag)⟩
    | sockClose =>
      refine go i (Nat.le_refl i) rfl fun j hj hP => ?_
      rw [hpc] at hP
      exact ⟨_, _, .sockClosed, hown j _ _ hj rfl (.sockClose k hP)⟩
    | chanClose =>
      refine go i (Nat.le_refl i) rfl fun j hj hP => ?_
      rw [hpc] at hP
      exact ⟨_, _, .closed, hown j _ _ hj rfl (.chanClose k hP ((hci j).left k hP).1)⟩
    | farewell =>
      by_cases hx : ∃ j, i ≤ j ∧ ((r.state j).lines c).pcs k ≠ .farewell
      · -- it leaves that place
        by_contra hno
        have hall : ∀ j, i ≤ j → ((r.state j).lines c).pcs k = .farewell := by
          intro j hj
          refine lasts r (fun s => (s.lines c).pcs k = .farewell) hpc (fun j l hj hP he => ?_) hj
          rcases closeRank_step (run_step r he) hk (closing_last hcl (by omega)) (hpi j) with ⟨g, -⟩ | g
          · exact g.trans hP
          · refine absurd (ih (j := j + 1) (by omega) ?_) hno
            rw [hP] at g
            rw [hpc] at hn
            exact hn ▸ g
        obtain ⟨j, hj, hne⟩ := hx
        exact hne (hall j hj)
      · have hx : ∀ j, i ≤ j → ((r.state j).lines c).pcs k = .farewell := fun j hj => by
          by_contra h; exact hx ⟨j, hj, h⟩
        obtain ⟨i', hi', hst⟩ : ∃ i', i ≤ i' ∧ ∀ j, i' ≤ j → ((r.state j).lines c).client ≠ .stalled := by
          by_contra hno
          refine hh ⟨i, k, hx, fun j hj => ?_⟩
          by_contra hn'
          exact hno ⟨j, hj, fun j' hj' h => hn' ⟨j', hj', h⟩⟩
        refine go i' hi' (by rw [hx i' hi', hpc]) fun j hj hP => ?_
        have hP := hx j (by omega)
        obtain ⟨g1, -⟩ := (hci j).said k hP
        exact ⟨_, _, .farewell, hown j _ _ (by omega) rfl (.farewell k hP g1 (hst j hj))⟩
    | _ => rw [hpc] at hn; exact absurd hn.symm h0

/-- A connection whose timer has fired is marked closed. -/
theorem expired_flag (hu : r.Lives) {c : Nat} (hf : r.FairToClosers c) {i : Nat} (hc : (r.state i).whole.hub.conns c ≠ none) (hw : ((r.state i).lines c).worker ≠ .selecting) :
    ∃ j, i ≤ j ∧ Closing ((r.state j).lines c) := by
  have hsel : ∀ j, i ≤ j → ((r.state j).lines c).worker ≠ .selecting :=
    fun j hj => lasts r (fun s => (s.lines c).worker ≠ .selecting) hw (fun j l _ h he => never_select (run_step r he) c h) hj
  by_contra hno
  have hfl : ∀ j, i ≤ j → ((r.state j).lines c).flag = false := fun j hj => by
    by_contra h
    exact hno ⟨j, hj, by simpa using h, hsel j hj⟩
  have hpc : ∀ j, i ≤ j → ((r.state j).lines c).pcs 0 = .closeStart := by
    intro j hj
    cases g : ((r.state j).lines c).worker with
    | selecting => exact absurd g (hsel j hj)
    | gone =>
      have hi := connInv ((full_exec (run_exec r j)).2 c)
      have := (hi.fresh (hfl j hj)).1
      rw [hi.worker g] at this
      cases this
    | expired =>
      rcases (properInv (run_exec r j) c).expired g with h | h
      · rw [hfl j hj] at h; cases h
      · exact h
  obtain ⟨j, l, hj, he, hd⟩ := hf 0 i fun j hj => ⟨_, _, .won, .own c _ _ (hu j) (conns_last hc hj) rfl (.closeWon 0 (hpc j hj) (hfl j hj))⟩
  have hs := run_step r he
  have h1 := hpc j hj
  have h2 := hpc (j + 1) (by omega)
  have h3 := hfl j hj
  have h4 := hfl (j + 1) (by omega)
  rcases line_step hs c with ⟨-, hn⟩ | ⟨x, hx, hst⟩
  · cases hd <;> exact hn _ rfl
  · generalize (r.state (j + 1)).lines c = y at *
    cases hd <;> (rcases hx with hx | ⟨w, hx⟩ <;> cases hx) <;> cases hst <;> simp_all

/-- And in the end it is closed. -/
theorem shut_finally (hu : r.Lives) {c : Nat} (hf : r.FairToClosers c) (hh : ¬ r.Parting c) {i : Nat} (hc : (r.state i).whole.hub.conns c ≠ none)
    (hw : ((r.state i).lines c).worker ≠ .selecting) : r.Finally (Shut · c) := by
  obtain ⟨i1, h1, hcl⟩ := expired_flag hu hf hc hw
  obtain ⟨j0, g1, g2⟩ := close_ends hu hf hh (.inl rfl) _ (conns_last hc h1) hcl rfl
  obtain ⟨j3, k1, k2⟩ := close_ends hu hf hh (.inr rfl) _ (conns_last hc h1) hcl rfl
  have keep : ∀ {k j1 j : Nat}, k = 0 ∨ k = 3 → i1 ≤ j1 → closeRank (((r.state j1).lines c).pcs k) = 0 → j1 ≤ j → closeRank (((r.state j).lines c).pcs k) = 0 := by
    intro k j1 j hk hj1 hz hj
    refine lasts r (fun s => closeRank ((s.lines c).pcs k) = 0) hz (fun j l hj hP he => ?_) hj
    rcases closeRank_step (run_step r he) hk (closing_last hcl (by omega)) (properInv (run_exec r j) c) with ⟨g, -⟩ | g
    · rw [g]; exact hP
    · omega
  refine ⟨j0 + j3, fun j hj => ?_⟩
  have hp := properInv (run_exec r j) c
  have hj : i1 ≤ j := by omega
  have z0 := keep (.inl rfl) g1 g2 (show j0 ≤ j by omega)
  have z3 := keep (.inr rfl) k1 k2 (show j3 ≤ j by omega)
  have c0 : Conn.closing (((r.state j).lines c).pcs 0) ≠ true := by
    intro h; cases g : ((r.state j).lines c).pcs 0 <;> simp_all [Conn.closing, closeRank]
  have c3 : Conn.closing (((r.state j).lines c).pcs 3) ≠ true := by
    intro h; cases g : ((r.state j).lines c).pcs 3 <;> simp_all [Conn.closing, closeRank]
  obtain ⟨e1, e2⟩ := closing_last hcl hj
  refine ⟨e1, ?_, e2, ?_, ?_⟩
  · rcases hp.flag e1 with h | h | h
    · exact (connInv ((full_exec (run_exec r j)).2 c)).chanSock h
    · exact absurd h c0
    · exact absurd h c3
  · rcases hp.zero with h | h | h
    · exact h
    · rw [h] at z0; simp [closeRank] at z0
    · exact absurd h c0
  · rcases hp.three with h | h | h
    · exact h
    · rw [h] at z3; simp [closeRank] at z3
    · exact absurd h c3

/-! ### a client that sends nothing more -/

/-- What brings one always nearer to an end happens no more in the end. -/
theorem ceases {S L : Type} {step : S → L → S → Prop} {s0 : S} (r : Run step s0) (acts : L → Prop) (f : Nat → Nat) {i : Nat} (le : ∀ j, i ≤ j → f (j + 1) ≤ f j)
    (lt : ∀ j l, i ≤ j → r.ev j = some l → acts l → f (j + 1) < f j) : ∃ j, i ≤ j ∧ ∀ k l, j ≤ k → r.ev k = some l → ¬ acts l := by
  suffices h : ∀ n i', i ≤ i' → f i' = n → ∃ j, i ≤ j ∧ ∀ k l, j ≤ k → r.ev k = some l → ¬ acts l from h _ i (Nat.le_refl i) rfl
  intro n
  induction n using Nat.strongRecOn with
  | ind n ih =>
    intro i' hi' hn
    by_contra hno
    have : ∃ k l, i' ≤ k ∧ r.ev k = some l ∧ acts l := by
      by_contra h
      exact hno ⟨i', hi', fun k l hk he ha => h ⟨k, l, hk, he, ha⟩⟩
    obtain ⟨k, l, hk, he, ha⟩ := this
    have mono : f k ≤ f i' := by
      clear he
      induction k, hk using Nat.le_induction with
      | base => exact Nat.le_refl _
      | succ k hk ih => exact Nat.le_trans (le k (by omega)) ih
    have := lt k l (by omega) he ha
    exact hno (ih (f (k + 1)) (by omega) (k + 1) (by omega) rfl)

/-- How much there is still to do for a reader that gets no more bytes. -/
def readRank (s : Full.Sys) (c : Nat) : Nat :=
  4 * (s.whole.feeds c).pending.length + (if (s.whole.feeds c).pc = .reading ∧ s.cut c = false then farFrom ((s.lines c).pcs 2) + 1 else 0)

/-- The part of the reader. -/
def readerPart (s : Full.Sys) (c : Nat) : Conn.Pc × Feed.Pc × Bool × Bytes := ((s.lines c).pcs 2, (s.whole.feeds c).pc, s.cut c, (s.whole.feeds c).pending)

theorem readRank_part {c : Nat} (h : readerPart s' c = readerPart s c) : readRank s' c = readRank s c := by
  simp only [readerPart, Prod.mk.injEq] at h
  simp only [readRank, h]

theorem pcs_two {x x' : Conn.Sys} {e : Conn.Ev} (hs : Conn.Step x e x') (hp : ProperInv x)
    (hn : e ≠ .readCall 2 ∧ e ≠ .readReset 2 ∧ e ≠ .read 2 ∧ e ≠ .readErr 2) (he : proper e) : x'.pcs 2 = x.pcs 2 := by
  have h2 := hp.two
  clear hp
  cases hs <;> simp only [proper] at he <;> grind [upd]

/-- What happens is not the reader's business, or brings bytes, or brings the reader nearer to its end. -/
theorem readRank_or {e : Full.Ev} (hs : Full.Step ω s e s') {c : Nat} (hi : LineInv s c) (hp : ProperInv (s.lines c)) :
    (readerPart s' c = readerPart s c ∧ ¬ Reader c e) ∨ (∃ b, b ≠ [] ∧ e = .whole (.net (.feed c (.arrived b)))) ∨ (readRank s' c < readRank s c ∧ Reader c e) := by
  have up := up_before hs
  have busy := hi.reads
  have other : ∀ {c' : Nat} {x : Conn.Ev} {y : Conn.Sys} {e : Full.Ev} {w : Whole.Sys}, Conn.Step (s.lines c') x y → (x ≠ .readCall 2 ∧ x ≠ .readReset 2 ∧ x ≠ .read 2 ∧ x ≠ .readErr 2) →
      proper x → w.feeds = s.whole.feeds → ¬ Reader c e → (readerPart { s with whole := w, lines := upd s.lines c' y } c = readerPart s c ∧ ¬ Reader c e) := by
    intro c' x y e w hx hn hpx hw hr
    refine ⟨?_, hr⟩
    by_cases hc : c = c'
    · subst hc
      simp only [readerPart, upd_same, hw, pcs_two hx hp hn hpx]
    · simp only [readerPart, upd_other _ _ hc, hw]
  cases hs with
  | whole e w h1 h2 =>
    refine .inl ⟨?_, by rintro ⟨⟩; simp [Full.apart] at h1⟩
    simp only [readerPart, (whole_apart h2 h1).1]
  | send c' e w h1 h2 h3 h4 =>
    obtain ⟨-, x, g1, g2, -⟩ := whole_feed h4
    by_cases hc : c = c'
    · subst hc
      cases g1 with
      | arrive b =>
        by_cases hb : b = []
        · refine .inl ⟨?_, by rintro ⟨⟩⟩
          rw [g2, hb]
          simp [readerPart, upd]
        · exact .inr (.inl ⟨b, hb, rfl⟩)
      | finish =>
        refine .inl ⟨?_, by rintro ⟨⟩⟩
        rw [g2]
        simp [readerPart, upd]
      | _ => simp [Full.sends] at h1
    · refine .inl ⟨?_, by rintro ⟨⟩; simp [Full.sends] at h1⟩
      rw [g2]
      simp only [readerPart, upd_other _ _ hc]
  | readCall c' x h1 h2 h3 h4 h5 =>
    by_cases hc : c = c'
    · subst hc
      cases h5 with
      | readCall _ _ h6 => exact .inr (.inr ⟨by simp [readRank, h3, h4, h6, upd, farFrom], .call⟩)
    · exact .inl ⟨by simp only [readerPart, upd_other _ _ hc], by rintro ⟨⟩; exact hc rfl⟩
  | read c' n o w x h1 h2 =>
    obtain ⟨y, hub, g1, -, rfl⟩ := whole_read h1
    by_cases hc : c = c'
    · subst hc
      cases h2 with
      | read _ h6 =>
        obtain ⟨b1, b2⟩ := busy (by rw [h6]; simp) up
        cases g1 with
        | read _ rest g3 g4 =>
          have := parse_length g4
          refine .inr (.inr ⟨?_, .read _ _⟩)
          simp [readRank, b1, b2, h6, upd, farFrom]
          omega
    · exact .inl ⟨by simp only [readerPart, upd_other _ _ hc], by rintro ⟨⟩; exact hc rfl⟩
  | finish c' e w x h1 h2 h3 =>
    obtain ⟨-, y, g1, g2, -⟩ := whole_feed h2
    by_cases hc : c = c'
    · subst hc
      cases h3 with
      | readErr _ h6 =>
        obtain ⟨b1, b2⟩ := busy (by rw [h6]; simp) up
        refine .inr (.inr ⟨?_, .finish _⟩)
        rw [g2]
        cases g1 with
        | stop | leave => simp [readRank, b1, b2, h6, upd, farFrom]
        | _ => simp [Full.ends] at h1
    · refine .inl ⟨?_, by rintro ⟨⟩; exact hc rfl⟩
      rw [g2]
      simp only [readerPart, upd_other _ _ hc]
  | kill c' w h1 h2 =>
    obtain ⟨-, y, g1, g2, -⟩ := whole_feed h2
    by_cases hc : c = c'
    · subst hc
      obtain ⟨b1, b2⟩ := busy (by rw [h1]; simp) up
      refine .inr (.inr ⟨?_, .crash⟩)
      rw [g2]
      cases g1
      simp [readRank, b1, b2, upd, farFrom]
    · refine .inl ⟨?_, by rintro ⟨⟩; exact hc rfl⟩
      rw [g2]
      simp only [readerPart, upd_other _ _ hc]
  | cut c' x h1 h2 h3 =>
    by_cases hc : c = c'
    · subst hc
      cases h3 with
      | readErr _ h6 =>
        obtain ⟨b1, b2⟩ := busy (by rw [h6]; simp) up
        exact .inr (.inr ⟨by simp [readRank, b1, b2, upd], .fail⟩)
    · exact .inl ⟨by simp only [readerPart, upd_other _ _ hc], by rintro ⟨⟩; exact hc rfl⟩
  | closeCall c' x h1 h2 h3 h4 => exact .inl (other h4 (by simp) rfl rfl (by rintro ⟨⟩))
  | writeCall n c' b x h1 h2 h3 => exact .inl (other h3 (by simp) rfl rfl (by rintro ⟨⟩))
  | wrote n c' b w x h1 h2 =>
    obtain ⟨-, rfl⟩ := whole_wrote h1
    exact .inl (other h2 (by simp) trivial rfl (by rintro ⟨⟩))
  | refuse n c' b w x h1 h2 h3 =>
    obtain ⟨-, rfl⟩ := whole_refused h2
    exact .inl (other h3 (by simp) trivial rfl (by rintro ⟨⟩))
  | fail n c' b w x h1 h2 =>
    obtain ⟨-, rfl⟩ := whole_refused h1
    exact .inl (other h2 (by simp) trivial rfl (by rintro ⟨⟩))
  | own c' x y h1 h2 h3 h4 =>
    by_cases hx : c = c' ∧ x = .readReset 2
    · obtain ⟨rfl, rfl⟩ := hx
      cases h4 with
      | readReset _ h6 =>
        obtain ⟨b1, b2⟩ := busy (by rw [h6]; simp) up
        exact .inr (.inr ⟨by simp [readRank, b1, b2, h6, upd, farFrom], .reset⟩)
    · by_cases hc : c = c'
      · subst hc
        have hx : x ≠ .readReset 2 := fun h => hx ⟨rfl, h⟩
        refine .inl (other h4 ⟨?_, hx, ?_, ?_⟩ ?_ rfl ?_)
        · rintro rfl; simp [Full.own] at h3
        · rintro rfl; simp [Full.own] at h3
        · rintro rfl; simp [Full.own] at h3
        · cases x <;> simp_all [Full.own, proper]
        · rintro ⟨⟩ <;> first | exact hx rfl | simp [Full.own] at h3
      · exact .inl ⟨by simp only [readerPart, upd_other _ _ hc], by rintro ⟨⟩ <;> exact hc rfl⟩

/-- The goroutine reading does nothing more in the end. -/
theorem reader_ceases {c i : Nat} (hs : r.Silent c i) : ∃ j, i ≤ j ∧ ∀ k l, j ≤ k → r.ev k = some l → ¬ Reader c l := by
  have step : ∀ j l, i ≤ j → r.ev j = some l → (readerPart (r.state (j + 1)) c = readerPart (r.state j) c ∧ ¬ Reader c l) ∨ readRank (r.state (j + 1)) c < readRank (r.state j) c := by
    intro j l hj he
    rcases readRank_or (run_step r he) ((run_at r j).line c) (properInv (run_exec r j) c) with h | ⟨b, hb, rfl⟩ | h
    · exact .inl h
    · exact absurd (hs j b hj he) hb
    · exact .inr h.1
  refine ceases r (Reader c) (fun j => readRank (r.state j) c) (fun j hj => ?_) (fun j l hj he hr => ?_)
  · rcases r.next j with ⟨l, h1, -⟩ | ⟨-, h⟩
    · rcases step j l hj h1 with h | h
      · exact Nat.le_of_eq (readRank_part h.1)
      · exact Nat.le_of_lt h
    · rw [h]
  · rcases step j l hj he with h | h
    · exact absurd hr h.2
    · exact h

/-! ### its replies -/

/-- How many requests from connection `c` have not met their fate. -/
def openOf (c : Nat) (tr : List Pipe.Ev) : Nat := (requestsOf tr).countP fun x => x.2.1 == c && !((fatesOf tr).map Prod.fst).contains x.1

theorem openOf_le {c : Nat} {tr ls : List Pipe.Ev} (h : ∀ n o, (n, c, o) ∉ requestsOf ls) : openOf c (tr ++ ls) ≤ openOf c tr := by
  rw [openOf, requestsOf_append, fatesOf_append, List.countP_append]
  have : (requestsOf ls).countP (fun x => x.2.1 == c && !((fatesOf tr ++ fatesOf ls).map Prod.fst).contains x.1) = 0 := by
    rw [List.countP_eq_zero]
    rintro ⟨n, c', o⟩ hm
    simp only [Bool.and_eq_true, beq_iff_eq, not_and]
    rintro rfl
    exact absurd hm (h n o)
  rw [this, Nat.add_zero]
  refine List.countP_mono_left fun x _ hx => ?_
  simp only [List.map_append, List.contains_eq_mem, List.mem_append] at *
  simp at *
  grind

theorem countP_lt {α : Type} {p q : α → Bool} {l : List α} (h : ∀ x ∈ l, p x = true → q x = true) {x : α} (hx : x ∈ l) (h1 : p x = false) (h2 : q x = true) :
    l.countP p < l.countP q := by
  induction l with
  | nil => cases hx
  | cons y l ih =>
    have mono := List.countP_mono_left (l := l) (p := p) (q := q) fun x hm => h x (List.mem_cons_of_mem _ hm)
    rcases List.mem_cons.1 hx with rfl | hx
    · simp [List.countP_cons, h1, h2]; omega
    · have := ih (fun x hm => h x (List.mem_cons_of_mem _ hm)) hx
      have := h y (by simp)
      simp only [List.countP_cons]
      split <;> split <;> simp_all <;> omega

theorem openOf_lt {c n : Nat} {o : Resp} {f : Fate} {tr ls : List Pipe.Ev} (h : requestsOf ls = []) (hr : (n, c, o) ∈ requestsOf tr) (hn : ∀ f, (n, f) ∉ fatesOf tr)
    (hf : (n, f) ∈ fatesOf ls) : openOf c (tr ++ ls) < openOf c tr := by
  rw [openOf, requestsOf_append, fatesOf_append, h, List.append_nil]
  refine countP_lt (fun x _ hx => ?_) hr ?_ ?_
  · simp only [List.map_append, List.contains_eq_mem, List.mem_append] at *
    simp at *
    grind
  · simp
    exact .inr ⟨f, hf⟩
  · simp
    exact hn

/-- How far the response worker is from the end of a call of `Write`. -/
def writeRank : Conn.Pc → Nat
  | .idle => 2
  | .writeReset _ => 1
  | _ => 0

theorem pcs_one {x x' : Conn.Sys} {e : Conn.Ev} (hs : Conn.Step x e x') (hp : ProperInv x)
    (hn : e ≠ .writeReset 1 ∧ ∀ b, e ≠ .writeCall 1 b ∧ e ≠ .wrote 1 b ∧ e ≠ .writeErr 1 b) (he : proper e) : x'.pcs 1 = x.pcs 1 := by
  have h1 := hp.one
  clear hp
  cases hs <;> simp only [proper] at he <;> simp at hn <;> grind [upd]

/-- What the response worker does about connection `c`. -/
def Writer (c : Nat) (e : Full.Ev) : Prop := ∃ b, e = .line c (.writeCall 1 b) ∨ e = .line c (.writeReset 1) ∨
  ∃ n, e = .both (.net (.pipe (.wrote c n b))) c (.wrote 1 b) ∨ e = .both (.net (.pipe (.refused c n))) c (.writeClosed 1 b) ∨
    e = .both (.net (.pipe (.refused c n))) c (.writeErr 1 b)

theorem writes_what {tr : List Full.Ev} (h : Exec (Full.Step ω) (Full.new d st) tr s) {n c : Nat} {b : Bytes} (hw : s.whole.hub.worker = .writing n c b) :
    ∃ o, (n, c, o) ∈ requestsOf (pipeOf (seenIn tr)) := by
  obtain ⟨p, h1, h2⟩ := (at_exec h).pipe
  have := h2.worker
  rw [hw] at this
  obtain ⟨o, -, -, g, -⟩ := (pipeInv h1).work n c b (by simpa using this)
  exact ⟨o, g⟩

theorem not_settled {tr : List Full.Ev} {e : Full.Ev} (h : Exec (Full.Step ω) (Full.new d st) (tr ++ [e]) s) {n : Nat} {f : Fate}
    (he : fatesOf (pipeOf (seenIn [e])) = [(n, f)]) (g : Fate) : (n, g) ∉ fatesOf (pipeOf (seenIn tr)) := by
  obtain ⟨p, h1, -⟩ := (at_exec h).pipe
  have := (C67_fate h1).1
  rw [seenIn_append, pipeOf_append, fatesOf_append, he, List.map_append, List.nodup_append] at this
  intro hm
  exact this.2.2 n (List.mem_map.2 ⟨_, hm, rfl⟩) n (by simp) rfl

/-- What happens that is not the reader's business, nor brings bytes, is not the worker's business either, or brings it nearer to its end. -/
theorem writeRank_step {tr : List Full.Ev} {e : Full.Ev} (h : Exec (Full.Step ω) (Full.new d st) tr s) (hs : Full.Step ω s e s') {c : Nat} (hr : ¬ Reader c e) :
    (4 * openOf c (pipeOf (seenIn (tr ++ [e]))) + writeRank ((s'.lines c).pcs 1) ≤ 4 * openOf c (pipeOf (seenIn tr)) + writeRank ((s.lines c).pcs 1)) ∧
    (Writer c e → 4 * openOf c (pipeOf (seenIn (tr ++ [e]))) + writeRank ((s'.lines c).pcs 1) < 4 * openOf c (pipeOf (seenIn tr)) + writeRank ((s.lines c).pcs 1)) := by
  have hx := h.snoc hs
  have hp := properInv h c
  have plain := (at_exec hx).plain
  have le : openOf c (pipeOf (seenIn (tr ++ [e]))) ≤ openOf c (pipeOf (seenIn tr)) := by
    rw [seenIn_append, pipeOf_append]
    refine openOf_le fun n o hm => ?_
    have hno : ∀ c n o, .pipe (.read c n o) ∉ seenIn [e] := fun c n o hm => plain _ (by rw [seenIn_append]; exact List.mem_append_right _ hm) c n o rfl
    cases hs with
    | read c' n' o' w x =>
      simp [seenIn, wholeOf, netOf, pipeOf, requestsOf] at hm
      obtain ⟨rfl, rfl, rfl⟩ := hm
      exact hr (.read _ _)
    | whole e w g1 g2 =>
      cases e with
      | net e =>
        cases e with
        | pipe e => cases e <;> simp_all [seenIn, wholeOf, netOf, pipeOf, requestsOf]
        | _ => simp_all [seenIn, wholeOf, netOf, pipeOf, requestsOf, Full.apart]
      | _ => simp_all [seenIn, wholeOf, netOf, pipeOf, requestsOf]
    | _ => simp_all [seenIn, wholeOf, netOf, pipeOf, requestsOf]
  have lt : ∀ {n : Nat} {b : Bytes} {f : Fate}, s.whole.hub.worker = .writing n c b → requestsOf (pipeOf (seenIn [e])) = [] → fatesOf (pipeOf (seenIn [e])) = [(n, f)] →
      openOf c (pipeOf (seenIn (tr ++ [e]))) < openOf c (pipeOf (seenIn tr)) := by
    intro n b f hw h1 h2
    obtain ⟨o, ho⟩ := writes_what h hw
    rw [seenIn_append, pipeOf_append]
    exact openOf_lt (f := f) h1 ho (not_settled hx h2) (by rw [h2]; simp)
  have two : ∀ p, writeRank p ≤ 2 := fun p => by cases p <;> simp [writeRank]
  rcases line_step hs c with ⟨g, hn⟩ | ⟨x, he, hx'⟩
  · rw [g]
    refine ⟨by omega, fun hw => ?_⟩
    obtain ⟨b, rfl | rfl | ⟨n, rfl | rfl | rfl⟩⟩ := hw
    · exact absurd rfl (hn _)
    · exact absurd rfl (hn _)
    · cases hs with
      | wrote _ _ _ _ _ h1 => have := lt (whole_wrote h1).1 rfl rfl; omega
    · cases hs with
      | refuse _ _ _ _ _ h0 h1 => have := lt h0 rfl rfl; omega
    · cases hs with
      | fail _ _ _ _ _ h1 => obtain ⟨⟨_, h0⟩, -⟩ := whole_refused h1; have := lt h0 rfl rfl; omega
  · have hpx := proper_step hs he
    by_cases hw : Writer c e
    · suffices h : _ from ⟨Nat.le_of_lt h, fun _ => h⟩
      obtain ⟨b, rfl | rfl | ⟨n, rfl | rfl | rfl⟩⟩ := hw
      · rcases he with he | ⟨w, he⟩ <;> cases he
        generalize s'.lines c = y at *
        cases hx' with
        | writeCall _ _ _ h1 => simp [upd, h1, writeRank]; omega
      · rcases he with he | ⟨w, he⟩ <;> cases he
        generalize s'.lines c = y at *
        cases hx' with
        | writeReset _ _ h1 => simp [upd, h1, writeRank]; omega
      · have := two ((s'.lines c).pcs 1)
        cases hs with
        | wrote _ _ _ _ _ h1 => have := lt (whole_wrote h1).1 rfl rfl; omega
      · have := two ((s'.lines c).pcs 1)
        cases hs with
        | refuse _ _ _ _ _ h0 h1 => have := lt h0 rfl rfl; omega
      · have := two ((s'.lines c).pcs 1)
        cases hs with
        | fail _ _ _ _ _ h1 => obtain ⟨⟨_, h0⟩, -⟩ := whole_refused h1; have := lt h0 rfl rfl; omega
    · refine ⟨?_, fun h => absurd h hw⟩
      have : (s'.lines c).pcs 1 = (s.lines c).pcs 1 := by
        refine pcs_one hx' hp ⟨?_, fun b => ⟨?_, ?_, ?_⟩⟩ hpx
        · rintro rfl
          rcases he with rfl | ⟨w, rfl⟩
          · exact hw ⟨[], .inr (.inl rfl)⟩
          · cases hs
        · rintro rfl
          rcases he with rfl | ⟨w, rfl⟩
          · exact hw ⟨b, .inl rfl⟩
          · cases hs
        · rintro rfl
          rcases he with rfl | ⟨w, rfl⟩
          · cases hs; rename_i h _; simp [Full.own] at h
          · cases hs; exact hw ⟨b, .inr (.inr ⟨_, .inl rfl⟩)⟩
        · rintro rfl
          rcases he with rfl | ⟨w, rfl⟩
          · cases hs; rename_i h _; simp [Full.own] at h
          · cases hs; exact hw ⟨b, .inr (.inr ⟨_, .inr (.inr rfl)⟩)⟩
      rw [this]
      omega

/-- When the reader does nothing more, the worker too is done with the connection in the end. -/
theorem writer_ceases {c i : Nat} (hs : ∀ j l, i ≤ j → r.ev j = some l → ¬ Reader c l) : ∃ j, i ≤ j ∧ ∀ k l, j ≤ k → r.ev k = some l → ¬ Writer c l := by
  refine ceases r (Writer c) (fun j => 4 * openOf c (pipeOf (seenIn (r.until j))) + writeRank (((r.state j).lines c).pcs 1)) (fun j hj => ?_) (fun j l hj he hr => ?_)
  · rcases r.next j with ⟨l, h1, h2⟩ | ⟨h1, h⟩
    · have := (writeRank_step (run_exec r j) h2 (hs j l hj h1)).1
      simpa [until_succ, h1] using this
    · simp [until_succ, h1, h]
  · have := (writeRank_step (run_exec r j) (run_step r he) (hs j l hj he)).2 hr
    simpa [until_succ, he] using this

/-- When nothing more arrives, the expire worker is gone in the end. -/
theorem timer_over {c i : Nat} (hc : (r.state i).whole.hub.conns c ≠ none) (hs : r.Silent c i) (ht : r.Ticks c) : ∃ j, i ≤ j ∧ ((r.state j).lines c).worker ≠ .selecting := by
  obtain ⟨j, h1, h2⟩ := reader_ceases hs
  obtain ⟨k, h3, h4⟩ := writer_ceases h2
  obtain ⟨l, h5, h6⟩ := ht k (conns_last hc (by omega)) fun j hj =>
    ⟨fun h => h2 j _ (by omega) h .reset, fun h => h4 j _ hj h ⟨[], .inr (.inl rfl)⟩⟩
  exact ⟨l, by omega, h6⟩

/-! ### the theorems -/

/-- C92: when nothing more arrives on a connection, its socket is closed in the end, its expire worker has ended and nobody is closing it any more, unless
the farewell is held by a client that does not read. -/
theorem C92_closed_partial (r : Run (Full.Step ω) (Full.new d st)) {c i : Nat} (hc : (r.state i).whole.hub.conns c ≠ none) (hs : r.Silent c i) (ho : r.Orderly c)
    (hh : ¬ r.Parting c) : r.Finally (Shut · c) := by
  obtain ⟨j, h1, h2⟩ := timer_over hc hs ho.ticks
  exact shut_finally ho.lives ho.closers hh (conns_last hc h1) h2

/-- C92: and then it is not. -/
theorem C92_exact (r : Run (Full.Step ω) (Full.new d st)) {c i : Nat} (hc : (r.state i).whole.hub.conns c ≠ none) (hs : r.Silent c i) (ho : r.Orderly c) :
    r.Finally (Shut · c) ↔ ¬ r.Parting c := by
  refine ⟨?_, C92_closed_partial r hc hs ho⟩
  rintro ⟨j, h1⟩ ⟨i, k, h2, -⟩
  have h1 := h1 (i + j) (by omega)
  have h2 := h2 (i + j) (by omega)
  have hp := properInv (run_exec r (i + j)) c
  match k, h2 with
  | 0, h2 => rw [h1.expirer] at h2; cases h2
  | 1, h2 => rcases hp.one with h | ⟨_, h⟩ | ⟨_, h⟩ <;> rw [h] at h2 <;> cases h2
  | 2, h2 => rcases hp.two with h | h | h <;> rw [h] at h2 <;> cases h2
  | 3, h2 => rw [h1.closer] at h2; cases h2
  | k + 4, h2 => rw [hp.rest _ (by omega)] at h2; cases h2

/-- C92: when a connection is closed, the goroutine that reads from it ends, or it waits for ever for the expire worker, which is gone. -/
theorem C92_reader (r : Run (Full.Step ω) (Full.new d st)) {c i : Nat} (hc : (r.state i).whole.hub.conns c ≠ none) (hs : r.Silent c i) (ho : r.Orderly c)
    (hh : ¬ r.Parting c) : r.Finally (ReaderOver · c) ∨ r.Finally (ReaderWaits · c) := by
  obtain ⟨j1, h1⟩ := C92_closed_partial r hc hs ho hh
  obtain ⟨j2, h2, h3⟩ := reader_ceases hs
  obtain ⟨n, hn1, hn2, hn3⟩ : ∃ n, i ≤ n ∧ j1 ≤ n ∧ j2 ≤ n := ⟨i + j1 + j2, by omega, by omega, by omega⟩
  have same : ∀ j, n ≤ j → readerPart (r.state j) c = readerPart (r.state n) c := by
    intro j hj
    refine lasts r (fun s => readerPart s c = readerPart (r.state n) c) rfl (fun j l hj h he => ?_) hj
    rcases readRank_or (run_step r he) ((run_at r j).line c) (properInv (run_exec r j) c) with g | ⟨b, hb, rfl⟩ | g
    · rw [g.1]; exact h
    · exact absurd (hs j b (by omega) he) hb
    · exact absurd g.2 (h3 j l (by omega) he)
  have never : ¬ ∀ j, n ≤ j → Possible (Full.Step ω) (Reader c) (r.state j) := by
    intro h
    obtain ⟨j, l, g1, g2, g3⟩ := ho.reader n h
    exact h3 j l (by omega) g2 g3
  have parts : ∀ j, n ≤ j → (r.state j).cut c = (r.state n).cut c ∧ ((r.state j).whole.feeds c).pc = ((r.state n).whole.feeds c).pc ∧
      ((r.state j).lines c).pcs 2 = ((r.state n).lines c).pcs 2 := by
    intro j hj
    have := same j hj
    simp only [readerPart, Prod.mk.injEq] at this
    grind
  rcases (properInv (run_exec r n) c).two with h | h | h
  · refine .inl ⟨n, fun j hj => ?_⟩
    obtain ⟨g1, g2, g3⟩ := parts j hj
    refine ⟨g3.trans h, ?_⟩
    rw [g1, g2]
    by_contra hno
    simp only [not_or, ne_eq, not_not, Bool.not_eq_true] at hno
    refine never fun j hj => ?_
    obtain ⟨g1, g2, g3⟩ := parts j hj
    exact ⟨_, _, .call, .readCall c _ (ho.lives j) (conns_last hc (by omega)) (g2.trans hno.1) (g1.trans hno.2) (.readCall 2 (by decide) (g3.trans h))⟩
  · exact .inr ⟨n, fun j hj => ⟨(parts j hj).2.2.trans h, (h1 j (by omega)).worker⟩⟩
  · refine absurd (fun j hj => ?_) never
    exact ⟨_, _, .fail, .cut c _ (ho.lives j) (.inl (h1 j (by omega)).sock) (.readErr 2 ((parts j hj).2.2.trans h))⟩

/-- A reader that has returned does not come back. -/
theorem pc_last {e : Full.Ev} (hs : Full.Step ω s e s') {c : Nat} (h : (s.whole.feeds c).pc ≠ .reading) : (s'.whole.feeds c).pc = (s.whole.feeds c).pc := by
  have fed : ∀ {c' : Nat} {e : Feed.Ev} {x : Feed.Sys}, Feed.Step (s.whole.feeds c') e x → (upd s.whole.feeds c' x c).pc = (s.whole.feeds c).pc := by
    intro c' e x hx
    by_cases hc : c = c'
    · subst hc
      rw [upd_same]
      cases hx <;> first | rfl | exact absurd ‹_› h
    · rw [upd_other _ _ hc]
  cases hs with
  | whole e w h1 h2 => rw [show ({ s with whole := w } : Full.Sys).whole.feeds = s.whole.feeds from (whole_apart h2 h1).1]
  | send c' e w _ _ _ h4 =>
    obtain ⟨-, x, g1, g2, -⟩ := whole_feed h4
    rw [g2]; exact fed g1
  | kill c' w _ h4 =>
    obtain ⟨-, x, g1, g2, -⟩ := whole_feed h4
    rw [g2]; exact fed g1
  | finish c' e w x _ h4 =>
    obtain ⟨-, x, g1, g2, -⟩ := whole_feed h4
    rw [g2]; exact fed g1
  | read c' n o w x h1 =>
    obtain ⟨y, hub, g1, -, rfl⟩ := whole_read h1
    exact fed g1
  | wrote n c' b w x h1 => obtain ⟨-, rfl⟩ := whole_wrote h1; rfl
  | refuse n c' b w x _ h1 => obtain ⟨-, rfl⟩ := whole_refused h1; rfl
  | fail n c' b w x h1 => obtain ⟨-, rfl⟩ := whole_refused h1; rfl
  | _ => rfl

/-- C92: from the end of its client's stream on, the goroutine is gone. -/
theorem C92_ended (r : Run (Full.Step ω) (Full.new d st)) (hu : r.Lives) {c i : Nat} (he : ((r.state i).whole.feeds c).pc = .left) {j : Nat} (hj : i ≤ j) :
    ReaderOver (r.state j) c := by
  have h := lasts r (fun s => (s.whole.feeds c).pc = .left) he (fun j l _ h he => (pc_last (run_step r he) (by rw [h]; simp)).trans h) hj
  have hn : ((r.state j).whole.feeds c).pc ≠ .reading := by rw [h]; simp
  refine ⟨?_, .inl hn⟩
  by_contra hp
  exact hn (((run_at r j).line c).reads hp (hu j)).1

/-- C92: but the server never forgets a connection. -/
theorem C92_kept (r : Run (Full.Step ω) (Full.new d st)) {c i : Nat} (hc : (r.state i).whole.hub.conns c ≠ none) {j : Nat} (hj : i ≤ j) : Remembers (r.state j) c := by
  have h := conns_last hc hj
  obtain ⟨p, h1, h2⟩ := (run_at r j).pipe
  cases g : (r.state j).whole.hub.conns c with
  | none => exact absurd g h
  | some id => exact ⟨id, by rw [← h2.clients]; exact ((pipeInv h1).ids id c).2 (by rw [h2.conns]; exact g)⟩

/-! ### what is left -/

theorem done_quiet {g : Goroutine} {e : Full.Ev} (hd : DoneBy g e) : requestsOf (pipeOf (seenIn [e])) = [] := by
  cases hd with
  | spread reply n x | call reply n m => cases reply <;> rfl
  | _ => rfl

/-- Nobody writes to a connection when nobody has asked anything. -/
theorem idle_line {tr : List Full.Ev} (h : Exec (Full.Step ω) (Full.new d st) tr s) (hq : requestsOf (pipeOf (seenIn tr)) = []) {g : Goroutine} {e : Full.Ev}
    (hs : Full.Step ω s e s') (hd : DoneBy g e) (c : Nat) : s'.lines c = s.lines c ∧ s'.cut = s.cut := by
  have nobody : ∀ n c b, s.whole.hub.worker ≠ .writing n c b := by
    intro n c b hw
    obtain ⟨o, ho⟩ := writes_what h hw
    rw [hq] at ho
    cases ho
  have idle : ∀ c, (s.lines c).pcs 1 = .idle := by
    intro c
    rcases (lineInv h c).writer with h | ⟨b, n, -, h⟩
    · exact h
    · exact absurd h (nobody _ _ _)
  cases hs with
  | whole => exact ⟨rfl, rfl⟩
  | send | read | finish | kill | readCall | cut | closeCall => cases hd
  | writeCall n c' b x _ h1 => exact absurd h1 (nobody _ _ _)
  | wrote n c' b w x h1 => exact absurd (whole_wrote h1).1 (nobody _ _ _)
  | refuse n c' b w x h1 => exact absurd h1 (nobody _ _ _)
  | fail n c' b w x h1 => obtain ⟨⟨b, h1⟩, -⟩ := whole_refused h1; exact absurd h1 (nobody _ _ _)
  | own c' x y _ _ h3 h4 =>
    cases hd with
    | writeReset => cases h4 with | writeReset _ _ h5 => rw [idle c'] at h5; cases h5
    | _ => simp [Full.own] at h3

/-- A state in which nobody has asked anything is gone on from without anything happening to the connections. -/
theorem parked {tr : List Full.Ev} (h : Exec (Full.Step ω) (Full.new d st) tr s) (hu : s.up) (hq : requestsOf (pipeOf (seenIn tr)) = []) :
    ∃ r : Run (Full.Step ω) (Full.new d st), r.until tr.length = tr ∧ r.state tr.length = s ∧ r.FairToAll ∧ r.Lives ∧
      (∀ j, tr.length ≤ j → (∀ c, (r.state j).lines c = s.lines c) ∧ (r.state j).cut = s.cut ∧ (r.state j).whole.feeds = s.whole.feeds) ∧
      ∀ j l, tr.length ≤ j → r.ev j = some l → ∃ g, DoneBy g l := by
  obtain ⟨r, h1, h2, h3, h4, h5, h6⟩ := calm h hu (by rw [hq]; simp)
  refine ⟨r, h1, h2, h3, h4, fun j hj => ?_, h6⟩
  have quiet : ∀ j, tr.length ≤ j → requestsOf (pipeOf (seenIn (r.until j))) = [] := by
    intro j hj
    induction j, hj using Nat.le_induction with
    | base => rw [h1, hq]
    | succ j hj ih =>
      rw [until_succ, seenIn_append, pipeOf_append, requestsOf_append, ih]
      cases g : r.ev j with
      | none => rfl
      | some l =>
        obtain ⟨_, hd⟩ := h6 j l hj g
        exact done_quiet hd
  refine lasts r (fun s' => (∀ c, s'.lines c = s.lines c) ∧ s'.cut = s.cut ∧ s'.whole.feeds = s.whole.feeds) (by rw [h2]; simp) (fun j l hj ⟨i1, i2, i3⟩ he => ?_) hj
  obtain ⟨_, hd⟩ := h6 j l hj he
  have hs := run_step r he
  exact ⟨fun c => (idle_line (run_exec r j) (quiet j hj) hs hd c).1.trans (i1 c), (idle_line (run_exec r j) (quiet j hj) hs hd 0).2.trans i2, (done_apart hs hd 0).1.trans i3⟩

/-- Such a run is orderly if those who read from the connection and close it have nothing more to do. -/
theorem parked_orderly {tr : List Full.Ev} (h : Exec (Full.Step ω) (Full.new d st) tr s) (hu : s.up) (hq : requestsOf (pipeOf (seenIn tr)) = []) {c : Nat}
    (hw : (s.lines c).worker ≠ .selecting)
    (hr : ∀ s' : Full.Sys, s'.lines c = s.lines c → s'.cut = s.cut → s'.whole.feeds = s.whole.feeds → ¬ Possible (Full.Step ω) (Reader c) s' ∧ ∀ k, ¬ Possible (Full.Step ω) (Closer c k) s') :
    ∃ r : Run (Full.Step ω) (Full.new d st), r.until tr.length = tr ∧ r.state tr.length = s ∧ r.Orderly c ∧ r.Silent c tr.length ∧
      ∀ j, tr.length ≤ j → (r.state j).lines c = s.lines c ∧ (r.state j).cut = s.cut ∧ (r.state j).whole.feeds = s.whole.feeds := by
  obtain ⟨r, h1, h4, h2, h3, h5, h6⟩ := parked h hu hq
  have h5 : ∀ j, tr.length ≤ j → (r.state j).lines c = s.lines c ∧ (r.state j).cut = s.cut ∧ (r.state j).whole.feeds = s.whole.feeds :=
    fun j hj => ⟨(h5 j hj).1 c, (h5 j hj).2⟩
  refine ⟨r, h1, h4, ⟨h3, h2, fun i hi => ?_, fun k i hi => ?_, fun i _ _ => ⟨tr.length + i, by omega, by rw [(h5 _ (by omega)).1]; exact hw⟩⟩, fun j b hj he => ?_, h5⟩
  · obtain ⟨g1, g2, g3⟩ := h5 (tr.length + i) (by omega)
    exact absurd (hi (tr.length + i) (by omega)) (hr _ g1 g2 g3).1
  · obtain ⟨g1, g2, g3⟩ := h5 (tr.length + i) (by omega)
    exact absurd (hi (tr.length + i) (by omega)) ((hr _ g1 g2 g3).2 k)
  · obtain ⟨_, hd⟩ := h6 j _ hj he
    cases hd

theorem connect_seven (ω : Nat → Nat) (d : Bytes) : ∃ s, Exec (Full.Step ω) (Full.new d State.empty) [.whole (.net (.pipe (.connected 7))), .line 7 (.readCall 2)] s ∧ s.up ∧
    s.whole.hub.conns 7 ≠ none ∧ s.lines 7 = { Conn.new with pcs := upd Conn.new.pcs 2 .readReset } ∧ s.whole.feeds 7 = Feed.new ∧ s.cut 7 = false :=
  ⟨_, .cons (.whole _ _ rfl (.pass (.connected 7) _ rfl rfl (.connect 7 b!"a" rfl rfl (fun _ => by simp [Full.new, Whole.new, Hub.new]))))
    (.one (.readCall 7 _ ⟨rfl, rfl⟩ (by simp [upd]) rfl rfl (.readCall 2 (by decide) rfl))),
    ⟨rfl, rfl⟩, by simp [upd], by simp [upd_same, Full.new], rfl, rfl⟩

theorem own_exec {es : List Conn.Ev} {x y : Conn.Sys} (h : Exec Conn.Step x es y) {c : Nat} (hu : s.up) (hc : s.whole.hub.conns c ≠ none) (hx : s.lines c = x)
    (ho : ∀ e ∈ es, Full.own e = true) : ∃ s', Exec (Full.Step ω) s (es.map (.line c)) s' ∧ s'.whole = s.whole ∧ s'.cut = s.cut ∧ s'.lines c = y := by
  induction h with
  | nil => exact ⟨s, .nil, rfl, rfl, hx⟩
  | snoc h1 h2 ih =>
    obtain ⟨s1, g1, g2, g3, g4⟩ := ih fun e he => ho e (by simp [he])
    rename_i x' y' l
    have st : Full.Step ω s1 (.line c l) { s1 with lines := upd s1.lines c y' } :=
      .own c l y' (by rw [Full.Sys.up, g2]; exact hu) (by rw [g2]; exact hc) (ho _ (by simp)) (by rw [g4]; exact h2)
    exact ⟨{ s1 with lines := upd s1.lines c y' }, by rw [List.map_append]; exact g1.snoc st, g2, g3, upd_same _ _ _⟩

theorem upd_twice {α : Type} (f : Nat → α) (i : Nat) (v w : α) : upd (upd f i v) i w = upd f i w := by
  funext j; simp only [upd]; split <;> rfl

/-- A reader that is about to read when the timer fires. -/
theorem waits_sample (ω : Nat → Nat) (d : Bytes) : ∃ tr s, Exec (Full.Step ω) (Full.new d State.empty) tr s ∧ s.up ∧ s.whole.hub.conns 7 ≠ none ∧
    seenIn tr = [.pipe (.connected 7)] ∧ (s.lines 7).worker = .expired ∧ (s.lines 7).sock = true ∧ (s.lines 7).pcs = upd (fun _ => .idle) 2 .readReset ∧ s.whole.feeds 7 = Feed.new := by
  obtain ⟨s, h1, h2, h3, h4, h5, h6⟩ := connect_seven ω d
  have p : Exec Conn.Step { Conn.new with pcs := upd Conn.new.pcs 2 .readReset } [.expired, .closeWon 0, .farewell 0, .sockClosed 0, .closed 0] _ :=
    .cons (.expire rfl) (.cons (.closeWon 0 (by simp [upd]) rfl) (.cons (.farewell 0 (by simp [upd]) rfl (by simp [Conn.new]))
      (.cons (.sockClose 0 (by simp [upd])) (.one (.chanClose 0 (by simp [upd]) rfl)))))
  obtain ⟨s', g1, g2, g3, g4⟩ := own_exec (ω := ω) p h2 h3 h4 (by simp [Full.own])
  refine ⟨_, s', h1.append g1, by rw [Full.Sys.up, g2]; exact h2, by rw [g2]; exact h3, rfl, by rw [g4], by rw [g4], ?_, by rw [g2]; exact h5⟩
  rw [g4]
  funext j
  simp only [upd, Conn.new]
  grind

/-- A client that does not read when the timer fires. -/
theorem farewell_sample (ω : Nat → Nat) (d : Bytes) : ∃ tr s, Exec (Full.Step ω) (Full.new d State.empty) tr s ∧ s.up ∧ s.whole.hub.conns 7 ≠ none ∧
    seenIn tr = [.pipe (.connected 7)] ∧ (s.lines 7).worker = .expired ∧ (s.lines 7).sock = false ∧ (s.lines 7).client = .stalled ∧
    (s.lines 7).pcs = upd (upd (fun _ => .idle) 2 .reading) 0 .farewell ∧ s.whole.feeds 7 = Feed.new := by
  obtain ⟨s, h1, h2, h3, h4, h5, h6⟩ := connect_seven ω d
  have p : Exec Conn.Step { Conn.new with pcs := upd Conn.new.pcs 2 .readReset } [.readReset 2, .client .stalled, .expired, .closeWon 0] _ :=
    .cons (.readReset 2 (by simp [upd]) rfl) (.cons (.client .stalled (by simp [Conn.new])) (.cons (.expire rfl) (.one (.closeWon 0 (by simp [upd]) rfl))))
  obtain ⟨s', g1, g2, g3, g4⟩ := own_exec (ω := ω) p h2 h3 h4 (by simp [Full.own])
  refine ⟨_, s', h1.append g1, by rw [Full.Sys.up, g2]; exact h2, by rw [g2]; exact h3, rfl, by rw [g4], by rw [g4]; rfl, by rw [g4], ?_, by rw [g2]; exact h5⟩
  rw [g4]
  funext j
  simp only [upd, Conn.new]
  grind

/-- A client that ends its stream. -/
theorem ended_sample (ω : Nat → Nat) (d : Bytes) : ∃ tr s, Exec (Full.Step ω) (Full.new d State.empty) tr s ∧ s.up ∧ s.whole.hub.conns 7 ≠ none ∧
    seenIn tr = [.pipe (.connected 7), .feed 7 .ended, .feed 7 .left] ∧ (s.lines 7).worker = .gone ∧ (s.lines 7).flag = true ∧ (s.lines 7).sock = true ∧
    (s.lines 7).pcs = (fun _ => .idle) ∧ (s.whole.feeds 7).pc = .left := by
  obtain ⟨s, h1, h2, h3, h4, h5, h6⟩ := connect_seven ω d
  obtain ⟨u1, u2⟩ := h2
  have f1 : Feed.Step (s.whole.feeds 7) .ended { Feed.new with ended := true } := by rw [h5]; exact .finish rfl
  have s1 : Full.Step ω s (.whole (.net (.feed 7 .ended))) { s with whole := { s.whole with feeds := upd s.whole.feeds 7 { Feed.new with ended := true } } } :=
    .send 7 .ended _ rfl (by rw [h4]; rfl) (by rw [h4]; simp [Conn.new]) (.feed 7 .ended _ u1 u2 h3 rfl f1)
  obtain ⟨t1, k1, k2, k3, k4, k5⟩ : ∃ t, Exec (Full.Step ω) (Full.new d State.empty)
      ([.whole (.net (.pipe (.connected 7))), .line 7 (.readCall 2)] ++ [.whole (.net (.feed 7 .ended))] ++ [.line 7 (.readReset 2)]) t ∧ t.up ∧ t.whole.hub.conns 7 ≠ none ∧
      t.lines 7 = { Conn.new with pcs := upd Conn.new.pcs 2 .reading } ∧ t.whole.feeds 7 = { Feed.new with ended := true } := by
    refine ⟨_, (h1.snoc s1).snoc (.own 7 (.readReset 2) { Conn.new with pcs := upd Conn.new.pcs 2 .reading } ⟨u1, u2⟩ h3 rfl ?_), ⟨u1, u2⟩, h3, by simp [upd], by simp [upd]⟩
    have := Conn.Step.readReset (s := { Conn.new with pcs := upd Conn.new.pcs 2 .readReset }) 2 (by simp [upd]) rfl
    simp only [upd_twice] at this
    rw [h4]
    exact this
  have f2 : Feed.Step (t1.whole.feeds 7) .left { pending := [], ended := true, pc := .left } := by rw [k5]; exact .leave rfl rfl rfl
  have l2 : Conn.Step (t1.lines 7) (.readErr 2) Conn.new := by
    have := Conn.Step.readErr (s := { Conn.new with pcs := upd Conn.new.pcs 2 .reading }) 2 (by simp [upd])
    simp only [upd_twice] at this
    rw [k4]
    have e : upd Conn.new.pcs 2 .idle = Conn.new.pcs := by funext j; simp only [upd, Conn.new]; split <;> rfl
    rwa [e] at this
  obtain ⟨t2, m1, m2, m3, m4, m5⟩ : ∃ t, Exec (Full.Step ω) (Full.new d State.empty)
      ([.whole (.net (.pipe (.connected 7))), .line 7 (.readCall 2)] ++ [.whole (.net (.feed 7 .ended))] ++ [.line 7 (.readReset 2)] ++ [.both (.net (.feed 7 .left)) 7 (.readErr 2)] ++
        [.line 7 (.closeCall 3)]) t ∧ t.up ∧ t.whole.hub.conns 7 ≠ none ∧
      t.lines 7 = { Conn.new with pcs := upd Conn.new.pcs 3 .closeStart } ∧ (t.whole.feeds 7).pc = .left := by
    obtain ⟨v1, v2⟩ := k2
    have s2 := Full.Step.finish (ω := ω) 7 .left _ _ rfl (.feed 7 .left _ v1 v2 k3 rfl f2) l2
    refine ⟨_, (k1.snoc s2).snoc (.closeCall 7 { Conn.new with pcs := upd Conn.new.pcs 3 .closeStart } ⟨v1, v2⟩ (by simp [upd]) (by simp [upd, Conn.new]) ?_), ⟨v1, v2⟩, k3, by simp [upd], by simp [upd]⟩
    show Conn.Step (upd t1.lines 7 Conn.new 7) _ _; rw [upd_same]
    exact .closeCall 3 (by decide) rfl
  have p : Exec Conn.Step { Conn.new with pcs := upd Conn.new.pcs 3 .closeStart } [.closeWon 3, .farewell 3, .sockClosed 3, .closed 3, .workerLeft] _ :=
    .cons (.closeWon 3 (by simp [upd]) rfl) (.cons (.farewell 3 (by simp [upd]) rfl (by simp [Conn.new]))
      (.cons (.sockClose 3 (by simp [upd])) (.cons (.chanClose 3 (by simp [upd]) rfl) (.one (.workerLeft rfl rfl)))))
  obtain ⟨s', g1, g2, g3, g4⟩ := own_exec (ω := ω) p m2 m3 m4 (by simp [Full.own])
  refine ⟨_, s', m1.append g1, by rw [Full.Sys.up, g2]; exact m2, by rw [g2]; exact m3, rfl, by rw [g4], by rw [g4], by rw [g4], ?_, by rw [g2]; exact m5⟩
  rw [g4]
  funext j
  simp only [upd, Conn.new]
  grind

/-- Nobody closes a connection any more whose goroutines are all away, the reader aside. -/
theorem no_closer {c : Nat} (h : ∀ k, (s.lines c).pcs k = .idle ∨ (s.lines c).pcs k = .readReset ∨ (s.lines c).pcs k = .reading) (hf : (s.whole.feeds c).pc ≠ .left ∨ (s.lines c).flag = true)
    (k : Nat) : ¬ Possible (Full.Step ω) (Closer c k) s := by
  rintro ⟨l, s', hc, hs⟩
  have hk := h k
  cases hc with
  | call =>
    cases hs with
    | closeCall _ _ _ h1 h2 => rcases hf with hf | hf <;> simp_all
    | own _ _ _ _ _ h3 => simp [Full.own] at h3
  | _ =>
    cases hs with
    | own _ _ _ _ _ _ h4 => cases h4 <;> simp_all

/-- Nor does anybody read from it any more whose reader has returned, or waits for the expire worker, which is gone. -/
theorem no_reader {c : Nat} (h1 : (s.lines c).pcs 2 ≠ .reading) (h2 : (s.lines c).pcs 2 = .idle → (s.whole.feeds c).pc ≠ .reading)
    (h3 : (s.lines c).pcs 2 = .readReset → (s.lines c).worker ≠ .selecting) : ¬ Possible (Full.Step ω) (Reader c) s := by
  rintro ⟨l, s', hr, hs⟩
  cases hr with
  | call =>
    cases hs with
    | readCall _ x _ _ g1 _ h6 => cases h6 with | readCall _ _ g => exact h2 g g1
    | own _ _ _ _ _ g => simp [Full.own] at g
  | reset => cases hs with | own _ _ _ _ _ _ h6 => cases h6 with | readReset _ g1 g2 => exact h3 g1 g2
  | read n o => cases hs with | read _ _ _ w x _ g => cases g with | read _ g => exact h1 g
  | finish e => cases hs with | finish _ _ w x _ _ g => cases g with | readErr _ g => exact h1 g
  | crash =>
    cases hs with
    | whole _ w g => simp [Full.apart] at g
    | send _ _ w g => simp [Full.sends] at g
    | kill _ w g => exact h1 g
  | fail =>
    cases hs with
    | cut _ x _ _ g => cases g with | readErr _ g => exact h1 g
    | own _ _ _ _ _ g => simp [Full.own] at g

/-- C92: a goroutine can wait for ever to read from a connection that is closed. -/
theorem C92_waits (ω : Nat → Nat) (d : Bytes) : ∃ (r : Run (Full.Step ω) (Full.new d State.empty)) (i : Nat), (r.state i).whole.hub.conns 7 ≠ none ∧ r.Silent 7 i ∧ r.Orderly 7 ∧
    seenIn (r.until i) = [.pipe (.connected 7)] ∧ r.Finally (ReaderWaits · 7) ∧ ¬ r.Finally (ReaderOver · 7) := by
  obtain ⟨tr, s, h1, h2, h3, h4, h5, h6, h7, h8⟩ := waits_sample ω d
  have hr : (s.lines 7).pcs 2 = .readReset := by rw [h7]; simp [upd]
  obtain ⟨r, g1, st, g2, g3, g4⟩ := parked_orderly (c := 7) h1 h2 (by rw [h4]; rfl) (by rw [h5]; simp) (by
    intro s' e1 e2 e3
    refine ⟨?_, no_closer (fun k => ?_) (.inl (by rw [e3, h8]; simp [Feed.new]))⟩
    · rintro ⟨l, s'', hd, hs⟩
      rw [← e1] at hr h5
      exact no_reader (by rw [hr]; simp) (by rw [hr]; simp) (fun _ => by rw [h5]; simp) ⟨l, s'', hd, hs⟩
    · rw [e1, h7]
      by_cases hk : k = 2 <;> simp [upd, hk])
  refine ⟨r, tr.length, by rw [st]; exact h3, g3, g2, by rw [g1]; exact h4, ⟨tr.length, fun j hj => ?_⟩, ?_⟩
  · exact ⟨by rw [(g4 j hj).1]; exact hr, by rw [(g4 j hj).1, h5]; simp⟩
  · rintro ⟨i, hi⟩
    have := (hi (tr.length + i) (by omega)).1
    rw [(g4 _ (by omega)).1, hr] at this
    cases this

/-- C92: a connection whose timer has fired can stay open for ever, its client not reading. -/
theorem C92_farewell (ω : Nat → Nat) (d : Bytes) : ∃ (r : Run (Full.Step ω) (Full.new d State.empty)) (i : Nat), (r.state i).whole.hub.conns 7 ≠ none ∧ r.Silent 7 i ∧ r.Orderly 7 ∧
    seenIn (r.until i) = [.pipe (.connected 7)] ∧ r.Parting 7 ∧ (∀ j, i ≤ j → ((r.state j).lines 7).worker = .expired ∧ ((r.state j).lines 7).sock = false) ∧ ¬ r.Finally (Shut · 7) := by
  obtain ⟨tr, s, h1, h2, h3, h4, h5, h6, h7, h8, h9⟩ := farewell_sample ω d
  have hr : (s.lines 7).pcs 2 = .reading := by rw [h8]; simp [upd]
  have h0 : (s.lines 7).pcs 0 = .farewell := by rw [h8]; simp [upd]
  have hp : ∀ k, k ≠ 0 → k ≠ 2 → (s.lines 7).pcs k = .idle := fun k h1 h2 => by rw [h8]; simp [upd, h1, h2]
  obtain ⟨r, g1, st, g2, g3, g4⟩ := parked_orderly (c := 7) h1 h2 (by rw [h4]; rfl) (by rw [h5]; simp) (by
    intro s' e1 e2 e3
    rw [← e1] at hr h0 h6 h7 hp
    rw [← e3] at h9
    refine ⟨rests_none ⟨by rw [h9]; rfl, by rw [h9]; rfl, hr, h6, by rw [h7]; simp⟩, fun k => ?_⟩
    rintro ⟨l, s'', hd, hs⟩
    have hk : (s'.lines 7).pcs k = .idle ∨ (s'.lines 7).pcs k = .farewell ∨ (s'.lines 7).pcs k = .reading := by
      by_cases k0 : k = 0
      · subst k0; exact .inr (.inl h0)
      · by_cases k2 : k = 2
        · subst k2; exact .inr (.inr hr)
        · exact .inl (hp k k0 k2)
    cases hd with
    | call =>
      cases hs with
      | closeCall _ _ _ h1 h2 => rw [h9] at h1; cases h1
      | own _ _ _ _ _ h3 => simp [Full.own] at h3
    | _ =>
      cases hs with
      | own _ _ _ _ _ _ h4 => cases h4 <;> simp_all)
  have part : r.Parting 7 := ⟨tr.length, 0, fun j hj => by rw [(g4 j hj).1]; exact h0, fun j hj => ⟨j, Nat.le_refl j, by rw [(g4 j hj).1]; exact h7⟩⟩
  refine ⟨r, tr.length, by rw [st]; exact h3, g3, g2, by rw [g1]; exact h4, part, fun j hj => by rw [(g4 j hj).1]; exact ⟨h5, h6⟩, fun h => ?_⟩
  exact (C92_exact r (by rw [st]; exact h3) g3 g2).1 h part

/-- C92: nothing of what one would like to see gone of a connection is always gone in the end: not the socket, not the goroutine that reads, and never the entry
in the table of the clients. -/
theorem C92_false : ¬ EndsUp Shut ∧ ¬ EndsUp ReaderOver ∧ ¬ EndsUp fun s c => ¬ Remembers s c := by
  refine ⟨fun h => ?_, fun h => ?_, fun h => ?_⟩
  · obtain ⟨r, i, h1, h2, h3, -, -, -, h4⟩ := C92_farewell (fun _ => 0) []
    exact h4 (h _ _ _ r 7 i h1 h2 h3)
  · obtain ⟨r, i, h1, h2, h3, -, -, h4⟩ := C92_waits (fun _ => 0) []
    exact h4 (h _ _ _ r 7 i h1 h2 h3)
  · obtain ⟨r, i, h1, h2, h3, -⟩ := C92_waits (fun _ => 0) []
    obtain ⟨j, hj⟩ := h _ _ _ r 7 i h1 h2 h3
    exact hj (i + j) (by omega) (C92_kept r h1 (by omega))

/-- The hypotheses of `C92_closed_partial`, `C92_exact`, `C92_reader`, `C92_ended` and `C92_kept` can be met: a client connects and ends its stream. -/
example (ω : Nat → Nat) (d : Bytes) : ∃ (r : Run (Full.Step ω) (Full.new d State.empty)) (i : Nat), (r.state i).whole.hub.conns 7 ≠ none ∧ r.Silent 7 i ∧ r.Orderly 7 ∧
    seenIn (r.until i) = [.pipe (.connected 7), .feed 7 .ended, .feed 7 .left] ∧ ((r.state i).whole.feeds 7).pc = .left ∧ ¬ r.Parting 7 ∧ r.Finally (Shut · 7) ∧
    r.Finally (ReaderOver · 7) := by
  obtain ⟨tr, s, h1, h2, h3, h4, h5, h6, h7, h8, h9⟩ := ended_sample ω d
  obtain ⟨r, g1, st, g2, g3, g4⟩ := parked_orderly (c := 7) h1 h2 (by rw [h4]; rfl) (by rw [h5]; simp) (by
    intro s' e1 e2 e3
    refine ⟨?_, no_closer (fun k => .inl (by rw [e1, h8])) (.inr (by rw [e1]; exact h6))⟩
    rintro ⟨l, s'', hd, hs⟩
    rw [← e1] at h8
    rw [← e3] at h9
    exact no_reader (by rw [h8]; simp) (fun _ => by rw [h9]; simp) (by rw [h8]; simp) ⟨l, s'', hd, hs⟩)
  have hl : ((r.state tr.length).whole.feeds 7).pc = .left := by rw [st]; exact h9
  have hc : (r.state tr.length).whole.hub.conns 7 ≠ none := by rw [st]; exact h3
  have hp : ¬ r.Parting 7 := by
    rintro ⟨i, k, h, -⟩
    have := h (tr.length + i) (by omega)
    rw [(g4 _ (by omega)).1, h8] at this
    cases this
  exact ⟨r, tr.length, hc, g3, g2, by rw [g1]; exact h4, hl, hp, C92_closed_partial r hc g3 g2 hp, ⟨tr.length, fun j hj => C92_ended r g2.lives hl hj⟩⟩

end Verif.Props
