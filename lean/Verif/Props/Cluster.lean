import Verif.Lemmas.Fair
import Verif.Props.Gone
import Verif.Spec.Cluster

/-! C94: whether servers that start get up. -/

namespace Verif.Props

open Spec
open Fut (upd)

variable {cfg : Nat → Cluster.Config} {s s' : Cluster.Sys} {e : Cluster.Ev}

/-- How far a server is from being up. -/
def startRank : Cluster.Pc → Nat
  | .off => 9
  | .bound => 8
  | .waiting .queued => 7
  | .waiting .handled => 6
  | .waiting .forgotten => 5
  | .waiting .sent => 4
  | .waiting .broken => 4
  | .ready => 3
  | .up true => 2
  | .up false => 1

theorem start_moves (h : Cluster.Step cfg s e s') (i : Nat) : s' i = s i ∨ startRank (s' i) < startRank (s i) ∨ e = .died i ∨ s i = .off := by
  cases h with
  | die k hk =>
    by_cases hi : i = k
    · exact .inr (.inr (.inl (by rw [hi])))
    · simp only [Cluster.without, hi, if_false]
      split
      · cases s i with
        | waiting l => cases l <;> simp [Cluster.cutOff, startRank]
        | _ => simp [Cluster.cutOff]
      · exact .inl rfl
  | bind k hk => by_cases hi : i = k <;> simp_all [upd]
  | receive k hk => by_cases hi : i = k <;> rcases hk with hk | hk <;> simp_all [upd, startRank]
  | serve k hk =>
    by_cases hi : i = k
    · subst hi; cases hc : (cfg i).serves <;> simp [upd, hk, startRank]
    · simp [upd, hi]
  | broke k l hk hl =>
    by_cases hi : i = k
    · subst hi; cases l <;> simp_all [upd, startRank]
    · simp [upd, hi]
  | alone k hk | dial k m hk | refuse k m hk | accept k m hk | noFile k m hk | send k m hk | fail k m hk | collect k hk | acceptFails k hk =>
    by_cases hi : i = k <;> simp_all [upd, startRank]

theorem started_by {i : Nat} {g : Starter} (h : Cluster.Step cfg s e s') (hg : StartedBy i g e) : s' i ≠ s i := by
  cases hg <;> cases h <;> simp_all [upd] <;> rename_i h <;> rcases h with h | h <;> simp [h]

/-- What is known of the master of a server that waits. -/
def Awaited (cfg : Nat → Cluster.Config) (s : Cluster.Sys) : Prop := ∀ i, (s i = .waiting .queued ∨ s i = .waiting .handled ∨ s i = .waiting .forgotten) →
  ∃ m, (cfg i).master = some m ∧ (cfg m).serves = true ∧ s m ≠ .off ∧ (s i ≠ .waiting .queued → ∃ b, s m = .up b)

theorem awaited_step (h : Awaited cfg s) (hs : Cluster.Step cfg s e s') : Awaited cfg s' := by
  intro i hi
  cases hs with
  | die k hk =>
    have hik : i ≠ k := by rintro rfl; simp [Cluster.without] at hi
    by_cases hm : (cfg i).master = some k
    · simp only [Cluster.without, hik, hm, if_true, if_false] at hi
      cases hp : s i with
      | waiting l => rw [hp] at hi; cases l <;> simp [Cluster.cutOff] at hi
      | _ => rw [hp] at hi; simp [Cluster.cutOff] at hi
    · simp only [Cluster.without, hik, hm, if_false] at hi ⊢
      obtain ⟨m, h1, h2, h3, h4⟩ := h i hi
      have hmk : m ≠ k := by rintro rfl; exact hm h1
      refine ⟨m, h1, h2, ?_, fun hq => ?_⟩
      · simp only [hmk, if_false]
        split
        · cases hp : s m with
          | waiting l => cases l <;> simp [Cluster.cutOff]
          | off => exact absurd hp h3
          | _ => simp [Cluster.cutOff]
        · exact h3
      · obtain ⟨b, hb⟩ := h4 hq
        exact ⟨b, by simp only [hmk, if_false, hb, Cluster.cutOff, ite_self]⟩
  | noFile k m hk hm =>
    by_cases hik : i = k
    · subst hik
      obtain ⟨m', h1, h2, h3, h4⟩ := h i (.inr (.inl hk))
      obtain ⟨b, hb⟩ := h4 (by rw [hk]; simp)
      have hmi : m' ≠ i := by rintro rfl; rw [hk] at hb; cases hb
      exact ⟨m', h1, h2, by simp [upd, hmi, h3], fun _ => ⟨b, by simp [upd, hmi, hb]⟩⟩
    · have hi' := h i
      grind [upd]
  | bind k hk | alone k hk | dial k m hk | refuse k m hk | accept k m hk | send k m hk | fail k m hk | collect k hk | broke k l hk | receive k hk | serve k hk
    | acceptFails k hk =>
    have hi' := h i
    have hk' := h k
    by_cases hik : i = k
    · subst hik
      grind [upd, Cluster.listens]
    · grind [upd, Cluster.listens]

theorem awaited {tr : List Cluster.Ev} (h : Exec (Cluster.Step cfg) Cluster.new tr s) : Awaited cfg s :=
  h.inv (P := fun _ s => Awaited cfg s) (by intro i hi; simp [Cluster.new] at hi) fun _ _ _ _ _ ih hs => awaited_step ih hs

section

variable {r : Run (Cluster.Step cfg) Cluster.new}

theorem never_off {i t : Nat} (h : r.Stays i t) {j : Nat} (hj : t ≤ j) : r.state j i ≠ .off := by
  refine lasts r (fun s => s i ≠ .off) h.1 ?_ hj
  intro j l hj ih he
  have hd := h.2 j hj
  have hs := run_step r he
  rw [he] at hd
  generalize r.state (j + 1) = s' at hs ⊢
  rcases start_moves hs i with g | g | g | g
  · rwa [g]
  · intro h0; rw [h0] at g; revert g; cases hp : r.state j i with
    | up b => cases b <;> simp [startRank]
    | waiting l => cases l <;> simp [startRank]
    | _ => simp [startRank]
  · exact absurd (by rw [g]) hd
  · exact absurd g ih

/-- A server that is there for ever stays in one place in the end. -/
theorem start_settles {i t : Nat} (h : ∀ j, t ≤ j → r.state j i ≠ .off) : ∃ p, p ≠ .off ∧ r.For i p := by
  obtain ⟨n, ⟨j0, hj0, hn⟩, hmin⟩ := WellFounded.has_min Nat.lt_wfRel.wf {n | ∃ j, t ≤ j ∧ startRank (r.state j i) = n} ⟨_, t, le_refl _, rfl⟩
  refine ⟨r.state j0 i, h _ hj0, j0, fun j hj => ?_⟩
  induction j, hj using Nat.le_induction with
  | base => rfl
  | succ j hj ih =>
    rcases r.next j with ⟨l, h1, h2⟩ | ⟨h1, h2⟩
    · have h3 := h (j + 1) (by omega)
      have h4 := hmin _ ⟨j + 1, by omega, rfl⟩
      generalize r.state (j + 1) = s' at h2 h3 h4 ⊢
      rcases start_moves h2 i with g | g | g | g
      · rw [g, ih]
      · rw [ih, hn] at g; exact absurd g h4
      · subst g
        cases h2 with
        | die => simp [Cluster.without] at h3
      · exact absurd g (h _ (by omega))
    · rw [h2, ih]

/-- Only who waits in a queue, or is up, stays where they are. -/
theorem start_stops (hf : r.FairToStarters) {i : Nat} {p : Cluster.Pc} (h : r.For i p) : p = .off ∨ p = .waiting .queued ∨ ∃ b, p = .up b := by
  obtain ⟨t, h⟩ := h
  by_contra hp
  push Not at hp
  have go : ∀ g, (∀ j, t ≤ j → Possible (Cluster.Step cfg) (StartedBy i g) (r.state j)) → False := by
    intro g hg
    obtain ⟨j, l, h1, h2, h3⟩ := hf i g t hg
    exact started_by (run_step r h2) h3 (by rw [h j h1, h (j + 1) (by omega)])
  have aw : ∀ j, Awaited cfg (r.state j) := fun j => awaited (run_exec r j)
  cases p with
  | off => exact hp.1 rfl
  | up b => exact hp.2.2 b rfl
  | bound =>
    refine go .main fun j hj => ?_
    cases hm : (cfg i).master with
    | none => exact ⟨_, _, .alone, .alone i (h j hj) hm⟩
    | some m =>
      by_cases hl : Cluster.listens cfg (r.state j) m
      · exact ⟨_, _, .dialled, .dial i m (h j hj) hm hl⟩
      · exact ⟨_, _, .refused, .refuse i m (h j hj) hm hl⟩
  | ready => exact go .main fun j hj => ⟨_, _, .served, .serve i (h j hj)⟩
  | waiting l =>
    cases l with
    | queued => exact hp.2.1 rfl
    | handled =>
      refine go .handler fun j hj => ?_
      obtain ⟨m, hm, -⟩ := aw j i (.inr (.inl (h j hj)))
      cases hc : (cfg m).file with
      | false => exact ⟨_, _, .noFile, .noFile i m (h j hj) hm hc⟩
      | true => exact ⟨_, _, .sent, .send i m (h j hj) hm hc⟩
    | forgotten => exact go .collector fun j hj => ⟨_, _, .collected, .collect i (h j hj)⟩
    | sent => exact go .main fun j hj => ⟨_, _, .received, .receive i (.inl (h j hj))⟩
    | broken => exact go .main fun j hj => ⟨_, _, .received, .receive i (.inr (h j hj))⟩

/-- Those who wait in a queue for ever wait for each other, or for somebody who does not accept any more. -/
theorem queued_deadlocked (hf : r.FairToStarters) : r.Deadlocked fun k => r.For k (.waiting .queued) := by
  intro k hk
  refine ⟨hk, ?_⟩
  obtain ⟨t, h⟩ := hk
  have aw : ∀ j, Awaited cfg (r.state j) := fun j => awaited (run_exec r j)
  obtain ⟨m, hm, -, -⟩ := aw t k (.inl (h t (le_refl t)))
  refine ⟨m, hm, ?_⟩
  have hoff : ∀ j, t ≤ j → r.state j m ≠ .off := fun j hj => by
    obtain ⟨m', hm', -, h1, -⟩ := aw j k (.inl (h j hj))
    rw [hm] at hm'; cases hm'; exact h1
  obtain ⟨p, hp, hfor⟩ := start_settles hoff
  rcases start_stops hf hfor with rfl | rfl | ⟨b, rfl⟩
  · exact absurd rfl hp
  · exact .inl hfor
  · cases b with
    | false => exact .inr hfor
    | true =>
      exfalso
      obtain ⟨t', h'⟩ := hfor
      obtain ⟨j, l, h1, h2, h3⟩ := hf k .queue (max t t') fun j hj => ⟨_, _, .accepted, .accept k m (h j (by omega)) hm (h' j (by omega))⟩
      exact started_by (run_step r h2) h3 (by rw [h j (by omega), h (j + 1) (by omega)])

/-- C94: when nobody is forgotten, a server that is started and not killed gets up, unless it is one of servers that wait for each other, or for one that
does not accept any more. -/
theorem C94_exact (hf : r.FairToStarters) {i t : Nat} (hi : r.Stays i t) : r.GetsUp i t ↔ ¬ ∃ S, S i ∧ r.Deadlocked S := by
  constructor
  · rintro ⟨j, b, hj, hb⟩ ⟨S, hS, hd⟩
    obtain ⟨⟨t', h⟩, -⟩ := hd i hS
    have := lasts r (fun s => ∃ b, s i = .up b) ⟨b, hb⟩ (fun k l hk ⟨b, hb⟩ he => by
      have hs := run_step r he
      have hx := never_off hi (show t ≤ k + 1 by omega)
      generalize r.state (k + 1) = s' at hs hx ⊢
      rcases start_moves hs i with g | g | g | g
      · exact ⟨b, g.trans hb⟩
      · rw [hb] at g
        cases hp : s' i with
        | up b => exact ⟨b, rfl⟩
        | waiting l => rw [hp] at g; cases l <;> cases b <;> simp [startRank] at g
        | _ => rw [hp] at g; cases b <;> simp [startRank] at g
      · subst g
        cases hs with | die => simp [Cluster.without] at hx
      · rw [hb] at g; cases g) (show j ≤ max j t' by omega)
    obtain ⟨b, hb⟩ := this
    rw [h _ (by omega)] at hb
    cases hb
  · intro hn
    obtain ⟨p, hp, hfor⟩ := start_settles fun j hj => never_off hi hj
    rcases start_stops hf hfor with rfl | rfl | ⟨b, rfl⟩
    · exact absurd rfl hp
    · exact absurd ⟨_, hfor, queued_deadlocked hf⟩ hn
    · obtain ⟨t', h⟩ := hfor
      exact ⟨max t t', b, by omega, h _ (by omega)⟩

/-- C94: servers that do not ask in a circle get up, if none of them ceases to accept. -/
theorem C94_order_partial (hf : r.FairToStarters) (hw : WellFounded fun m k => (cfg k).master = some m) (ha : ∀ j m, r.ev j ≠ some (.acceptFailed m)) {i t : Nat}
    (hi : r.Stays i t) : r.GetsUp i t := by
  rw [C94_exact hf hi]
  rintro ⟨S, hS, hd⟩
  have up : ∀ j m b, r.state j m = .up b → b = (cfg m).serves := by
    intro j
    refine (run_exec r j).inv (P := fun tr s => (∀ m, .acceptFailed m ∉ tr) → ∀ m b, s m = .up b → b = (cfg m).serves) (by simp [Cluster.new]) ?_ ?_
    · intro tr s l s' _ ih hs hn m b hb
      have ih := ih (fun m h => hn m (by simp [h])) m
      cases hs with
      | acceptFails k => exact absurd (by simp) (hn k)
      | die k =>
        simp only [Cluster.without] at hb
        split at hb
        · cases hb
        · split at hb
          · cases hp : s m with
            | waiting l => rw [hp] at hb; cases l <;> simp [Cluster.cutOff] at hb
            | up b' => rw [hp] at hb; cases hb; exact ih _ hp
            | _ => rw [hp] at hb; simp [Cluster.cutOff] at hb
          · exact ih b hb
      | _ => grind [upd]
    · intro m hm
      simp only [Run.until, List.mem_filterMap, List.mem_range] at hm
      obtain ⟨k, -, hk⟩ := hm
      exact ha k m hk
  clear hi
  induction i using hw.induction with
  | _ i ih =>
    obtain ⟨⟨t1, h1⟩, m, hm, h | ⟨t2, h2⟩⟩ := hd i hS
    · exact ih m hm h
    · obtain ⟨m', hm', hs, -⟩ := awaited (run_exec r (max t1 t2)) i (.inl (h1 _ (by omega)))
      rw [hm] at hm'
      cases hm'
      have := up _ _ _ (h2 (max t1 t2) (by omega))
      rw [hs] at this
      cases this

end

/-- C94: servers that ask each other in a circle and have all opened their ports before the first of them is served never get up, whatever happens, as long as none of them is
killed and the network breaks none of their connections. -/
theorem C94_circle {S : Nat → Prop} (hS : ∀ k, S k → (cfg k).serves = true ∧ ∃ m, (cfg k).master = some m ∧ S m) (h0 : ∀ k, S k → s k = .bound ∨ s k = .waiting .queued)
    {tr : List Cluster.Ev} (h : Exec (Cluster.Step cfg) s tr s') (hn : ∀ k, S k → .died k ∉ tr ∧ .broke k ∉ tr) : ∀ k, S k → s' k = .bound ∨ s' k = .waiting .queued := by
  induction h with
  | nil => exact h0
  | @snoc tr s1 s2 l h1 h2 ih =>
    have ih := ih fun k hk => ⟨fun h => (hn k hk).1 (by simp [h]), fun h => (hn k hk).2 (by simp [h])⟩
    intro k hk
    obtain ⟨g1, m, g2, g3⟩ := hS k hk
    have i1 := ih k hk
    have i2 := ih m g3
    have g4 := (hS m g3).1
    have g5 := hn k hk
    have g6 := hn m g3
    cases h2 with
    | die x hx =>
      have n1 : x ≠ k := by rintro rfl; exact g5.1 (by simp)
      have n2 : x ≠ m := by rintro rfl; exact g6.1 (by simp)
      simp only [Cluster.without, n1.symm, if_false, g2, Option.some.injEq, n2.symm]
      exact i1
    | broke x => have n1 : x ≠ k := by rintro rfl; exact g5.2 (by simp)
                 simpa [upd, n1.symm] using i1
    | _ => grind [upd, Cluster.listens]

/-- C94: a server that is to ask itself never gets up. -/
theorem C94_self {i : Nat} (hm : (cfg i).master = some i) (hv : (cfg i).serves = true) {tr : List Cluster.Ev} (h : Exec (Cluster.Step cfg) Cluster.new tr s)
    (hn : .broke i ∉ tr) : s i = .off ∨ s i = .bound ∨ s i = .waiting .queued := by
  revert hn
  refine h.inv (P := fun tr s => .broke i ∉ tr → (s i = .off ∨ s i = .bound ∨ s i = .waiting .queued)) (by simp [Cluster.new]) ?_
  intro tr s l s' _ ih hs hn
  have ih := ih fun h => hn (by simp [h])
  cases hs with
  | die x hx =>
    by_cases n1 : i = x
    · simp [Cluster.without, n1]
    · have n2 : (cfg i).master ≠ some x := by rw [hm]; simpa using n1
      simpa only [Cluster.without, n1, n2, if_false] using ih
  | broke x l =>
    have n1 : i ≠ x := by rintro rfl; exact hn (by simp)
    simpa [upd, n1] using ih
  | _ => grind [upd, Cluster.listens]

theorem died_off {i : Nat} (h : Cluster.Step cfg s (.died i) s') : s' i = .off := by
  cases h with | die => simp [Cluster.without]

/-- Two servers that ask each other. -/
def pair : Nat → Cluster.Config := fun i => { master := some (1 - i), serves := true, file := true }

/-- C94 is false: of two servers that ask each other and are started at the same time none ever gets up. -/
theorem C94_false : ¬ AllGetUp := by
  intro hall
  have h : Exec (Cluster.Step pair) Cluster.new [.bound 0, .bound 1, .dialled 0, .dialled 1] _ :=
    .cons (.bind 0 rfl) (.cons (.bind 1 rfl) (.cons (.dial 0 1 rfl rfl ⟨rfl, by simp [upd, Cluster.new]⟩) (.one (.dial 1 0 rfl rfl ⟨rfl, by simp [upd, Cluster.new]⟩))))
  obtain ⟨r, h1, h2, h3⟩ := still_run h (fun g : Nat × Starter => StartedBy g.1 g.2) (by
    rintro ⟨i, g⟩ ⟨l, s', hl, hs⟩
    by_cases h0 : i = 0
    · subst h0; cases hl <;> cases hs <;> simp_all [upd, Cluster.new, pair]
    · by_cases h1 : i = 1
      · subst h1; cases hl <;> cases hs <;> simp_all [upd, Cluster.new, pair]
      · cases hl <;> cases hs <;> simp_all [upd, Cluster.new, pair])
  obtain ⟨j, b, hj, hb⟩ := hall pair r (fun i g => h3 (i, g)) 0 4 ⟨by rw [h2 4 (by simp)]; simp [upd], fun j hj he => by
    have hs := run_step r he
    have := died_off hs
    rw [h2 (j + 1) (by simp; omega)] at this
    simp [upd] at this⟩
  rw [h2 j (by simpa using hj)] at hb
  simp [upd] at hb

/-- Two servers; the second asks the first. -/
def couple : Nat → Cluster.Config := fun i => { master := if i = 1 then some 0 else none, serves := true, file := true }

/-- The hypotheses of `C94_exact` and of `C94_order_partial` can be met: the first server serves, the second gets its data and serves too. -/
example : ∃ r : Run (Cluster.Step couple) Cluster.new, r.FairToStarters ∧ r.Stays 1 5 ∧ WellFounded (fun m k => (couple k).master = some m) ∧
    (∀ j m, r.ev j ≠ some (.acceptFailed m)) ∧ r.GetsUp 1 5 ∧ r.state 5 1 = .waiting .queued := by
  have h : Exec (Cluster.Step couple) Cluster.new [.bound 0, .alone 0, .served 0, .bound 1, .dialled 1]
      (upd (upd (upd (upd (upd Cluster.new 0 .bound) 0 .ready) 0 (.up true)) 1 .bound) 1 (.waiting .queued)) :=
    .cons (.bind 0 rfl) (.cons (.alone 0 rfl rfl) (.cons (.serve 0 rfl) (.cons (.bind 1 rfl) (.one (.dial 1 0 rfl rfl ⟨rfl, by simp [upd]⟩)))))
  have h' : Exec (Cluster.Step couple) (upd (upd (upd (upd (upd Cluster.new 0 .bound) 0 .ready) 0 (.up true)) 1 .bound) 1 (.waiting .queued))
      [.accepted 1, .sent 1, .received 1, .served 1] _ :=
    .cons (.accept 1 0 rfl rfl rfl) (.cons (.send 1 0 rfl rfl rfl) (.cons (.receive 1 (.inl rfl)) (.one (.serve 1 rfl))))
  obtain ⟨r', g1, g2⟩ := run_after h' (⟨fun _ => _, fun _ => none, rfl, fun _ => .inr ⟨rfl, rfl⟩⟩ : Run (Cluster.Step couple) _)
  obtain ⟨r, h1, h2⟩ := run_after h r'
  have ev : ∀ j l, r.ev j = some l → l ∈ [Cluster.Ev.bound 0, .alone 0, .served 0, .bound 1, .dialled 1] ++ [.accepted 1, .sent 1, .received 1, .served 1] := by
    intro j l hl
    by_cases hj : j < 5
    · refine List.mem_append_left _ ?_
      rw [← h1]
      exact List.mem_filterMap.2 ⟨j, List.mem_range.2 hj, hl⟩
    · have hl' := (h2 (j - 5)).2
      rw [show List.length _ + (j - 5) = j from by simp; omega, hl] at hl'
      by_cases hj' : j - 5 < 4
      · refine List.mem_append_right _ ?_
        rw [← g1]
        exact List.mem_filterMap.2 ⟨j - 5, List.mem_range.2 hj', hl'.symm⟩
      · have := (g2 (j - 9)).2
        rw [show List.length _ + (j - 9) = j - 5 from by simp; omega, ← hl'] at this
        cases this
  have h5 : r.state 5 1 = .waiting .queued := by
    have := (h2 0).1
    rw [r'.start] at this
    exact (congrFun this 1).trans (by simp [upd])
  have h9 : ∀ t, r.state (9 + t) = r'.state (4 + t) := fun t => by
    have := (h2 (4 + t)).1
    rwa [show List.length _ + (4 + t) = 9 + t from by simp; omega] at this
  refine ⟨r, fun i g t ht => ?_, ⟨by rw [h5]; simp, fun j _ hj => by have := ev _ _ hj; simp at this⟩, Subrelation.wf (r := (· < ·)) ?_ Nat.lt_wfRel.wf,
    fun j m hj => by have := ev _ _ hj; simp at this, ⟨9, true, by omega, ?_⟩, h5⟩
  · exfalso
    obtain ⟨l, s', hl, hs⟩ := ht (9 + t) (by omega)
    have := (g2 t).1
    rw [h9, show 4 + t = List.length [Cluster.Ev.accepted 1, .sent 1, .received 1, .served 1] + t from rfl, this] at hs
    by_cases h0 : i = 0
    · subst h0; cases hl <;> cases hs <;> simp_all [upd, Cluster.new, couple]
    · by_cases h1 : i = 1
      · subst h1; cases hl <;> cases hs <;> simp_all [upd, Cluster.new, couple]
      · cases hl <;> cases hs <;> simp_all [upd, Cluster.new, couple]
  · intro m k hk
    simp only [couple] at hk
    split at hk
    · cases hk; omega
    · cases hk
  · have := (g2 0).1
    exact (congrFun ((h9 0).trans this) 1).trans (by simp [upd, couple])

/-- Those of `C94_circle`: the two servers of `C94_false`; of `C94_self`: a server alone. -/
example : (∀ k, k < 2 → (pair k).serves = true ∧ ∃ m, (pair k).master = some m ∧ m < 2) ∧
    Exec (Cluster.Step pair) Cluster.new [.bound 0, .bound 1] (upd (upd Cluster.new 0 .bound) 1 .bound) ∧
    Exec (Cluster.Step fun _ => { master := some 5, serves := true, file := true }) Cluster.new [.bound 5, .dialled 5]
      (upd (upd Cluster.new 5 .bound) 5 (.waiting .queued)) :=
  ⟨fun k _ => ⟨rfl, 1 - k, rfl, by omega⟩, .cons (.bind 0 rfl) (.one (.bind 1 rfl)), .cons (.bind 5 rfl) (.one (.dial 5 5 (by simp [upd]) rfl ⟨rfl, by simp [upd]⟩))⟩

/-! ### Serving a replica -/

/-- Where everything that happens leaves something as it is or makes it less, it stays as it is in the end. -/
theorem run_settles {S L α β : Type} {step : S → L → S → Prop} {s0 : S} (r : Run step s0) (f : S → α) (rank : α → β) {lt : β → β → Prop} (wf : WellFounded lt) (t : Nat)
    (h : ∀ j l, t ≤ j → r.ev j = some l → f (r.state (j + 1)) = f (r.state j) ∨ lt (rank (f (r.state (j + 1)))) (rank (f (r.state j)))) :
    ∃ t', t ≤ t' ∧ ∀ j, t' ≤ j → f (r.state j) = f (r.state t') := by
  obtain ⟨n, ⟨j0, hj0, hn⟩, hmin⟩ := WellFounded.has_min wf {n | ∃ j, t ≤ j ∧ rank (f (r.state j)) = n} ⟨_, t, le_refl _, rfl⟩
  refine ⟨j0, hj0, fun j hj => ?_⟩
  induction j, hj using Nat.le_induction with
  | base => rfl
  | succ j hj ih =>
    rcases r.next j with ⟨l, h1, h2⟩ | ⟨h1, h2⟩
    · rcases h j l (by omega) h1 with g | g
      · rw [g, ih]
      · rw [ih, hn] at g
        exact absurd g (hmin _ ⟨j + 1, by omega, rfl⟩)
    · rw [h2, ih]

/-- How far `handleConn` is from its end. -/
def handleRank : Master.Pc → Nat × Nat
  | .absent => (10, 0)
  | .accepted => (9, 0)
  | .entered => (8, 0)
  | .listed => (7, 0)
  | .created => (6, 0)
  | .flushed => (5, 0)
  | .opened => (4, 0)
  | .copied _ => (3, 0)
  | .sending b n => (2, (transfer b).length - n)
  | .left => (1, 0)

section

variable {R : Engine → Engine → Prop} {ω : Nat → Nat} {en : Engine} {file : Bool} {m m' : Master.Sys} {x : Master.Ev}

theorem handle_moves (h : Master.Step R ω m x m') (c : Nat) : m'.pcs c = m.pcs c ∨ Prod.Lex (· < ·) (· < ·) (handleRank (m'.pcs c)) (handleRank (m.pcs c)) := by
  have lex : ∀ a b a' b' : Nat, a < a' → Prod.Lex (· < ·) (· < ·) (a, b) (a', b') := fun _ _ _ _ h => .left _ _ h
  cases h with
  | send k b n i h1 h2 h3 =>
    by_cases hk : c = k
    · subst hk
      by_cases hi : i = 0
      · left; simp [upd, h1, hi]
      · right; simp only [upd, if_true, h1, handleRank]; exact .right _ (by omega)
    · left; simp [upd, hk]
  | fail k h1 =>
    by_cases hk : c = k
    · subst hk
      right
      cases hp : m.pcs c <;> simp_all [Master.leave, upd, handleRank, Master.canFail]
    · left; simp [Master.leave, upd, hk]
  | finish k b n h1 | flushFails k h1 =>
    by_cases hk : c = k
    · subst hk; right; simp only [Master.leave, upd, if_true, h1, handleRank]; exact lex _ _ _ _ (by omega)
    · left; simp [Master.leave, upd, hk]
  | engine | acceptFails | broke => exact .inl rfl
  | accept k _ h1 | noFile k h1 | enter k h1 | list k h1 | create k h1 | flush k h1 | openRaw k h1 | copy k h1 | prepare k b h1 =>
    by_cases hk : c = k
    · subst hk; right; simp only [upd, if_true, h1, handleRank]; exact lex _ _ _ _ (by omega)
    · left; simp [upd, hk]

theorem handles_moves {c : Nat} (h : Master.Step R ω m x m') (hx : Handles c m x) : m'.pcs c ≠ m.pcs c := by
  cases hx <;> cases h <;> simp_all [Master.leave, upd]
  rename_i h1 h2
  intro h
  rw [← h] at h2
  simp [Master.canFail] at h2

/-- C94: a master's goroutine that serves a replica comes to its end, whatever the engine and the other replicas do, exactly if it does not for ever try to send something that
the replica does not take. -/
theorem C94_handled {r : Run (Master.Step R ω) (Master.new en file)} {c : Nat} (hf : r.FairIn (Handles c)) {i : Nat} (hi : (r.state i).pcs c ≠ .absent) :
    (∃ j, i ≤ j ∧ (r.state j).pcs c = .left) ↔ ¬ r.Clogged c := by
  constructor
  · rintro ⟨j, hj, hl⟩ ⟨t, b, n, hn, h⟩
    have := lasts r (fun s => s.pcs c = .left) hl (fun k l hk hl he => by
      have hs := run_step r he
      generalize r.state (k + 1) = s' at hs ⊢
      rcases handle_moves hs c with g | g
      · rw [g, hl]
      · rw [hl] at g
        cases hp : s'.pcs c with
        | left => rfl
        | _ => rw [hp] at g; simp only [handleRank, Prod.lex_iff] at g; omega) (show j ≤ max j t by omega)
    rw [(h _ (by omega)).1] at this
    cases this
  · intro hn
    obtain ⟨t, ht, h⟩ := run_settles r (fun s => s.pcs c) handleRank (WellFounded.prod_lex Nat.lt_wfRel.wf Nat.lt_wfRel.wf) i fun j l _ he => handle_moves (run_step r he) c
    have ha : (r.state t).pcs c ≠ .absent := by
      refine lasts r (fun s => s.pcs c ≠ .absent) hi (fun k l hk hl he => ?_) ht
      have hs := run_step r he
      generalize r.state (k + 1) = s' at hs ⊢
      rcases handle_moves hs c with g | g
      · rwa [g]
      · intro hp
        rw [hp] at g
        revert g
        cases hp : (r.state k).pcs c <;> simp [handleRank, Prod.lex_iff]
    have go : ∀ u, t ≤ u → (∀ j, u ≤ j → ∃ l s', Handles c (r.state j) l ∧ Master.Step R ω (r.state j) l s') → False := by
      intro u hu hp
      obtain ⟨j, l, h1, h2, h3⟩ := hf u hp
      exact handles_moves (run_step r h2) h3 ((h (j + 1) (by omega)).trans (h j (by omega)).symm)
    by_contra hleft
    refine go t (le_refl t) fun j hj => ?_
    have hj' : (r.state j).pcs c = (r.state t).pcs c := h j hj
    cases hp : (r.state t).pcs c with
    | absent => exact absurd hp ha
    | left => exact absurd ⟨t, ht, hp⟩ hleft
    | accepted =>
      cases hv : (r.state j).file with
      | false => exact ⟨_, _, .noFile, .noFile c (hj'.trans hp) hv⟩
      | true => exact ⟨_, _, .entered, .enter c (hj'.trans hp) hv⟩
    | entered => exact ⟨_, _, .listed, .list c (hj'.trans hp)⟩
    | listed => exact ⟨_, _, .created, .create c (hj'.trans hp)⟩
    | created =>
      cases hv : ((r.state j).engine.file.flush ω).failed with
      | false => exact ⟨_, _, .flushed, .flush c (hj'.trans hp) hv⟩
      | true => exact ⟨_, _, .failed (.inl (hj'.trans hp)), .flushFails c (hj'.trans hp) hv⟩
    | flushed => exact ⟨_, _, .opened, .openRaw c (hj'.trans hp)⟩
    | opened => exact ⟨_, _, .copied, .copy c (hj'.trans hp)⟩
    | copied b => exact ⟨_, _, .prepared, .prepare c b (hj'.trans hp)⟩
    | sending b n =>
      exfalso
      have hb : n ≤ (transfer b).length := by
        refine (run_exec r t).inv (P := fun _ s => ∀ b n, s.pcs c = .sending b n → n ≤ (transfer b).length) (by simp [Master.new]) ?_ b n hp
        rintro tr s l s' - ih hs
        cases hs <;> simp only [Master.leave, upd] <;> grind
      by_cases hlt : n < (transfer b).length
      · have hc : ∃ u, t ≤ u ∧ (r.state u).closed c = true := by
          by_contra hc
          push Not at hc
          exact hn ⟨t, b, n, hlt, fun j hj => ⟨(h j hj).trans hp, by simpa using hc j hj⟩⟩
        obtain ⟨u, hu, hc⟩ := hc
        refine go u hu fun j hj => ?_
        have hcj := lasts r (fun s => s.closed c = true) hc (fun k l hk hl he => by
          have hs := run_step r he
          generalize r.state (k + 1) = s' at hs ⊢
          cases hs <;> simp only [Master.leave, upd] <;> grind) hj
        exact ⟨_, _, .failed (.inr hcj), .fail c (by rw [show (r.state j).pcs c = _ from (h j (by omega)).trans hp]; rfl)⟩
      · exact go t (le_refl t) fun j hj => ⟨_, _, .finished, .finish c b n ((h j hj).trans hp) (by omega)⟩

end

/-- The hypotheses of `C94_handled` can be met, and both happens: a replica is served to the end, and one that takes nothing more is held for ever. -/
example : ∃ r : Run (Master.Step (fun _ _ => False) fun _ => 0) (Master.new (Engine.start [] []) true), r.FairIn (Handles 0) ∧ r.FairIn (Handles 1) ∧
    (∃ i, (r.state i).pcs 0 = .left ∧ (r.state i).pcs 1 ≠ .absent) ∧ ¬ r.Clogged 0 ∧ r.Clogged 1 := by
  have e1 := Exec.snoc (step := Master.Step (fun _ _ => False) (fun _ => 0)) (.nil (s0 := Master.new (Engine.start [] []) true)) (.accept 0 rfl rfl)
  have e2 := Exec.snoc e1 (.enter 0 (by simp [upd]) rfl)
  have e3 := Exec.snoc e2 (.list 0 (by simp [upd]))
  have e4 := Exec.snoc e3 (.create 0 (by simp [upd]))
  have e5 := Exec.snoc e4 (.flush 0 (by simp [upd]) rfl)
  have e6 := Exec.snoc e5 (.openRaw 0 (by simp [upd]))
  have e7 := Exec.snoc e6 (.copy 0 (by simp [upd]))
  have e8 := Exec.snoc e7 (.prepare 0 _ (by simp [upd]; rfl))
  have e9 := Exec.snoc e8 (.send 0 _ 0 4 (by simp [upd]; rfl) rfl (by decide))
  have e10 := Exec.snoc e9 (.finish 0 _ 4 (by simp [upd]; rfl) (by decide))
  have f1 := Exec.snoc e10 (.accept 1 rfl (by simp [Master.leave, upd, Master.new]))
  have f2 := Exec.snoc f1 (.enter 1 (by simp [upd]) rfl)
  have f3 := Exec.snoc f2 (.list 1 (by simp [upd]))
  have f4 := Exec.snoc f3 (.create 1 (by simp [upd]))
  have f5 := Exec.snoc f4 (.flush 1 (by simp [upd]) rfl)
  have f6 := Exec.snoc f5 (.openRaw 1 (by simp [upd]))
  have f7 := Exec.snoc f6 (.copy 1 (by simp [upd]))
  have f8 := Exec.snoc f7 (.prepare 1 _ (by simp [upd]; rfl))
  obtain ⟨tr, m, h, h0, h1, h2⟩ : ∃ tr m, Exec (Master.Step (fun _ _ => False) fun _ => 0) (Master.new (Engine.start [] []) true) tr m ∧ m.pcs 0 = .left ∧
    m.pcs 1 = .sending [] 0 ∧ m.closed 1 = false := ⟨_, _, f8, by simp [Master.leave, upd], by simp [upd]; rfl, rfl⟩
  clear e1 e2 e3 e4 e5 e6 e7 e8 e9 e10 f1 f2 f3 f4 f5 f6 f7 f8
  obtain ⟨r, g1, g2⟩ := run_after h (⟨fun _ => m, fun _ => none, rfl, fun _ => .inr ⟨rfl, rfl⟩⟩ : Run (Master.Step (fun _ _ => False) fun _ => 0) m)
  have hm : ∀ j, tr.length ≤ j → r.state j = m := fun j hj => by
    have := (g2 (j - tr.length)).1
    rwa [Nat.add_sub_cancel' hj] at this
  refine ⟨r, fun i hi => ?_, fun i hi => ?_, ⟨tr.length, by rw [hm _ (le_refl _)]; exact h0, by rw [hm _ (le_refl _), h1]; simp⟩, ?_,
    tr.length, [], 0, by decide, fun j hj => by rw [hm j hj]; exact ⟨h1, h2⟩⟩
  · obtain ⟨l, s', hl, hs⟩ := hi (tr.length + i) (by omega)
    rw [hm _ (by omega)] at hl hs
    exact absurd hs (by cases hl <;> intro hs <;> cases hs <;> simp_all [Master.canFail])
  · obtain ⟨l, s', hl, hs⟩ := hi (tr.length + i) (by omega)
    rw [hm _ (by omega)] at hl hs
    exfalso
    cases hl with
    | finished => cases hs with | finish _ b n k1 k2 => rw [h1] at k1; cases k1; revert k2; decide
    | _ => cases hs <;> simp_all
  · rintro ⟨t, b, n, -, h⟩
    have := (h (tr.length + t) (by omega)).1
    rw [hm _ (by omega), h0] at this
    cases this

end Verif.Props
