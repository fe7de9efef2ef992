import Verif.Spec.Registry
import Verif.Lemmas.LTS

/-! C96: a master that is stopped while replicas come and go. -/

namespace Verif.Props

open Spec
open Fut (upd)

variable {addr : Nat → Nat}

theorem without_eq {p q : Registry.Stop} {a : Nat} (hq : ∀ m l, q ≠ .ranging m l) : p.without a = q ↔ p = q := by
  cases p <;> simp [Registry.Stop.without] <;> grind

/-- Who has the mutex, from where everybody is. -/
def HasMutex (s : Registry.Sys) : Prop :=
  (∀ c, s.mutex = some (.handler c) ↔ s.pcs c = .locked ∨ s.pcs c = .adding ∨ s.pcs c = .added ∨ s.pcs c = .relocked ∨ s.pcs c = .removing ∨ s.pcs c = .removed) ∧
    (s.mutex = some .stop ↔ s.stop = .holding)

theorem hasMutex {tr : List Registry.Ev} {s : Registry.Sys} (h : Exec (Registry.Step addr) Registry.new tr s) : HasMutex s := by
  refine h.inv (P := fun _ s => HasMutex s) ?_ fun tr s l s' _ ih hs => ?_
  · simp [HasMutex, Registry.new]
  · obtain ⟨-, hs⟩ := hs
    unfold HasMutex at *
    cases hs with
    | removed c hp =>
      refine ⟨?_, ?_⟩
      · grind [upd]
      · exact ih.2.trans (without_eq (by simp)).symm
    | _ => grind [upd]

/-- Whoever is in the map has the mutex. -/
theorem writing_mutex {s : Registry.Sys} (hm : HasMutex s) (h : Registry.Writing s) : ∃ c, s.mutex = some (.handler c) ∧ (s.pcs c = .adding ∨ s.pcs c = .removing) := by
  obtain ⟨c, h⟩ := h
  exact ⟨c, (hm.1 c).2 (by grind), h⟩

/-- C96: no two goroutines that serve replicas are ever in the map at the same time. -/
theorem C96_one {tr : List Registry.Ev} {s : Registry.Sys} (h : Exec (Registry.Step addr) Registry.new tr s) {c d : Nat} (hc : s.pcs c = .adding ∨ s.pcs c = .removing)
    (hd : s.pcs d = .adding ∨ s.pcs d = .removing) : c = d := by
  have hm := hasMutex h
  have h1 := (hm.1 c).2 (by grind)
  have h2 := (hm.1 d).2 (by grind)
  grind

/-- C96: the process is ended by the runtime exactly when `stop` asks for the next connection in the middle of a change of the map by a goroutine that serves a replica. -/
theorem C96_exact {tr : List Registry.Ev} {s : Registry.Sys} (h : Exec (Registry.Step addr) Registry.new tr s) (hc : s.crashed = false) :
    (∃ s', Registry.Step addr s .crashed s') ↔ (∃ must seen, s.stop = .ranging must seen) ∧ ∃ c, s.pcs c = .adding ∨ s.pcs c = .removing := by
  have hm := hasMutex h
  constructor
  · rintro ⟨s', -, hs⟩
    have key : ∀ c, s.pcs c = .locked ∨ s.pcs c = .relocked → ¬ Registry.Writing s := by
      intro c h1 h2
      obtain ⟨d, g2, g3⟩ := writing_mutex hm h2
      have g1 := (hm.1 c).2 (by grind)
      grind
    cases hs with
    | addCrash c h1 h2 => exact absurd h2 (key c (.inl h1))
    | removeCrash c h1 h2 => exact absurd h2 (key c (.inr h1))
    | rangeCrash must seen h1 h2 => exact ⟨⟨must, seen, h1⟩, h2⟩
  · rintro ⟨⟨must, seen, h1⟩, h2⟩
    exact ⟨_, hc, .rangeCrash must seen h1 h2⟩

theorem undisturbed_init {tr : List Registry.Ev} {l : Registry.Ev} (h : Undisturbed (tr ++ [l])) : Undisturbed tr := by
  intro before after l' e hl
  exact h before (after ++ [l]) l' (by rw [e]; simp) hl

theorem calm_stop {tr : List Registry.Ev} {s : Registry.Sys} (h : Exec (Registry.Step addr) Registry.new tr s) :
    (s.stop ≠ .over → .over ∉ tr) ∧ ((s.stop = .free ∨ ∃ m l, s.stop = .ranging m l) → .letGo ∈ tr) ∧
    (Undisturbed tr → s.crashed = false ∧ ((s.stop = .free ∨ ∃ m l, s.stop = .ranging m l) → ¬ Registry.Writing s)) := by
  refine h.inv (P := fun tr s => (s.stop ≠ .over → .over ∉ tr) ∧ ((s.stop = .free ∨ ∃ m l, s.stop = .ranging m l) → .letGo ∈ tr) ∧
    (Undisturbed tr → s.crashed = false ∧ ((s.stop = .free ∨ ∃ m l, s.stop = .ranging m l) → ¬ Registry.Writing s))) ?_ fun tr s l s' hx ih hs => ?_
  · simp [Registry.new]
  · obtain ⟨i1, i2, i3⟩ := ih
    obtain ⟨hc, hs⟩ := hs
    have hm := hasMutex hx
    refine ⟨?_, ?_, fun hu => ?_⟩
    · intro h1 h2
      rw [List.mem_append, List.mem_singleton] at h2
      cases hs with
      | removed c hp => exact (h2.elim (i1 fun e => h1 ((without_eq (by simp)).2 e)) (by simp))
      | _ => grind
    · intro h1
      rw [List.mem_append, List.mem_singleton]
      cases hs with
      | removed c hp =>
        refine .inl (i2 ?_)
        revert h1
        generalize s.stop = p
        cases p <;> simp [Registry.Stop.without]
      | _ => grind
    · obtain ⟨j1, j2⟩ := i3 (undisturbed_init hu)
      have hl := hu tr [] l rfl
      have key : ∀ c, s.pcs c = .locked ∨ s.pcs c = .relocked → ¬ Registry.Writing s := by
        intro c h1 h2
        obtain ⟨d, g2, g3⟩ := writing_mutex hm h2
        have g1 := (hm.1 c).2 (by grind)
        grind
      unfold Registry.Writing at *
      cases hs with
      | removed c hp =>
        refine ⟨j1, fun h1 => ?_⟩
        have h2 : s.stop = .free ∨ ∃ m l, s.stop = .ranging m l := by
          revert h1
          simp only
          generalize s.stop = p
          cases p <;> simp [Registry.Stop.without]
        exact absurd ⟨c, .inr hp⟩ (j2 h2)
      | letGo h1 =>
        refine ⟨j1, fun _ hw => ?_⟩
        obtain ⟨d, g2, -⟩ := writing_mutex hm hw
        have := hm.2.2 h1
        grind
      | addCrash c h1 h2 => exact absurd h2 (key c (.inl h1))
      | removeCrash c h1 h2 => exact absurd h2 (key c (.inr h1))
      | rangeCrash must seen h1 h2 => exact absurd h2 (j2 (.inr ⟨_, _, h1⟩))
      | _ => grind [upd]

/-- C96, as far as it holds: if no change of the map begins between the release of the mutex and the end of `stop`, the process is not ended. (Nobody is in the
middle of a change when the mutex is released; that is all that locking it is good for.) -/
theorem C96_calm_partial {tr : List Registry.Ev} {s : Registry.Sys} (h : Exec (Registry.Step addr) Registry.new tr s) (hu : Undisturbed tr) : s.crashed = false :=
  ((calm_stop h).2.2 hu).1

/-- What the map holds. -/
structure Listed (s : Registry.Sys) : Prop where
  uniq : ∀ a c d, (a, c) ∈ s.conns → (a, d) ∈ s.conns → c = d
  there : ∀ a c, (a, c) ∈ s.conns → s.pcs c ≠ .absent
  open' : ∀ c, s.pcs c = .absent → s.closed c = false

theorem listed {tr : List Registry.Ev} {s : Registry.Sys} (h : Exec (Registry.Step addr) Registry.new tr s) : Listed s := by
  refine h.inv (P := fun _ s => Listed s) ?_ fun tr s l s' _ ih hs => ?_
  · exact ⟨by simp [Registry.new], by simp [Registry.new], by simp [Registry.new]⟩
  · obtain ⟨-, hs⟩ := hs
    obtain ⟨i1, i2, i3⟩ := ih
    cases hs <;> refine ⟨?_, ?_, ?_⟩ <;> grind [upd, Registry.put, Registry.drop]

/-- C96: `stop` closes the connections that were in the map when it began to go through it, except those that were taken out or replaced before they were reached. -/
theorem C96_closes {t1 t2 : List Registry.Ev} {s1 s2 s3 : Registry.Sys} (h1 : Exec (Registry.Step addr) Registry.new t1 s1) (h2 : Registry.Step addr s1 .ranged s2)
    (h3 : Exec (Registry.Step addr) s2 t2 s3) (hs : s3.stop = .over) {a c : Nat} (hc : (a, c) ∈ s1.conns) :
    s3.closed c = true ∨ ∃ d, addr d = a ∧ (.added d ∈ t2 ∨ .removed d ∈ t2) := by
  have key := h3.inv (P := fun tr s => (∃ d, addr d = a ∧ (.added d ∈ tr ∨ .removed d ∈ tr)) ∨ s.closed c = true ∨
    ∃ must seen, s.stop = .ranging must seen ∧ a ∈ must ∧ a ∉ seen ∧ (a, c) ∈ s.conns) ?_ ?_
  · rcases key with k | k | ⟨must, seen, k, -⟩
    · exact .inr k
    · exact .inl k
    · rw [hs] at k; cases k
  · obtain ⟨-, h2⟩ := h2
    generalize hl : Registry.Ev.ranged = l at h2
    cases h2 <;> cases hl
    exact .inr (.inr ⟨_, _, rfl, List.mem_map.2 ⟨_, hc, rfl⟩, by simp, hc⟩)
  · intro tr s l s' hx ih hs
    have hl := listed ((Exec.snoc h1 h2).append hx)
    obtain ⟨-, hs⟩ := hs
    rcases ih with ⟨d, k1, k2⟩ | k | ⟨must, seen, k1, k2, k3, k4⟩
    · exact .inl ⟨d, k1, by simp; grind⟩
    · refine .inr (.inl ?_)
      cases hs <;> grind [upd]
    · by_cases hd : ∃ d, addr d = a ∧ (l = .added d ∨ l = .removed d)
      · obtain ⟨d, g1, g2⟩ := hd
        exact .inl ⟨d, g1, by simp; grind⟩
      · right
        cases hs <;> grind [upd, Registry.put, Registry.drop, Registry.Stop.without, hl.uniq]

/-- C96: a master that has been stopped serves replicas as before: whoever connects then can be served completely. -/
theorem C96_goes_on {tr : List Registry.Ev} {s : Registry.Sys} (h : Exec (Registry.Step addr) Registry.new tr s) (hs : s.stop = .over) (hl : s.loop = .running)
    (hc : s.crashed = false) (hm : s.mutex = none) {c : Nat} (ha : s.pcs c = .absent) :
    ∃ tr' s', Exec (Registry.Step addr) s tr' s' ∧ .sent c ∈ tr' ∧ .left c ∈ tr' ∧ s'.stop = .over ∧ s'.loop = .running ∧ s'.crashed = false ∧ s'.mutex = none ∧
      ∀ d, d ≠ c → s'.pcs d = s.pcs d := by
  have hm' := hasMutex h
  have nobody : ∀ d, s.pcs d ≠ .adding ∧ s.pcs d ≠ .removing := fun d => by
    constructor <;> intro hd <;> have := (hm'.1 d).2 (by grind) <;> rw [hm] at this <;> cases this
  have e1 := Exec.snoc (step := Registry.Step addr) (.nil (s0 := s)) ⟨hc, .accept c hl ha⟩
  have e2 := Exec.snoc e1 ⟨hc, .lock c (by simp [upd]) hm⟩
  have e3 := Exec.snoc e2 ⟨hc, .add c (by simp [upd]) (by rintro ⟨d, hd⟩; have := nobody d; grind [upd])⟩
  have e4 := Exec.snoc e3 ⟨hc, .added c (by simp [upd])⟩
  have e5 := Exec.snoc e4 ⟨hc, .unlock c (by simp [upd])⟩
  have e6 := Exec.snoc e5 ⟨hc, .send c (by simp [upd]) ((listed h).open' c ha)⟩
  have e7 := Exec.snoc e6 ⟨hc, .relock c (by simp [upd]) rfl⟩
  have e8 := Exec.snoc e7 ⟨hc, .remove c (by simp [upd]) (by rintro ⟨d, hd⟩; have := nobody d; by_cases hdc : d = c <;> simp_all [upd])⟩
  have e9 := Exec.snoc e8 ⟨hc, .removed c (by simp [upd])⟩
  have e10 := Exec.snoc e9 ⟨hc, .leave c (by simp [upd])⟩
  exact ⟨_, _, e10, by simp, by simp, by simp [hs, Registry.Stop.without], hl, hc, rfl, fun d hd => by simp [upd, hd]⟩

theorem must_there {tr : List Registry.Ev} {s : Registry.Sys} (h : Exec (Registry.Step addr) Registry.new tr s) :
    ∀ must seen, s.stop = .ranging must seen → ∀ a ∈ must, ∃ c, (a, c) ∈ s.conns := by
  refine h.inv (P := fun _ s => ∀ must seen, s.stop = .ranging must seen → ∀ a ∈ must, ∃ c, (a, c) ∈ s.conns) ?_ fun tr s l s' _ ih hs => ?_
  · simp [Registry.new]
  · obtain ⟨-, hs⟩ := hs
    intro must seen h1 a ha
    cases hs with
    | removed c hp =>
      simp only [Registry.Stop.without] at h1
      split at h1
      · rename_i m l _ hm
        injection h1 with h1 h2
        subst h1
        rw [List.mem_filter] at ha
        obtain ⟨d, hd⟩ := ih _ _ hm a ha.1
        exact ⟨d, by simp only [Registry.drop, List.mem_filter]; exact ⟨hd, by simpa using ha.2⟩⟩
      · exact absurd h1 (by rename_i h2; intro h1; exact h2 _ _ h1)
    | added c hp =>
      obtain ⟨d, hd⟩ := ih _ _ h1 a ha
      by_cases hac : a = addr c
      · exact ⟨c, by simp [Registry.put, hac]⟩
      · exact ⟨d, by simp [Registry.put, hac, hd]⟩
    | range h1' h2 =>
      injection h1 with h1 h3
      subst h1
      obtain ⟨⟨b, c⟩, hc, rfl⟩ := List.mem_map.1 ha
      exact ⟨c, hc⟩
    | _ => grind

/-- C96: `stop` does return: as long as nobody changes the map it gets to its end by its own steps alone. -/
theorem C96_returns {tr : List Registry.Ev} {s : Registry.Sys} (h : Exec (Registry.Step addr) Registry.new tr s) {must seen : List Nat} (hs : s.stop = .ranging must seen)
    (hc : s.crashed = false) (hw : ¬ Registry.Writing s) :
    ∃ tr' s', Exec (Registry.Step addr) s tr' s' ∧ s'.stop = .over ∧ ∀ l ∈ tr', l = .over ∨ ∃ a, l = .closed a := by
  have hm := must_there h must seen hs
  clear h
  induction hn : (must.filter (· ∉ seen)).length using Nat.strongRecOn generalizing s seen with
  | _ n ih =>
    by_cases hd : ∀ a ∈ must, a ∈ seen
    · exact ⟨_, _, Exec.snoc (step := Registry.Step addr) .nil ⟨hc, .finish _ _ hs hw hd⟩, rfl, by simp⟩
    · obtain ⟨a, h1, h2⟩ : ∃ a, a ∈ must ∧ a ∉ seen := by grind
      obtain ⟨c, h3⟩ := hm a h1
      have e1 := Exec.snoc (step := Registry.Step addr) .nil ⟨hc, .close _ _ a c hs hw h3 h2⟩
      obtain ⟨t, s', g1, g2, g3⟩ := ih (must.filter (· ∉ a :: seen)).length (by
        subst hn
        have e : must.filter (· ∉ a :: seen) = (must.filter (· ∉ seen)).filter (· ≠ a) := by
          rw [List.filter_filter]
          apply List.filter_congr
          intro x _
          simp
        rw [e]
        refine List.length_filter_lt_length_iff_exists.2 ⟨a, ?_, by simp⟩
        simp [h1, h2]) (s := { s with stop := .ranging must (a :: seen), closed := upd s.closed c true }) rfl hc hw hm rfl
      exact ⟨_, _, e1.append g1, g2, by intro l hl; rcases List.mem_append.1 hl with hl | hl <;> grind⟩

/-- C96: a goroutine that serves a replica never leaves its connection open, and not in the map either if everything was sent. -/
theorem C96_left {tr : List Registry.Ev} {s : Registry.Sys} (h : Exec (Registry.Step addr) Registry.new tr s) (c : Nat) :
    (.left c ∈ tr ∨ .failed c ∈ tr → s.closed c = true) ∧ (.left c ∈ tr → ∀ a, (a, c) ∉ s.conns) := by
  have key := h.inv (P := fun tr s => (∀ a d, (a, d) ∈ s.conns → addr d = a) ∧ (.left c ∈ tr ∨ .failed c ∈ tr → s.closed c = true ∧ s.pcs c = .left) ∧
    (.left c ∈ tr ∨ s.pcs c = .removed → ∀ a, (a, c) ∉ s.conns)) ?_ ?_
  · exact ⟨fun hl => (key.2.1 hl).1, fun hl => key.2.2 (.inl hl)⟩
  · simp [Registry.new]
  · intro tr s l s' _ ih hs
    obtain ⟨-, hs⟩ := hs
    obtain ⟨i1, i2, i3⟩ := ih
    cases hs <;> refine ⟨?_, ?_, ?_⟩ <;> simp only [List.mem_append, List.mem_singleton, reduceCtorEq, or_false, Registry.Ev.left.injEq, Registry.Ev.failed.injEq] <;>
      grind [upd, Registry.put, Registry.drop]

/-- C96: a master that is stopped before it is started never lets a replica in. -/
theorem C96_before {tr : List Registry.Ev} {s : Registry.Sys} (h : Exec (Registry.Step addr) Registry.new tr s) (hb : ∀ t1 t2, tr = t1 ++ .started :: t2 → .stopping ∈ t1) (c : Nat) :
    .accepted c ∉ tr := by
  have key := h.inv (P := fun tr s => (∀ t1 t2, tr = t1 ++ .started :: t2 → .stopping ∈ t1) → s.loop ≠ .running ∧ (.stopping ∈ tr → s.stop ≠ .idle) ∧ .accepted c ∉ tr) ?_ ?_
  · exact (key hb).2.2
  · simp [Registry.new]
  · intro tr s l s' _ ih hs hb
    obtain ⟨i1, i2, i3⟩ := ih fun t1 t2 e => hb t1 (t2 ++ [l]) (by rw [e]; simp)
    have hl : l = .started → .stopping ∈ tr := fun e => hb tr [] (by rw [e])
    obtain ⟨-, hs⟩ := hs
    have hw : ∀ a, s.stop.without a = .idle ↔ s.stop = .idle := fun a => without_eq (by simp)
    refine ⟨?_, ?_, ?_⟩ <;> cases hs <;> grind

/-- One replica is being served and `stop` begins to go through the map. -/
theorem stop_begun (addr : Nat → Nat) : ∃ tr s, Exec (Registry.Step addr) Registry.new tr s ∧ s.crashed = false ∧ s.loop = .running ∧ s.mutex = none ∧ s.pcs 0 = .serving ∧
    (∀ c, c ≠ 0 → s.pcs c = .absent) ∧ s.conns = [(addr 0, 0)] ∧ s.stop = .free ∧ s.closed 0 = false ∧
    ∃ A, tr = A ++ [.letGo] ∧ .letGo ∉ A := by
  have e0 := Exec.snoc (step := Registry.Step addr) (.nil (s0 := Registry.new)) ⟨rfl, .start rfl⟩
  have e1 := Exec.snoc e0 ⟨rfl, .accept 0 rfl rfl⟩
  have e2 := Exec.snoc e1 ⟨rfl, .lock 0 (by simp [upd]) rfl⟩
  have e3 := Exec.snoc e2 ⟨rfl, .add 0 (by simp [upd]) (by rintro ⟨d, hd⟩; by_cases h : d = 0 <;> simp_all [upd, Registry.new])⟩
  have e4 := Exec.snoc e3 ⟨rfl, .added 0 (by simp [upd])⟩
  have e5 := Exec.snoc e4 ⟨rfl, .unlock 0 (by simp [upd])⟩
  have e6 := Exec.snoc e5 ⟨rfl, .stop rfl⟩
  have e7 := Exec.snoc e6 ⟨rfl, .hold rfl rfl⟩
  have e8 := Exec.snoc e7 ⟨rfl, .letGo rfl⟩
  exact ⟨_, _, e8, rfl, rfl, rfl, by simp [upd], fun c hc => by simp [upd, hc, Registry.new], rfl, rfl, rfl, _, rfl, by simp⟩

/-- C96 is false. One replica is being served when `stop` is called and a second one connects: when its connection is being put into the map while `stop` goes
through it, the process is ended. And a replica that connects when `stop` has returned is served. -/
theorem C96_false : ¬ NeverCrashes ∧ ¬ StopEnds := by
  obtain ⟨tr, s, h, hc, hl, hm, hp, ha, hs, hf, ho, -⟩ := stop_begun id
  have e1 := h.snoc ⟨hc, .range hf (by simp [hs])⟩
  refine ⟨fun H => ?_, fun H => ?_⟩
  · have e2 := e1.snoc ⟨hc, .accept 1 hl (ha 1 (by decide))⟩
    have e3 := e2.snoc ⟨hc, .lock 1 (by simp [upd]) hm⟩
    have e4 := e3.snoc ⟨hc, .add 1 (by simp [upd]) (by rintro ⟨d, hd⟩; by_cases h0 : d = 0 <;> by_cases h1 : d = 1 <;> simp_all [upd])⟩
    have e5 := e4.snoc ⟨hc, .rangeCrash _ _ rfl ⟨1, by simp [upd]⟩⟩
    have := H _ _ _ e5
    cases this
  · have nobody : ¬ Registry.Writing s := by rintro ⟨d, hd⟩; by_cases h0 : d = 0 <;> simp_all
    have e2 := e1.snoc ⟨hc, .close _ _ 0 0 rfl nobody (by simp [hs]) (by simp)⟩
    have e3 := e2.snoc ⟨hc, .finish _ _ rfl nobody (by simp [hs])⟩
    obtain ⟨tr', s', g1, g2, -⟩ := C96_goes_on e3 rfl hl hc hm (c := 1) (ha 1 (by decide))
    exact (H _ _ _ _ _ 1 e3 rfl g1).2 g2

theorem undisturbed_of {A B : List Registry.Ev} (hA : .letGo ∉ A) (hB : ∀ l ∈ B, ∀ c, l ≠ .adding c ∧ l ≠ .removing c) : Undisturbed (A ++ B) := by
  rintro before after l e ⟨c, hl⟩
  rcases List.append_eq_append_iff.1 e with ⟨a, rfl, h2⟩ | ⟨a, rfl, h2⟩
  · have := hB l (by rw [h2]; simp) c
    grind
  · exact .inl fun h => hA (by simp [h])

/-- The hypotheses of `C96_before` are met: a master that is stopped and then started. -/
example : ∃ s, Exec (Registry.Step id) Registry.new [.stopping, .started] s ∧ ∀ t1 t2, [.stopping, .started] = t1 ++ Registry.Ev.started :: t2 → .stopping ∈ t1 := by
  have e1 := Exec.snoc (step := Registry.Step id) (.nil (s0 := Registry.new)) ⟨rfl, .stop rfl⟩
  refine ⟨_, e1.snoc ⟨rfl, .start rfl⟩, fun t1 t2 h => ?_⟩
  match t1, h with
  | [], h => cases h
  | _ :: _, h => injection h with h1; rw [← h1]; simp

/-- The hypotheses above are met: one replica is served and `stop` goes through the map, closes its connection and returns, undisturbed. -/
example : ∃ t1 t2 s1 s2 s3, Exec (Registry.Step id) Registry.new t1 s1 ∧ Registry.Step id s1 .ranged s2 ∧ Exec (Registry.Step id) s2 t2 s3 ∧ s3.stop = .over ∧ (0, 0) ∈ s1.conns ∧
    s3.crashed = false ∧ s3.loop = .running ∧ s3.mutex = none ∧ s3.pcs 1 = .absent ∧ t2 = [.closed 0, .over] ∧ Undisturbed (t1 ++ .ranged :: t2) := by
  obtain ⟨tr, s, h, hc, hl, hm, hp, ha, hs, hf, ho, A, rfl, hA⟩ := stop_begun id
  have nobody : ¬ Registry.Writing s := by rintro ⟨d, hd⟩; by_cases h0 : d = 0 <;> simp_all
  have g1 : Registry.Step id s .ranged _ := ⟨hc, .range hf (by simp [hs])⟩
  have g2 : Registry.Step id { s with stop := .ranging (s.conns.map Prod.fst) [] } (.closed 0) _ := ⟨hc, .close _ _ 0 0 rfl nobody (by simp [hs]) (by simp)⟩
  have e2 := Exec.snoc (.nil) g2
  have e3 := e2.snoc ⟨hc, .finish _ _ rfl nobody (by simp [hs])⟩
  refine ⟨_, _, s, _, _, h, g1, e3, rfl, by simp [hs], hc, hl, hm, ha 1 (by decide), rfl, ?_⟩
  rw [List.append_assoc]
  exact undisturbed_of hA (by simp)

end Verif.Props
