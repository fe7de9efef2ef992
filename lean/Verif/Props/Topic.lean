import Verif.Lemmas.Topic
import Mathlib.Data.List.Perm.Subperm

/-! # C39, C40 – publishing to subscribers -/

namespace Verif.Props

open Spec Topic
open Fut (upd)

/-- C39: the number a publish yields is the number of subscriptions whose channel accepted the event (as an `int32`, the counter's type), however
the goroutines interleave. None is accepted after the number is out, and no name is served twice. -/
theorem C39_count {tr : List Ev} {s : Sys} (h : Exec Step new tr s) {d : Nat} {n : Int} (hp : .published n ∈ runOf d tr) :
    n = Proto.wrap32 (acceptedBy (runOf d tr)).length ∧ ((acceptedBy (runOf d tr)).map Prod.fst).Nodup := by
  have inv := topicInv h
  cases hd : s.dists d with
  | none => rw [inv.none d hd] at hp; cases hp
  | some x => exact ⟨(inv.dist d x hd).value n hp, (inv.dist d x hd).once⟩

/-- C39: with fewer than 2³¹ names the number is exact. -/
theorem C39_exact {tr : List Ev} {s : Sys} (h : Exec Step new tr s) {d : Nat} {n : Int} (hp : .published n ∈ runOf d tr)
    {names : List Bytes} (hn : ∀ m i, .subscribed m i ∈ tr → m ∈ names) (hl : names.length < 2147483648) :
    n = (acceptedBy (runOf d tr)).length := by
  obtain ⟨h1, h2⟩ := C39_count h hp
  rw [h1]
  refine wrap32_of_lt (Nat.lt_of_le_of_lt ?_ hl)
  have hsub : (acceptedBy (runOf d tr)).map Prod.fst ⊆ names := by
    intro m hm
    have inv := topicInv h
    cases hd : s.dists d with
    | none => rw [inv.none d hd] at hp; cases hp
    | some x =>
      simp only [List.mem_map] at hm
      obtain ⟨⟨m', i⟩, hm, rfl⟩ := hm
      obtain ⟨p, hp1, hp2, -⟩ := (inv.dist d x hd).names _ _ hm
      have := (inv.run d x hd).visited _ (((inv.dist d x hd).visited m').2 (by rw [hp1]; exact hp2))
      obtain ⟨j, hj⟩ := mem_namesOf.1 this
      exact hn _ j hj
  have := (List.Nodup.subperm h2 hsub).length_le
  simpa using this

/-- C39: no goroutine ever sends on the closed channel. -/
theorem C39_no_crash {tr : List Ev} {s : Sys} (h : Exec Step new tr s) (d : Nat) : .own d .crash ∉ tr := by
  intro hc
  have inv := topicInv h
  have : DEv.crash ∈ runOf d tr := by
    obtain ⟨b, a, rfl⟩ := List.append_of_mem hc
    simp [runOf_append, runOf]
  cases hd : s.dists d with
  | none => rw [inv.none d hd] at this; cases this
  | some x => exact (inv.dist d x hd).crash this

theorem dist_started {tr : List Ev} {s : Sys} (h : Exec Step new tr s) {d : Nat} (hp : .publish d ∈ tr) : ∃ x, s.dists d = some x := by
  refine h.inv (P := fun tr s => .publish d ∈ tr → ∃ x, s.dists d = some x) (by simp) ?_ hp
  intro tr s l s' _ ih hs hm
  cases hs with
  | subscribe n => obtain ⟨x, hx⟩ := ih (by simpa using hm); exact ⟨_, by simp [hx]; rfl⟩
  | close id hid => exact ih (by simpa using hm)
  | publish d' hd' =>
    by_cases e : d = d'
    · exact ⟨_, by simp [upd, e]; rfl⟩
    · obtain ⟨x, hx⟩ := ih (by simpa [e] using hm); exact ⟨x, by simp [upd, e, hx]⟩
  | own d' x x' e hd' hst =>
    obtain ⟨y, hy⟩ := ih (by simpa using hm)
    by_cases e : d = d'
    · exact ⟨x', by simp [upd, e]⟩
    · exact ⟨y, by simp [upd, e, hy]⟩
  | delete d' x n rest hd' hp =>
    obtain ⟨y, hy⟩ := ih (by simpa using hm)
    by_cases e : d = d'
    · exact ⟨_, by simp [upd, e]; rfl⟩
    · exact ⟨_, by simp [upd, e, hy]; rfl⟩

/-- C39: a publish that has not yielded its number can go on by itself: it waits neither for a subscriber to receive nor to close. -/
theorem C39_progress {tr : List Ev} {s : Sys} (h : Exec Step new tr s) {d : Nat} (hp : .publish d ∈ tr) (hn : ∀ n, .published n ∉ runOf d tr) :
    ∃ e s', Step s (.own d e) s' ∧ ∀ m i r, e = .tried m i r → r = .expired := by
  have inv := topicInv h
  obtain ⟨x, hd⟩ := dist_started h hp
  have di := inv.dist d x hd
  have ri := inv.run d x hd
  have lift : ∀ e x', DStep s.subscribers s.closed x e x' → (∀ m i r, e = .tried m i r → r = .expired) →
      ∃ e s', Step s (.own d e) s' ∧ ∀ m i r, e = .tried m i r → r = .expired := fun e x' hst he => ⟨e, _, .own d x x' e hd hst, he⟩
  have hpc : x.pc = .called ∨ x.pc = .ranging ∨ x.pc = .waiting := by
    by_contra hc
    obtain ⟨n, hn'⟩ := di.published.2 hc
    exact hn n hn'
  rcases hpc with hpc | hpc | hpc
  · exact lift _ _ (.start hpc) (by simp)
  · by_cases hv : ∀ n ∈ x.due, n ∈ x.visited
    · exact lift _ _ (.ranged hpc hv) (by simp)
    · push Not at hv
      obtain ⟨n, hn1, hn2⟩ := hv
      obtain ⟨id, hid⟩ := ri.due n hn1
      exact lift _ _ (.visit n id hpc hid hn2) (by simp)
  · obtain ⟨ps, -, hps, hw⟩ := di.active
    cases ps with
    | nil => exact lift _ _ (.publish hpc (by simpa using hw)) (by simp)
    | cons m ps =>
      have ha := (hps m).1 (by simp)
      cases hm : x.snd m with
      | none => simp [hm, SPc.active] at ha
      | done => simp [hm, SPc.active] at ha
      | sending id => exact lift _ _ (.sendExpired m id hm) (by simp)
      | adding => exact lift _ _ (.count m hm) (by simp)
      | ending => exact lift _ _ (.finish m hm) (by simp)
      | reporting =>
        cases hc : x.collector with
        | some k => exact lift _ _ (.collect k hc) (by simp)
        | none => exact lift _ _ (.report m hm (di.open_ (by simp [hpc])) (by
          have h1 := di.open_ (by simp [hpc])
          cases hl : x.collecting with
          | true => rfl
          | false => rw [(di.left hl).1] at h1; cases h1) hc) (by simp)

/-- Bound of the steps a subscriber's goroutine has made. -/
def rank : SPc → Nat
  | .none => 0
  | .sending _ => 1
  | .reporting => 2
  | .adding => 2
  | .ending => 4
  | .done => 5

/-- Steps `distributeEvent` itself has made. -/
def pcRank : DPc → Nat
  | .called => 0
  | .ranging => 1
  | .waiting => 2
  | .closing => 3
  | .spawning => 4
  | .cleaning _ => 5

theorem rank_le (p : SPc) : rank p ≤ 5 := by cases p <;> simp [rank]

theorem sum_put (f : Bytes → SPc) (n : Bytes) (p : SPc) {l : List Bytes} (hl : l.Nodup) (hn : n ∈ l) :
    (l.map fun m => rank (put f n p m)).sum + rank (f n) = (l.map fun m => rank (f m)).sum + rank p := by
  induction l with
  | nil => cases hn
  | cons a l ih =>
    rw [List.nodup_cons] at hl
    simp only [List.map_cons, List.sum_cons]
    by_cases e : a = n
    · subst e
      have : (l.map fun m => rank (put f a p m)) = l.map fun m => rank (f m) := by
        refine List.map_congr_left fun m hm => ?_
        have : m ≠ a := fun e => hl.1 (e ▸ hm)
        simp [put, this]
      rw [this]; simp [put]; omega
    · have := ih hl.2 (by simpa [Ne.symm e] using hn)
      have hp : put f n p a = f a := by simp [put, e]
      rw [hp]; omega

/-- The number of steps made so far. -/
def RankInv (es : List DEv) (x : Dist) : Prop :=
  es.length + (if x.collector.isSome then 1 else 0) + (if x.collecting then 1 else 0) ≤ 1 + pcRank x.pc + (x.visited.map fun n => rank (x.snd n)).sum

theorem rank_step {subs : GoMap Nat} {closed : Nat → Bool} {es : List DEv} {d d' : Dist} {e : DEv} (hi : DistInv es d) (hr : RankInv es d)
    (hs : DStep subs closed d e d') : RankInv (es ++ [e]) d' := by
  have sp := fun n p (hn : d.snd n ≠ .none) => sum_put d.snd n p hi.nodup ((hi.visited n).2 hn)
  simp only [RankInv] at *
  cases hs with
  | start hp => simp [hp, pcRank] at *; omega
  | visit n id hp hw hv =>
    have : (d.visited.map fun m => rank (put d.snd n (.sending id) m)) = d.visited.map fun m => rank (d.snd m) := by
      refine List.map_congr_left fun m hm => ?_
      have : m ≠ n := fun e => hv (e ▸ hm)
      simp [put, this]
    simp only [List.map_cons, List.sum_cons, this, List.length_append, List.length_singleton]
    have e : rank (put d.snd n (.sending id) n) = 1 := by simp [put, rank]
    rw [e]; omega
  | ranged hp hw => simp [hp, pcRank] at *; omega
  | sent n id hp => have := sp n .adding (by simp [hp]); simp [hp, rank] at *; omega
  | sendClosed n id hp hc => have := sp n .reporting (by simp [hp]); simp [hp, rank] at *; omega
  | sendExpired n id hp => have := sp n .ending (by simp [hp]); simp [hp, rank] at *; omega
  | count n hp => have := sp n .ending (by simp [hp]); simp [hp, rank] at *; omega
  | report n hp hc hl hn => have := sp n .ending (by simp [hp]); simp [hp, hn, rank] at *; omega
  | crash n hp hc =>
    exfalso
    have h1 := hi.after
    have h2 := hi.open_
    grind [SPc.active]
  | collect n hp => simp [hp] at *; omega
  | collectorLeft hp hn hc => simp [hp, hn] at *; omega
  | finish n hp => have := sp n .done (by simp [hp]); simp [hp, rank] at *; omega
  | publish hp hw => simp [hp, pcRank] at *; omega
  | close hp => simp [hp, pcRank] at *; omega
  | spawn hp => simp [hp, pcRank] at *; omega

theorem rankInv {tr : List Ev} {s : Sys} (h : Exec Step new tr s) : ∀ d x, s.dists d = some x → RankInv (runOf d tr) x := by
  refine h.inv (P := fun tr s => ∀ d x, s.dists d = some x → RankInv (runOf d tr) x) (by simp [new]) ?_
  intro tr s l s' hx ih hs
  have inv := topicInv hx
  cases hs with
  | subscribe n =>
    intro d x hd
    simp only [Option.map_eq_some_iff] at hd
    obtain ⟨y, hy, rfl⟩ := hd
    have := ih d y hy
    simp only [RankInv, Dist.stored, runOf_append, runOf, List.append_nil] at this ⊢
    exact this
  | close id hid => intro d x hd; simpa [runOf_append, runOf] using ih d x hd
  | publish d' hd' =>
    intro d x hd
    simp only [upd] at hd
    split at hd
    · cases hd
      rename_i e; subst e
      simp [runOf_append, runOf, inv.none _ hd', RankInv, Dist.new]
    · simpa [runOf_append, runOf] using ih d x hd
  | own d' x x' e hd' hst =>
    intro d y hd
    simp only [upd] at hd
    split at hd
    · cases hd
      rename_i e; subst e
      simpa [runOf_append, runOf] using rank_step (inv.dist _ x hd') (ih _ x hd') hst
    · rename_i ne
      simpa [runOf_append, runOf, Ne.symm ne] using ih d y hd
  | delete d' x n rest hd' hp =>
    intro d y hd
    simp only [Option.map_eq_some_iff, upd] at hd
    obtain ⟨z, hz, rfl⟩ := hd
    split at hz
    · cases hz
      rename_i e; subst e
      have := ih _ x hd'
      simpa [runOf_append, runOf, RankInv, Dist.deleted, hp, pcRank] using this
    · simpa [runOf_append, runOf, RankInv, Dist.deleted] using ih d z hz

/-- C39: a publish makes at most six steps, and five for each name ever subscribed, so with `C39_progress` it ends whatever the subscribers
do. -/
theorem C39_bounded {tr : List Ev} {s : Sys} (h : Exec Step new tr s) (d : Nat) {names : List Bytes} (hn : ∀ m i, .subscribed m i ∈ tr → m ∈ names) :
    (runOf d tr).length ≤ 5 * names.length + 6 := by
  have inv := topicInv h
  cases hd : s.dists d with
  | none => simp [inv.none d hd]
  | some x =>
    have h1 := rankInv h d x hd
    have h2 : (x.visited.map fun n => rank (x.snd n)).sum ≤ 5 * x.visited.length := by
      generalize x.visited = l
      induction l with
      | nil => simp
      | cons a l ih => have := rank_le (x.snd a); simp; omega
    have h3 : x.visited.length ≤ names.length := by
      refine (List.Nodup.subperm (inv.dist d x hd).nodup ?_).length_le
      intro m hm
      obtain ⟨i, hi⟩ := mem_namesOf.1 ((inv.run d x hd).visited m hm)
      exact hn m i hi
    have h4 : pcRank x.pc ≤ 5 := by cases x.pc <;> simp [pcRank]
    simp only [RankInv] at h1
    omega

/-- What holds for a run and its events in every step holds in every execution. -/
theorem run_inv {P : List DEv → Dist → Prop} (h0 : P [] Dist.new)
    (hs : ∀ subs closed es x e x', DistInv es x → P es x → DStep subs closed x e x' → P (es ++ [e]) x') (h1 : ∀ es x n i, P es x → P es (x.stored n i))
    (h2 : ∀ es x n, P es x → P es (x.deleted n)) (h3 : ∀ es x n ks, P es x → x.pc = .cleaning (n :: ks) → P es { x with pc := .cleaning ks })
    {tr : List Ev} {s : Sys} (h : Exec Step new tr s) : ∀ d x, s.dists d = some x → P (runOf d tr) x := by
  refine h.inv (P := fun tr s => ∀ d x, s.dists d = some x → P (runOf d tr) x) (by simp [new]) ?_
  intro tr s l s' hx ih hst
  have inv := topicInv hx
  cases hst with
  | subscribe n =>
    intro d x hd
    simp only [Option.map_eq_some_iff] at hd
    obtain ⟨y, hy, rfl⟩ := hd
    simpa [runOf_append, runOf] using h1 _ _ _ _ (ih d y hy)
  | close id hid => intro d x hd; simpa [runOf_append, runOf] using ih d x hd
  | publish d' hd' =>
    intro d x hd
    simp only [upd] at hd
    split at hd
    · cases hd
      rename_i e; subst e
      simpa [runOf_append, runOf, inv.none _ hd'] using h0
    · simpa [runOf_append, runOf] using ih d x hd
  | own d' x x' e hd' hst =>
    intro d y hd
    simp only [upd] at hd
    split at hd
    · cases hd
      rename_i e; subst e
      simpa [runOf_append, runOf] using hs _ _ _ _ _ _ (inv.dist _ x hd') (ih _ x hd') hst
    · rename_i ne
      simpa [runOf_append, runOf, Ne.symm ne] using ih d y hd
  | delete d' x n rest hd' hp =>
    intro d y hd
    simp only [Option.map_eq_some_iff, upd] at hd
    obtain ⟨z, hz, rfl⟩ := hd
    split at hz
    · cases hz
      rename_i e; subst e
      simpa [runOf_append, runOf] using h2 _ _ n (h3 _ _ _ _ (ih _ x hd') hp)
    · simpa [runOf_append, runOf] using h2 _ _ n (ih d z hz)

/-- The events of a run tell where its goroutines are. -/
structure Told (es : List DEv) (x : Dist) : Prop where
  visited : ∀ n id, .visited n id ∈ es → x.snd n ≠ .none
  done : ∀ n, x.snd n = .done → .ended n ∈ es
  left : x.collecting = false → .collectorLeft ∈ es
  spawned : (∃ ks, x.pc = .cleaning ks) → .spawned ∈ es

theorem told {tr : List Ev} {s : Sys} (h : Exec Step new tr s) : ∀ d x, s.dists d = some x → Told (runOf d tr) x := by
  refine run_inv (P := Told) ⟨by simp, by simp [Dist.new], by simp [Dist.new], by simp [Dist.new]⟩ ?_ ?_ ?_ ?_ h
  · rintro subs closed es x e x' - ⟨h1, h2, h3, h4⟩ hs
    cases hs <;> constructor <;> grind [put]
  · rintro es x n i ⟨h1, h2, h3, h4⟩; exact ⟨h1, h2, h3, h4⟩
  · rintro es x n ⟨h1, h2, h3, h4⟩; exact ⟨h1, h2, h3, h4⟩
  · rintro es x n ks ⟨h1, h2, h3, h4⟩ hp
    exact ⟨h1, h2, h3, fun _ => h4 ⟨_, hp⟩⟩

/-- C39: no goroutine is left behind. When a publish can do nothing more, the goroutine of every subscriber has ended, so has the one that
collects the closed subscribers, and the clean-up has run and ended. With `C39_bounded`, which bounds the steps, this always comes about, whatever
the subscribers do. -/
theorem C39_no_leak {tr : List Ev} {s : Sys} (h : Exec Step new tr s) {d : Nat} (hp : .publish d ∈ tr) (h1 : ∀ e s', ¬ Step s (.own d e) s')
    (h2 : ∀ n s', ¬ Step s (.deleted d n) s') :
    (∀ n id, .visited n id ∈ runOf d tr → .ended n ∈ runOf d tr) ∧ .collectorLeft ∈ runOf d tr ∧ .spawned ∈ runOf d tr ∧
      (∃ n, .published n ∈ runOf d tr) := by
  obtain ⟨x, hd⟩ := dist_started h hp
  have di := (topicInv h).dist d x hd
  have ri := (topicInv h).run d x hd
  have tl := told h d x hd
  have stuck : ∀ e x', ¬ DStep s.subscribers s.closed x e x' := fun e x' hs => h1 e _ (.own d x x' e hd hs)
  have hpub : ∃ n, .published n ∈ runOf d tr := by
    by_contra hc
    push Not at hc
    obtain ⟨e, s', hs, -⟩ := C39_progress h hp hc
    exact h1 e s' hs
  have hclean : ∃ ks, x.pc = .cleaning ks := by
    have := di.published.1 hpub
    cases hpc : x.pc with
    | called => simp [hpc] at this
    | ranging => simp [hpc] at this
    | waiting => simp [hpc] at this
    | closing => exact absurd (.close hpc) (stuck _ _)
    | spawning => exact absurd (.spawn hpc) (stuck _ _)
    | cleaning ks => exact ⟨ks, rfl⟩
  have hact : ∀ n, (x.snd n).active = false := by
    rcases di.after with ha | ha
    · obtain ⟨ks, hk⟩ := hclean
      simp [hk] at ha
    · exact ha
  refine ⟨?_, ?_, tl.spawned hclean, hpub⟩
  · intro n id hv
    have ha := hact n
    have hn := tl.visited n id hv
    cases hs : x.snd n with
    | none => exact absurd hs hn
    | done => exact tl.done n hs
    | sending i => simp [hs, SPc.active] at ha
    | reporting => simp [hs, SPc.active] at ha
    | adding => simp [hs, SPc.active] at ha
    | ending => simp [hs, SPc.active] at ha
  · refine tl.left ?_
    by_contra hc
    have hc : x.collecting = true := by simpa using hc
    cases hcol : x.collector with
    | some n => exact stuck _ _ (.collect n hcol)
    | none => exact stuck _ _ (.collectorLeft hc hcol (di.shut (.inr hclean)))

/-- Two subscribers, one accepts, the other one is slow. -/
example : ∃ s, Exec Step new
    [.subscribed b!"a" 0, .subscribed b!"b" 1, .publish 0, .own 0 .started, .own 0 (.visited b!"b" 1), .own 0 (.tried b!"b" 1 .expired),
      .own 0 (.visited b!"a" 0), .own 0 .ranged, .own 0 (.tried b!"a" 0 .success), .own 0 (.ended b!"b"), .own 0 (.counted b!"a"),
      .own 0 (.ended b!"a"), .own 0 (.published 1)] s :=
  ⟨_, .cons (.subscribe _) (.cons (.subscribe _) (.cons (.publish 0 rfl) (.cons (.own 0 _ _ _ rfl (.start rfl))
    (.cons (.own 0 _ _ _ rfl (.visit b!"b" 1 rfl (by decide) (by decide))) (.cons (.own 0 _ _ _ rfl (.sendExpired b!"b" 1 rfl))
      (.cons (.own 0 _ _ _ rfl (.visit b!"a" 0 rfl (by decide) (by decide))) (.cons (.own 0 _ _ _ rfl (.ranged rfl (by decide)))
        (.cons (.own 0 _ _ _ rfl (.sent b!"a" 0 rfl)) (.cons (.own 0 _ _ _ rfl (.finish b!"b" rfl)) (.cons (.own 0 _ _ _ rfl (.count b!"a" rfl))
          (.cons (.own 0 _ _ _ rfl (.finish b!"a" rfl)) (.one (.own 0 _ _ _ rfl (.publish rfl rfl))))))))))))))⟩

/-- A topic without subscribers: the publish ends and nothing is left. -/
example : ∃ s, Exec Step new
    [.publish 0, .own 0 .started, .own 0 .ranged, .own 0 (.published 0), .own 0 .chClosed, .own 0 .collectorLeft, .own 0 .spawned] s ∧
      (∀ e s', ¬ Step s (.own 0 e) s') ∧ ∀ n s', ¬ Step s (.deleted 0 n) s' := by
  refine ⟨_, .cons (.publish 0 rfl) (.cons (.own 0 _ _ _ rfl (.start rfl)) (.cons (.own 0 _ _ _ rfl (.ranged rfl (by decide)))
    (.cons (.own 0 _ _ _ rfl (.publish rfl rfl)) (.cons (.own 0 _ _ _ rfl (.close rfl)) (.cons (.own 0 _ _ _ rfl (.collectorLeft rfl rfl rfl))
      (.one (.own 0 _ _ _ rfl (.spawn rfl)))))))), ?_, ?_⟩
  · intro e s' hs
    cases hs with
    | own _ x x' _ hd hst =>
      simp only [upd, if_true, Option.some.injEq] at hd
      subst hd
      cases hst <;> simp_all [Dist.new]
  · intro n s' hs
    cases hs with
    | delete _ x _ rest hd hp =>
      simp only [upd, if_true, Option.some.injEq] at hd
      subst hd
      simp [Dist.new] at hp

/-- The full claim: a live subscription is the one its name belongs to. -/
def KeepsLive : Prop := ∀ (tr : List Ev) (s : Sys) (name : Bytes) (id : Nat), Exec Step new tr s → Live tr name id → Current tr name id

/-- C40 is false: the receiver of `a` is closed and a publish notices; before it has cleaned up, `a` is subscribed again; the cleanup then
removes the new subscription. -/
theorem C40_false : ¬ KeepsLive := by
  intro hc
  have hx : ∃ s, Exec Step new
      [.subscribed b!"a" 0, .closed 0, .publish 0, .own 0 .started, .own 0 (.visited b!"a" 0), .own 0 .ranged, .own 0 (.tried b!"a" 0 .closed),
        .own 0 (.reported b!"a"), .own 0 (.collected b!"a"), .own 0 (.ended b!"a"), .own 0 (.published 0), .own 0 .chClosed, .own 0 .spawned,
        .subscribed b!"a" 1, .deleted 0 b!"a"] s :=
    ⟨_, .cons (.subscribe _) (.cons (.close 0 Nat.one_pos) (.cons (.publish 0 rfl) (.cons (.own 0 _ _ _ rfl (.start rfl))
      (.cons (.own 0 _ _ _ rfl (.visit b!"a" 0 rfl (by decide) (by decide))) (.cons (.own 0 _ _ _ rfl (.ranged rfl (by decide)))
        (.cons (.own 0 _ _ _ rfl (.sendClosed b!"a" 0 rfl rfl)) (.cons (.own 0 _ _ _ rfl (.report b!"a" rfl rfl rfl rfl))
          (.cons (.own 0 _ _ _ rfl (.collect b!"a" rfl)) (.cons (.own 0 _ _ _ rfl (.finish b!"a" rfl)) (.cons (.own 0 _ _ _ rfl (.publish rfl rfl))
            (.cons (.own 0 _ _ _ rfl (.close rfl)) (.cons (.own 0 _ _ _ rfl (.spawn rfl)) (.cons (.subscribe _)
              (.one (.delete 0 _ b!"a" [] rfl rfl)))))))))))))))⟩
  obtain ⟨s, hx⟩ := hx
  have hl : Live [.subscribed b!"a" 0, .closed 0, .publish 0, .own 0 .started, .own 0 (.visited b!"a" 0), .own 0 .ranged, .own 0 (.tried b!"a" 0 .closed),
        .own 0 (.reported b!"a"), .own 0 (.collected b!"a"), .own 0 (.ended b!"a"), .own 0 (.published 0), .own 0 .chClosed, .own 0 .spawned,
        .subscribed b!"a" 1, .deleted 0 b!"a"] b!"a" 1 := ⟨[_, _, _, _, _, _, _, _, _, _, _, _, _], [_], rfl, by simp, by simp⟩
  obtain ⟨b, a, e, -, h2⟩ := hc _ s _ _ hx hl
  have : b ++ .subscribed b!"a" 1 :: a = [.subscribed b!"a" 0, .closed 0, .publish 0, .own 0 .started, .own 0 (.visited b!"a" 0), .own 0 .ranged, .own 0 (.tried b!"a" 0 .closed),
        .own 0 (.reported b!"a"), .own 0 (.collected b!"a"), .own 0 (.ended b!"a"), .own 0 (.published 0), .own 0 .chClosed, .own 0 .spawned,
        .subscribed b!"a" 1] ++ [.deleted 0 b!"a"] := e.symm
  rcases List.eq_nil_or_concat a with rfl | ⟨a', y, rfl⟩
  · have := (List.append_inj' this rfl).2
    simp at this
  · rw [List.concat_eq_append, ← List.cons_append, ← List.append_assoc] at this
    have := (List.append_inj' this rfl).2
    simp only [List.cons.injEq, and_true] at this
    exact h2 0 (by simp [this])

theorem deleted_gone {tr : List Ev} {s : Sys} (h : Exec Step new tr s) (d : Nat) (name : Bytes) :
    After tr (.deleted d name) fun before => Gone before name := by
  refine .of_step h ?_
  intro tr1 s1 s2 h1 hs
  cases hs with
  | delete _ x _ rest hd hp => exact ((topicInv h1).run d x hd).cleaning _ hp name (by simp)

theorem not_closed_before {b a : List Ev} {s : Sys} {name : Bytes} {i : Nat} (h : Exec Step new (b ++ .subscribed name i :: a) s) : .closed i ∉ b := by
  intro hb
  have : b ++ .subscribed name i :: a = (b ++ [.subscribed name i]) ++ a := by simp
  rw [this] at h
  obtain ⟨s2, hs2, -⟩ := h.split
  obtain ⟨s3, hs3, hst⟩ := hs2.split_snoc
  have hlt' := (topicInv hs3).closedMade i hb
  generalize hev : Ev.subscribed name i = ev at hst
  cases hst <;> simp at hev
  omega

/-- C40, partial: `KeepsLive` when no other subscription under the same name was closed, in particular when every name is subscribed once.
Missing: re-subscribing a name whose earlier receiver is closed while a publish is under way, where it is false (`C40_false`). -/
theorem C40_kept_partial {tr : List Ev} {s : Sys} {name : Bytes} {id : Nat} (h : Exec Step new tr s) (hl : Live tr name id)
    (ho : ∀ i, .subscribed name i ∈ tr → i ≠ id → .closed i ∉ tr) : Current tr name id := by
  obtain ⟨b, a, e, h1, h2⟩ := hl
  refine ⟨b, a, e, h1, fun d hd => ?_⟩
  obtain ⟨a1, a2, rfl⟩ := List.append_of_mem hd
  have hg := deleted_gone h d name (b ++ .subscribed name id :: a1) a2 (by simp [e])
  obtain ⟨i, hi1, hi2⟩ := hg
  have hi3 : .closed i ∈ tr := by rw [e]; simp only [List.mem_append, List.mem_cons] at hi2 ⊢; tauto
  have hi4 : .subscribed name i ∈ tr := by rw [e]; simp only [List.mem_append, List.mem_cons] at hi1 ⊢; tauto
  by_cases ei : i = id
  · subst ei
    have hb : .closed i ∈ b := by
      simp only [List.mem_append, List.mem_cons, reduceCtorEq, false_or] at hi2
      rcases hi2 with hb | hb
      · exact hb
      · exact absurd (by simp [hb]) h2
    rw [e] at h
    exact not_closed_before h hb
  · exact ho i hi4 ei hi3

/-- The run is over: its senders have ended and its cleanup is done. -/
def Over (x : Dist) : Prop := x.pc = .cleaning []

/-- Nothing of a run concerns `name`, except subscription `id`. -/
structure Clear (name : Bytes) (id : Nat) (x : Dist) : Prop where
  window : ∀ i, (name, i) ∈ x.window → i = id
  sending : ∀ i, x.snd name = .sending i → i = id
  reporting : x.snd name ≠ .reporting
  collector : x.collector ≠ some name
  keys : name ∉ x.keys
  cleaning : ∀ ks, x.pc = .cleaning ks → name ∉ ks

theorem clear_step {subs : GoMap Nat} {closed : Nat → Bool} {x x' : Dist} {e : DEv} {name : Bytes} {id : Nat} (h : Clear name id x)
    (hm : subs.WF) (hc : closed id = false) (hg : subs.get name = some id) (hs : DStep subs closed x e x') : Clear name id x' := by
  obtain ⟨h1, h2, h3, h4, h5, h6⟩ := h
  cases hs with
  | start hp =>
    refine ⟨?_, h2, h3, h4, h5, by simp⟩
    intro i hi
    have := GoMap.get_of_mem hm hi
    rw [hg] at this; simpa using this.symm
  | crash n hp hcl => exact ⟨h1, h2, h3, h4, h5, h6⟩
  | _ => constructor <;> grind [put]

theorem over_step {subs : GoMap Nat} {closed : Nat → Bool} {x x' : Dist} {e : DEv} (h : Over x) (hs : DStep subs closed x e x') : Over x' := by
  unfold Over at *
  cases hs <;> simp_all

/-- C40, partial: `KeepsLive` for a subscription made while no publish is under way, whatever was closed before. Missing: subscriptions made
during a publish, where it is false (`C40_false`). -/
theorem C40_quiet_partial {before after : List Ev} {s0 s : Sys} {name : Bytes} {id : Nat} (h0 : Exec Step new before s0)
    (hq : ∀ d x, s0.dists d = some x → Over x) (h : Exec Step s0 (.subscribed name id :: after) s)
    (hs : ∀ i, .subscribed name i ∉ after) (hc : .closed id ∉ after) : Current (before ++ .subscribed name id :: after) name id := by
  have hsplit : Exec Step s0 ([.subscribed name id] ++ after) s := h
  obtain ⟨s1, h1, h2⟩ := hsplit.split
  obtain ⟨s0', h0', hst⟩ := Exec.split_snoc (tr := []) h1
  have : s0' = s0 := by
    generalize he : ([] : List Ev) = nl at h0'
    cases h0' with
    | nil => rfl
    | snoc => simp at he
  subst this
  have inv0 := topicInv h0
  have base : s1.closed id = false ∧ s1.subscribers.WF ∧ s1.subscribers.get name = some id ∧ ∀ d x, s1.dists d = some x → Over x ∨ Clear name id x := by
    generalize hev : Ev.subscribed name id = ev at hst
    cases hst <;> simp at hev
    obtain ⟨rfl, rfl⟩ := hev
    refine ⟨?_, GoMap.wf_set inv0.wf _ _, by simp, ?_⟩
    · cases hcl : s0'.closed s0'.made with
      | false => simp
      | true =>
        have := inv0.closedMade _ ((inv0.closed _).1 hcl)
        omega
    · intro d x hd
      simp only [Option.map_eq_some_iff] at hd
      obtain ⟨y, hy, rfl⟩ := hd
      exact .inl (hq d y hy)
  have key := h2.inv (P := fun tr s => (∀ i, .subscribed name i ∉ tr) → .closed id ∉ tr → (s.closed id = false ∧ s.subscribers.WF ∧
      s.subscribers.get name = some id ∧ ∀ d x, s.dists d = some x → Over x ∨ Clear name id x) ∧ ∀ d, .deleted d name ∉ tr) ?_ ?_ hs hc
  · exact ⟨before, after, rfl, hs, key.2⟩
  · exact fun _ _ => ⟨base, by simp⟩
  · intro tr s l s' _ ih hst hs hc
    obtain ⟨⟨g1, g2, g3, g4⟩, g5⟩ := ih (fun i hi => hs i (by simp [hi])) (fun hi => hc (by simp [hi]))
    cases hst with
    | subscribe n =>
      have hne : n ≠ name := fun e => hs s.made (by simp [e])
      refine ⟨⟨g1, GoMap.wf_set g2 _ _, by simp [GoMap.get_set, hne, g3], ?_⟩, by simpa using g5⟩
      intro d x hd
      simp only [Option.map_eq_some_iff] at hd
      obtain ⟨y, hy, rfl⟩ := hd
      rcases g4 d y hy with ho | ⟨c1, c2, c3, c4, c5, c6⟩
      · exact .inl ho
      · refine .inr ⟨?_, c2, c3, c4, c5, c6⟩
        intro i hi
        simp only [Dist.stored, List.mem_cons, Prod.mk.injEq] at hi
        rcases hi with ⟨e, -⟩ | hi
        · exact absurd e.symm hne
        · exact c1 i hi
    | close i hi =>
      have hne : i ≠ id := fun e => hc (by simp [e])
      exact ⟨⟨by simp [upd, Ne.symm hne, g1], g2, g3, g4⟩, by simpa using g5⟩
    | publish d hd =>
      refine ⟨⟨g1, g2, g3, ?_⟩, by simpa using g5⟩
      intro d' x hd'
      simp only [upd] at hd'
      split at hd'
      · cases hd'
        exact .inr ⟨by simp [Dist.new], by simp [Dist.new], by simp [Dist.new], by simp [Dist.new], by simp [Dist.new], by simp [Dist.new]⟩
      · exact g4 d' x hd'
    | own d x x' e hd hstep =>
      refine ⟨⟨g1, g2, g3, ?_⟩, by simpa using g5⟩
      intro d' y hd'
      simp only [upd] at hd'
      split at hd'
      · cases hd'
        rcases g4 d x hd with ho | hcl
        · exact .inl (over_step ho hstep)
        · exact .inr (clear_step hcl g2 g1 g3 hstep)
      · exact g4 d' y hd'
    | delete d x n rest hd hp =>
      have hne : n ≠ name := by
        rintro rfl
        rcases g4 d x hd with ho | hcl
        · rw [Over, hp] at ho; cases ho
        · exact hcl.cleaning _ hp (by simp)
      refine ⟨⟨g1, GoMap.wf_erase g2 _, by simp [GoMap.get_erase, hne, g3], ?_⟩, by simp [g5, Ne.symm hne]⟩
      have del : ∀ x, Over x ∨ Clear name id x → Over (x.deleted n) ∨ Clear name id (x.deleted n) := by
        rintro x (ho | ⟨c1, c2, c3, c4, c5, c6⟩)
        · exact .inl ho
        · exact .inr ⟨c1, c2, c3, c4, c5, c6⟩
      intro d' y hd'
      simp only [Option.map_eq_some_iff, upd] at hd'
      obtain ⟨z, hz, rfl⟩ := hd'
      split at hz
      · cases hz
        refine del _ ?_
        rcases g4 d x hd with ho | ⟨c1, c2, c3, c4, c5, c6⟩
        · rw [Over, hp] at ho; cases ho
        · refine .inr ⟨c1, c2, c3, c4, c5, ?_⟩
          intro ks hk
          cases hk
          exact fun hm => c6 _ hp (by simp [hm])
      · exact del _ (g4 d' z hz)

/-- Closed, cleaned up, subscribed again; the state in between satisfies the hypothesis of `C40_quiet_partial`. -/
example : ∃ s0 s, Exec Step new
      [.subscribed b!"a" 0, .closed 0, .publish 0, .own 0 .started, .own 0 (.visited b!"a" 0), .own 0 .ranged, .own 0 (.tried b!"a" 0 .closed),
        .own 0 (.reported b!"a"), .own 0 (.collected b!"a"), .own 0 (.ended b!"a"), .own 0 (.published 0), .own 0 .chClosed, .own 0 .spawned,
        .deleted 0 b!"a"] s0 ∧ (∀ d x, s0.dists d = some x → Over x) ∧ Exec Step s0 [.subscribed b!"a" 1, .publish 1] s := by
  refine ⟨_, _, .cons (.subscribe _) (.cons (.close 0 Nat.one_pos) (.cons (.publish 0 rfl) (.cons (.own 0 _ _ _ rfl (.start rfl))
      (.cons (.own 0 _ _ _ rfl (.visit b!"a" 0 rfl (by decide) (by decide))) (.cons (.own 0 _ _ _ rfl (.ranged rfl (by decide)))
        (.cons (.own 0 _ _ _ rfl (.sendClosed b!"a" 0 rfl rfl)) (.cons (.own 0 _ _ _ rfl (.report b!"a" rfl rfl rfl rfl))
          (.cons (.own 0 _ _ _ rfl (.collect b!"a" rfl)) (.cons (.own 0 _ _ _ rfl (.finish b!"a" rfl)) (.cons (.own 0 _ _ _ rfl (.publish rfl rfl))
            (.cons (.own 0 _ _ _ rfl (.close rfl)) (.cons (.own 0 _ _ _ rfl (.spawn rfl))
              (.one (.delete 0 _ b!"a" [] rfl rfl)))))))))))))), ?_, .cons (.subscribe _) (.one (.publish 1 rfl))⟩
  intro d x hd
  by_cases e : d = 0
  · subst e; cases hd; rfl
  · simp [upd, e, new] at hd

/-- What `C40_offered` keeps track of. -/
structure Offer (name : Bytes) (id d : Nat) (tr : List Ev) (s : Sys) : Prop where
  wf : s.subscribers.WF
  get : s.subscribers.get name = some id
  run : ∃ x, s.dists d = some x ∧ (x.pc = .called → x.visited = []) ∧ (x.pc = .ranging → name ∈ x.due ∧ ∀ i, (name, i) ∈ x.window → i = id) ∧
    (x.pc ≠ .called → x.pc ≠ .ranging → name ∈ x.visited) ∧ (name ∈ x.visited → x.snd name = .sending id ∨ ∃ r, .own d (.tried name id r) ∈ tr)

/-- C40: every publish made while a name belongs to a subscription offers it the event before yielding its number. -/
theorem C40_offered {b1 b2 a : List Ev} {s : Sys} {name : Bytes} {id d : Nat} {n : Int}
    (h : Exec Step new (b1 ++ .publish d :: (b2 ++ .own d (.published n) :: a)) s) (hcur : Current b1 name id)
    (h1 : ∀ i, .subscribed name i ∉ b2) (h2 : ∀ d', .deleted d' name ∉ b2) : ∃ r, .own d (.tried name id r) ∈ b2 := by
  have e1 : b1 ++ .publish d :: (b2 ++ .own d (.published n) :: a) = (b1 ++ [.publish d]) ++ ((b2 ++ [.own d (.published n)]) ++ a) := by simp
  rw [e1] at h
  obtain ⟨s1, hs1, h⟩ := h.split
  obtain ⟨s3, h, -⟩ := h.split
  obtain ⟨s2, h, hpub⟩ := h.split_snoc
  obtain ⟨s0, hs0, hcall⟩ := hs1.split_snoc
  have inv2 := topicInv (hs1.append h)
  have inv1 := topicInv hs1
  have key := h.inv (P := fun tr s => (∀ i, .subscribed name i ∉ tr) → (∀ d', .deleted d' name ∉ tr) → Offer name id d tr s) ?_ ?_ h1 h2
  · obtain ⟨-, -, x, hx, -, -, hv, ht⟩ := key
    generalize hev : Ev.own d (.published n) = ev at hpub
    cases hpub <;> simp at hev
    rename_i d' y y' e hd hstep
    obtain ⟨rfl, rfl⟩ := hev
    rw [hx] at hd; cases hd
    have di := inv2.dist _ x hx
    generalize hev : DEv.published n = ev at hstep
    cases hstep <;> simp at hev
    rename_i hp hw
    have hm := hv (by simp [hp]) (by simp [hp])
    rcases ht hm with hsnd | hr
    · obtain ⟨ps, -, hps, hl⟩ := di.active
      have := (hps name).2 (by simp [hsnd, SPc.active])
      have := List.length_pos_of_mem this
      omega
    · exact hr
  · intro _ _
    have hg := (inv1.map name id).2 ((current_snoc b1 (.publish d) name id).2 (.inr ⟨by simp, by simp, hcur⟩))
    refine ⟨inv1.wf, hg, Dist.new, ?_, by simp [Dist.new], by simp [Dist.new], by simp [Dist.new], by simp [Dist.new]⟩
    generalize hev : Ev.publish d = ev at hcall
    cases hcall <;> simp at hev
    subst hev
    simp [upd]
  · intro tr s l s' _ ih hst hs hdel
    obtain ⟨g1, g2, x, hx, v1, v2, v3, v4⟩ := ih (fun i hi => hs i (by simp [hi])) (fun i hi => hdel i (by simp [hi]))
    have mono : ∀ e : Ev, (name ∈ x.visited → x.snd name = .sending id ∨ ∃ r, .own d (.tried name id r) ∈ tr ++ [e]) := by
      intro e hm
      rcases v4 hm with hh | ⟨r, hr⟩
      · exact .inl hh
      · exact .inr ⟨r, by simp [hr]⟩
    cases hst with
    | subscribe n =>
      have hne : n ≠ name := fun e => hs s.made (by simp [e])
      refine ⟨GoMap.wf_set g1 _ _, by simp [GoMap.get_set, hne, g2], x.stored n s.made, by simp [hx], v1, ?_, v3, mono _⟩
      intro hp
      refine ⟨(v2 hp).1, ?_⟩
      intro i hi
      simp only [Dist.stored, List.mem_cons, Prod.mk.injEq] at hi
      rcases hi with ⟨e, -⟩ | hi
      · exact absurd e.symm hne
      · exact (v2 hp).2 i hi
    | close i hi => exact ⟨g1, g2, x, hx, v1, v2, v3, mono _⟩
    | publish d' hd' =>
      have hne : d ≠ d' := by rintro rfl; rw [hx] at hd'; cases hd'
      exact ⟨g1, g2, x, by simp [upd, hne, hx], v1, v2, v3, mono _⟩
    | own d' y y' e hd' hstep =>
      by_cases hne : d = d'
      · subst hne
        rw [hx] at hd'; cases hd'
        refine ⟨g1, g2, y', by simp [upd], ?_⟩
        replace mono := mono (.own d e)
        cases hstep with
        | start hp =>
          refine ⟨by simp, ?_, by simp, mono⟩
          intro _
          refine ⟨(GoMap.mem_keys_iff _ _).2 ⟨id, g2⟩, ?_⟩
          intro i hi
          have := GoMap.get_of_mem g1 hi
          rw [g2] at this; simpa using this.symm
        | visit m i hp hw hv =>
          refine ⟨by simp [hp], fun _ => v2 hp, by simp [hp], ?_⟩
          intro hm
          by_cases em : m = name
          · subst em
            left; simp [put, (v2 hp).2 i hw]
          · have := mono (by simpa [Ne.symm em] using hm)
            simpa [put, Ne.symm em] using this
        | ranged hp hw => exact ⟨by simp, by simp, fun _ _ => hw _ (v2 hp).1, mono⟩
        | sent m i hp =>
          refine ⟨v1, v2, v3, fun hm => ?_⟩
          have := mono hm
          grind [put]
        | sendClosed m i hp hc =>
          refine ⟨v1, v2, v3, fun hm => ?_⟩
          have := mono hm
          grind [put]
        | sendExpired m i hp =>
          refine ⟨v1, v2, v3, fun hm => ?_⟩
          have := mono hm
          grind [put]
        | count m hp =>
          refine ⟨v1, v2, v3, fun hm => ?_⟩
          have := mono hm
          grind [put]
        | report m hp hc hl hn =>
          refine ⟨v1, v2, v3, fun hm => ?_⟩
          have := mono hm
          grind [put]
        | crash m hp hc => exact ⟨v1, v2, v3, mono⟩
        | collect m hp => exact ⟨v1, v2, v3, mono⟩
        | collectorLeft hp hn hc => exact ⟨v1, v2, v3, mono⟩
        | finish m hp =>
          refine ⟨v1, v2, v3, fun hm => ?_⟩
          have := mono hm
          grind [put]
        | publish hp hw => exact ⟨by simp, by simp, fun _ _ => v3 (by simp [hp]) (by simp [hp]), mono⟩
        | close hp => exact ⟨by simp, by simp, fun _ _ => v3 (by simp [hp]) (by simp [hp]), mono⟩
        | spawn hp => exact ⟨by simp, by simp, fun _ _ => v3 (by simp [hp]) (by simp [hp]), mono⟩
      · exact ⟨g1, g2, x, by simp [upd, hne, hx], v1, v2, v3, mono _⟩
    | delete d' y m rest hd' hp =>
      have hne : m ≠ name := fun e => hdel d' (by simp [e])
      have hdue : ∀ x : Dist, name ∈ x.due → name ∈ (x.deleted m).due := by
        intro x hm; simp [Dist.deleted, hm, Ne.symm hne]
      by_cases e : d = d'
      · subst e
        rw [hx] at hd'; cases hd'
        refine ⟨GoMap.wf_erase g1 _, by simp [GoMap.get_erase, hne, g2], Dist.deleted m { x with pc := .cleaning rest }, by simp [upd], by simp [Dist.deleted],
          by simp [Dist.deleted], fun _ _ => v3 (by simp [hp]) (by simp [hp]), mono _⟩
      · refine ⟨GoMap.wf_erase g1 _, by simp [GoMap.get_erase, hne, g2], x.deleted m, by simp [upd, e, hx], v1, ?_, v3, mono _⟩
        intro hpc
        exact ⟨hdue x (v2 hpc).1, (v2 hpc).2⟩

/-- C40: so a subscriber whose name nobody else uses is offered every event published between its subscription and its close. -/
theorem C40_served {b0 b1 b2 a : List Ev} {s : Sys} {name : Bytes} {id d : Nat} {n : Int}
    (h : Exec Step new (b0 ++ .subscribed name id :: (b1 ++ .publish d :: (b2 ++ .own d (.published n) :: a))) s)
    (hn : ∀ i, .subscribed name i ∉ b0 ++ b1 ++ b2) (hc : .closed id ∉ b1 ++ b2) : ∃ r, .own d (.tried name id r) ∈ b2 := by
  have nodel : ∀ d', .deleted d' name ∉ b1 ∧ .deleted d' name ∉ b2 := by
    intro d'
    have hf := not_closed_before h
    have gone : ∀ p q, b0 ++ .subscribed name id :: (b1 ++ .publish d :: (b2 ++ .own d (.published n) :: a)) = p ++ .deleted d' name :: q →
        (∀ i, .subscribed name i ∈ p → i = id) → .closed id ∈ p := by
      intro p q e hp
      obtain ⟨i, hi1, hi2⟩ := deleted_gone h d' name p q e
      rw [hp i hi1] at hi2
      exact hi2
    simp only [List.mem_append, not_or] at hn hc
    constructor
    · intro hd
      obtain ⟨p, q, rfl⟩ := List.append_of_mem hd
      have := gone (b0 ++ .subscribed name id :: p) (q ++ .publish d :: (b2 ++ .own d (.published n) :: a)) (by simp) (by
        intro i hi
        have := hn i
        simp only [List.mem_append, List.mem_cons, Ev.subscribed.injEq, true_and] at hi this
        tauto)
      simp only [List.mem_append, List.mem_cons, reduceCtorEq, false_or] at this hc
      tauto
    · intro hd
      obtain ⟨p, q, rfl⟩ := List.append_of_mem hd
      have := gone (b0 ++ .subscribed name id :: (b1 ++ .publish d :: p)) (q ++ .own d (.published n) :: a) (by simp) (by
        intro i hi
        have := hn i
        simp only [List.mem_append, List.mem_cons, Ev.subscribed.injEq, true_and, reduceCtorEq, false_or] at hi this
        tauto)
      simp only [List.mem_append, List.mem_cons, reduceCtorEq, false_or] at this hc
      tauto
  simp only [List.mem_append, not_or] at hn
  refine C40_offered (b1 := b0 ++ .subscribed name id :: b1) (a := a) (s := s) (n := n) (by simpa using h) ?_ (fun i => (hn i).2) fun d' => (nodel d').2
  exact ⟨b0, b1, rfl, fun i => (hn i).1.2, fun d' => (nodel d').1⟩

/-- A subscriber and a publish it is offered. -/
example : ∃ s, Exec Step new ([] ++ .subscribed b!"a" 0 :: ([] ++ .publish 0 :: ([.own 0 .started, .own 0 (.visited b!"a" 0), .own 0 .ranged,
    .own 0 (.tried b!"a" 0 .success), .own 0 (.counted b!"a"), .own 0 (.ended b!"a")] ++ .own 0 (.published 1) :: []))) s :=
  ⟨_, .cons (.subscribe _) (.cons (.publish 0 rfl) (.cons (.own 0 _ _ _ rfl (.start rfl))
      (.cons (.own 0 _ _ _ rfl (.visit b!"a" 0 rfl (by decide) (by decide))) (.cons (.own 0 _ _ _ rfl (.ranged rfl (by decide)))
        (.cons (.own 0 _ _ _ rfl (.sent b!"a" 0 rfl)) (.cons (.own 0 _ _ _ rfl (.count b!"a" rfl))
          (.cons (.own 0 _ _ _ rfl (.finish b!"a" rfl)) (.one (.own 0 _ _ _ rfl (.publish rfl rfl))))))))))⟩

/-- Where the goroutine serving a subscriber is tells what it has done. -/
def ServedTill (es : List DEv) (n : Bytes) : SPc → Prop
  | .none => es.filter (ofServing n) = []
  | .sending id => es.filter (ofServing n) = [.visited n id]
  | .adding => ∃ id, es.filter (ofServing n) = [.visited n id, .tried n id .success]
  | .reporting => ∃ id, es.filter (ofServing n) = [.visited n id, .tried n id .closed]
  | .ending => WholeServing n (es.filter (ofServing n) ++ [.ended n])
  | .done => WholeServing n (es.filter (ofServing n))

/-- Where `distributeEvent` is tells what it has done. -/
def DistributedTill (es : List DEv) : DPc → Prop
  | .called => es.filter ofDistributing = []
  | .ranging => es.filter ofDistributing = [.started]
  | .waiting => es.filter ofDistributing = [.started, .ranged]
  | .closing => ∃ k, es.filter ofDistributing = [.started, .ranged, .published k]
  | .spawning => ∃ k, es.filter ofDistributing = [.started, .ranged, .published k, .chClosed]
  | .cleaning _ => ∃ k, es.filter ofDistributing = [.started, .ranged, .published k, .chClosed, .spawned]

theorem till {tr : List Ev} {s : Sys} (h : Exec Step new tr s) :
    ∀ d x, s.dists d = some x → (∀ n, ServedTill (runOf d tr) n (x.snd n)) ∧ DistributedTill (runOf d tr) x.pc := by
  refine run_inv (P := fun es x => (∀ n, ServedTill es n (x.snd n)) ∧ DistributedTill es x.pc) ?_ ?_ ?_ ?_ ?_ h
  · simp [Dist.new, ServedTill, DistributedTill]
  · rintro subs closed es x e x' hdi ⟨h1, h2⟩ hs
    have keep : ∀ m, ofServing m e = false → ServedTill (es ++ [e]) m (x.snd m) := by
      intro m hm
      have := h1 m
      have hf : (es ++ [e]).filter (ofServing m) = es.filter (ofServing m) := by simp [hm]
      cases hx : x.snd m <;> rw [hx] at this <;> simpa only [ServedTill, hf] using this
    have keep2 : ofDistributing e = false → DistributedTill (es ++ [e]) x.pc := by
      intro hm
      have hf : (es ++ [e]).filter ofDistributing = es.filter ofDistributing := by simp [hm]
      cases hx : x.pc <;> rw [hx] at h2 <;> simpa only [DistributedTill, hf] using h2
    cases hs with
    | start hp =>
      rw [hp] at h2
      exact ⟨fun m => keep m rfl, by simp only [DistributedTill, List.filter_append] at *; simp [h2, ofDistributing]⟩
    | ranged hp _ =>
      rw [hp] at h2
      exact ⟨fun m => keep m rfl, by simp only [DistributedTill, List.filter_append] at *; simp [h2, ofDistributing]⟩
    | publish hp _ =>
      rw [hp] at h2
      exact ⟨fun m => keep m rfl, x.count, by simp only [DistributedTill] at h2; simp [h2, ofDistributing]⟩
    | close hp =>
      rw [hp] at h2
      exact ⟨fun m => keep m rfl, by simp only [DistributedTill, List.filter_append] at *; obtain ⟨k, h2⟩ := h2; simp [h2, ofDistributing]⟩
    | spawn hp =>
      rw [hp] at h2
      exact ⟨fun m => keep m rfl, by simp only [DistributedTill, List.filter_append] at *; obtain ⟨k, h2⟩ := h2; simp [h2, ofDistributing]⟩
    | crash n hp _ => exact ⟨fun m => keep m rfl, keep2 rfl⟩
    | collect n hp => exact ⟨fun m => keep m rfl, keep2 rfl⟩
    | collectorLeft => exact ⟨fun m => keep m rfl, keep2 rfl⟩
    | visit n id hp hw hv =>
      refine ⟨fun m => ?_, keep2 rfl⟩
      simp only [put]
      split
      · rename_i e; subst e
        have h3 := h1 m
        have h4 : x.snd m = .none := by
          by_contra hc
          exact hv ((hdi.visited m).2 hc)
        rw [h4] at h3
        simp only [ServedTill, List.filter_append] at *
        simp [h3, ofServing]
      · rename_i ne; exact keep m (by simp [ofServing, Ne.symm ne])
    | sent n id hp | sendClosed n id hp _ =>
      refine ⟨fun m => ?_, keep2 rfl⟩
      simp only [put]
      split
      · rename_i e; subst e
        have h3 := h1 m
        rw [hp] at h3
        simp only [ServedTill, List.filter_append] at *
        exact ⟨id, by simp [h3, ofServing]⟩
      · rename_i ne; exact keep m (by simp [ofServing, Ne.symm ne])
    | sendExpired n id hp =>
      refine ⟨fun m => ?_, keep2 rfl⟩
      simp only [put]
      split
      · rename_i e; subst e
        have h3 := h1 m
        rw [hp] at h3
        simp only [ServedTill, List.filter_append] at *
        simpa [h3, ofServing] using WholeServing.expired id
      · rename_i ne; exact keep m (by simp [ofServing, Ne.symm ne])
    | count n hp =>
      refine ⟨fun m => ?_, keep2 rfl⟩
      simp only [put]
      split
      · rename_i e; subst e
        have h3 := h1 m
        rw [hp] at h3
        simp only [ServedTill, List.filter_append] at *
        obtain ⟨id, h3⟩ := h3
        simpa [h3, ofServing] using WholeServing.success id
      · rename_i ne; exact keep m (by simp [ofServing, Ne.symm ne])
    | report n hp =>
      refine ⟨fun m => ?_, keep2 rfl⟩
      simp only [put]
      split
      · rename_i e; subst e
        have h3 := h1 m
        rw [hp] at h3
        simp only [ServedTill, List.filter_append] at *
        obtain ⟨id, h3⟩ := h3
        simpa [h3, ofServing] using WholeServing.closed id
      · rename_i ne; exact keep m (by simp [ofServing, Ne.symm ne])
    | finish n hp =>
      refine ⟨fun m => ?_, keep2 rfl⟩
      simp only [put]
      split
      · rename_i e; subst e
        have h3 := h1 m
        rw [hp] at h3
        simp only [ServedTill, List.filter_append] at *
        simpa [ofServing] using h3
      · rename_i ne; exact keep m (by simp [ofServing, Ne.symm ne])
  · exact fun es x n i h => h
  · exact fun es x n h => h
  · rintro es x n ks ⟨h1, h2⟩ hp
    rw [hp] at h2
    exact ⟨h1, h2⟩

/-- C39: each subscriber is served by one goroutine, which sends the event once, counts a success or reports a closed channel and ends; when the
publish yields its number, all of them have ended. -/
theorem C39_goroutine {tr : List Ev} {s : Sys} (h : Exec Step new tr s) (d : Nat) (n : Bytes) :
    (runOf d tr).filter (ofServing n) = [] ∨ WholeServing n ((runOf d tr).filter (ofServing n)) ∨
      ((∃ more, WholeServing n ((runOf d tr).filter (ofServing n) ++ more)) ∧ ∀ k, .published k ∉ runOf d tr) := by
  cases hd : s.dists d with
  | none => simp [(topicInv h).none d hd]
  | some x =>
    have ht := (till h d x hd).1 n
    have di := (topicInv h).dist d x hd
    have hact : (x.snd n).active = true → ∀ k, .published k ∉ runOf d tr := by
      intro ha k hk
      have := di.published.1 ⟨k, hk⟩
      rcases di.after with hp | hp
      · exact this hp
      · rw [hp n] at ha; cases ha
    cases hx : x.snd n <;> rw [hx] at ht hact <;> simp only [ServedTill] at ht
    · exact .inl ht
    · exact .inr (.inr ⟨⟨[.tried n _ .expired, .ended n], by rw [ht]; exact .expired _⟩, hact rfl⟩)
    · obtain ⟨id, ht⟩ := ht
      exact .inr (.inr ⟨⟨[.reported n, .ended n], by rw [ht]; exact .closed _⟩, hact rfl⟩)
    · obtain ⟨id, ht⟩ := ht
      exact .inr (.inr ⟨⟨[.counted n, .ended n], by rw [ht]; exact .success _⟩, hact rfl⟩)
    · exact .inr (.inr ⟨⟨_, ht⟩, hact rfl⟩)
    · exact .inr (.inl ht)

/-- C39: `distributeEvent` itself looks at the subscribers, waits, yields one number, closes the channel of the reports and starts the clean-up,
in this order, and does each of them once. -/
theorem C39_main {tr : List Ev} {s : Sys} (h : Exec Step new tr s) (d : Nat) :
    ∃ k, (runOf d tr).filter ofDistributing <+: [.started, .ranged, .published k, .chClosed, .spawned] := by
  cases hd : s.dists d with
  | none => exact ⟨0, by simp [(topicInv h).none d hd]⟩
  | some x =>
    have ht := (till h d x hd).2
    cases hx : x.pc <;> rw [hx] at ht <;> simp only [DistributedTill] at ht
    · exact ⟨0, by simp [ht]⟩
    · exact ⟨0, by simp [ht]⟩
    · exact ⟨0, by simp [ht]⟩
    all_goals
      obtain ⟨k, ht⟩ := ht
      exact ⟨k, by simp [ht]⟩

end Verif.Props
