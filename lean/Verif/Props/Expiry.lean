import Verif.Spec.Expiry
import Verif.Lemmas.LTS

/-! # C68 – when a connection expires -/

namespace Verif.Props

open Verif Spec Expiry

variable {T : Nat}

theorem now_eq {s s' : Expiry.Sys} {tr : List Expiry.Ev} (h : Exec (Expiry.Step T) s tr s') : s'.now = s.now + ticks tr := by
  refine h.inv (P := fun tr s' => s'.now = s.now + ticks tr) (by simp [ticks]) ?_
  intro tr s1 e s2 _ ih hs
  cases hs <;> simp_all [ticks, List.count_append] <;> omega

/-- Closed stays closed, a worker that has left stays away. -/
theorem closed_mono {s s' : Expiry.Sys} {tr : List Expiry.Ev} (h : Exec (Expiry.Step T) s tr s') :
    (s.closed = true → s'.closed = true) ∧ (s.worker = false → s'.worker = false) := by
  refine h.inv (P := fun _ s' => (s.closed = true → s'.closed = true) ∧ (s.worker = false → s'.worker = false)) ⟨id, id⟩ ?_
  intro tr s1 e s2 _ ih hs
  cases hs <;> grind

/-- The invariant of a connection. -/
structure Ok (T : Nat) (s : Expiry.Sys) (tr : List Expiry.Ev) : Prop where
  armed : s.armed ≤ s.now
  fresh : s.closed = false → s.worker = true ∧ s.now ≤ s.armed + T
  stopped : s.reader = .stopped → s.closed = false → .malformed ∈ tr

theorem ok_of {tr : List Expiry.Ev} {s : Expiry.Sys} (h : Exec (Expiry.Step T) Expiry.new tr s) : Ok T s tr := by
  refine h.inv (P := fun tr s => Ok T s tr) ⟨by simp [Expiry.new], by simp [Expiry.new], by simp [Expiry.new]⟩ ?_
  intro tr s1 e s2 _ ih hs
  obtain ⟨h1, h2, h3⟩ := ih
  cases hs with
  | tick hb =>
    refine ⟨by simp; omega, fun hc => ?_, by simpa using h3⟩
    obtain ⟨hw, hn⟩ := h2 hc
    refine ⟨hw, ?_⟩
    simp only [busy, not_or, not_and] at hb
    have := (hb.1 hw).2.2.2
    simp; omega
  | _ => constructor <;> grind

/-- C68: a connection is not closed within the expire time of a reply being written to it. -/
theorem C68_reply_keeps {before mid : List Expiry.Ev} {s : Expiry.Sys}
    (h : Exec (Expiry.Step T) Expiry.new (before ++ .wrote :: mid ++ [.expired]) s) : T ≤ ticks mid := by
  obtain ⟨s3, h3, hs⟩ := h.split_snoc
  rw [List.append_cons] at h3
  obtain ⟨s2, h2, hm⟩ := h3.split
  obtain ⟨s1, h1, hw⟩ := h2.split_snoc
  have hn := now_eq hm
  have ha : s2.now ≤ s3.armed := by
    have h0 : s2.now ≤ s2.armed := by cases hw; simp
    refine hm.inv (P := fun _ s => s2.now ≤ s.now ∧ s2.now ≤ s.armed) ⟨Nat.le_refl _, h0⟩ ?_ |>.2
    intro tr s e s' _ ih hs
    cases hs <;> grind
  cases hs with
  | expire _ _ hx => omega

/-- C68: nor within the expire time of its beginning. -/
theorem C68_start {before : List Expiry.Ev} {s : Expiry.Sys} (h : Exec (Expiry.Step T) Expiry.new (before ++ [.expired]) s) : T ≤ ticks before := by
  obtain ⟨s3, h3, hs⟩ := h.split_snoc
  have hn := now_eq h3
  simp only [Expiry.new] at hn
  cases hs with
  | expire _ _ hx => omega

/-- C68: nor within the expire time of a request arriving on it, provided the request is not behind malformed bytes. Only if the request arrives
at the very instant at which the connection expires may it come too late. -/
theorem C68_request_keeps {before mid : List Expiry.Ev} {s : Expiry.Sys}
    (h : Exec (Expiry.Step T) Expiry.new (before ++ .arrived :: mid ++ [.expired]) s) (hm : .malformed ∉ before) : ticks mid = 0 ∨ T ≤ ticks mid := by
  obtain ⟨s3, h3, hs⟩ := h.split_snoc
  rw [List.append_cons] at h3
  obtain ⟨s2, h2, hx⟩ := h3.split
  obtain ⟨s1, h1, hw⟩ := h2.split_snoc
  have hn := now_eq hx
  have o2 := ok_of h2
  have hm2 : .malformed ∉ before ++ [Expiry.Ev.arrived] := by simp [hm]
  have hi : 0 < s2.inbox := by cases hw; simp
  cases hs with
  | expire hwk hc he =>
    have hc2 : s2.closed = false := by
      have := (closed_mono hx).1
      cases hq : s2.closed with
      | false => rfl
      | true => rw [this hq] at hc; cases hc
    have hr2 : s2.reader ≠ .stopped := fun hr => hm2 (o2.stopped hr hc2)
    have key : s3.closed = true ∨ s2.now ≤ s3.armed ∨
        (s3.now = s2.now ∧ (s3.reader = .resetting ∨ (s3.reader = .reading ∧ 0 < s3.inbox))) := by
      refine (hx.inv (P := fun _ s3 => s2.now ≤ s3.now ∧ (s3.closed = false → s3.worker = true) ∧ (s3.closed = true ∨ s2.now ≤ s3.armed ∨
        (s3.now = s2.now ∧ (s3.reader = .resetting ∨ (s3.reader = .reading ∧ 0 < s3.inbox))))) ?_ ?_).2.2
      · refine ⟨Nat.le_refl _, fun hc => (o2.fresh hc).1, .inr (.inr ⟨rfl, ?_⟩)⟩
        cases hr : s2.reader with
        | resetting => exact .inl rfl
        | reading => exact .inr ⟨rfl, hi⟩
        | stopped => exact absurd hr hr2
      · rintro tr s e s' _ ⟨i1, i2, i3⟩ hs
        cases hs with
        | tick hb =>
          simp only [busy] at hb
          grind
        | _ => grind
    rcases key with k | k | ⟨k, -⟩
    · rw [hc] at k; cases k
    · omega
    · omega

/-- C68: a connection on which nothing was read and nothing written for more than the expire time is closed, whatever else arrived. -/
theorem C68_idle {before mid : List Expiry.Ev} {s : Expiry.Sys} (h : Exec (Expiry.Step T) Expiry.new (before ++ mid) s)
    (hr : .read ∉ mid) (hw : .wrote ∉ mid) (ht : T < ticks mid) : s.closed = true := by
  obtain ⟨s1, h1, hm⟩ := h.split
  have o := ok_of h
  have o1 := ok_of h1
  have hn := now_eq hm
  have key : s.closed = true ∨ s.now = s1.now ∨ (s.armed ≤ s1.now ∧ s.reader ≠ .resetting) := by
    refine (hm.inv (P := fun tr s => .read ∉ tr → .wrote ∉ tr → (s.closed = false → s.worker = true) ∧ s.armed ≤ s.now ∧
      (s.closed = true ∨ s.now = s1.now ∨ (s.armed ≤ s1.now ∧ s.reader ≠ .resetting))) ?_ ?_ hr hw).2.2
    · exact fun _ _ => ⟨fun hc => (o1.fresh hc).1, o1.armed, .inr (.inl rfl)⟩
    · intro tr s e s' _ ih hs h1 h2
      simp only [List.mem_append, List.mem_singleton, not_or] at h1 h2
      obtain ⟨i1, i2, i3⟩ := ih h1.1 h2.1
      cases hs with
      | tick hb =>
        simp only [busy] at hb
        grind
      | _ => grind
  cases hc : s.closed with
  | true => rfl
  | false =>
    have := (o.fresh hc).2
    rw [hc] at key
    rcases key with k | k | ⟨k, -⟩
    · cases k
    · omega
    · omega

/-- C68: once the client has closed its side, the connection is closed before the clock moves, unless reading had ended with malformed bytes; and
nothing more arrives. -/
theorem C68_ended {before mid : List Expiry.Ev} {s : Expiry.Sys} (h : Exec (Expiry.Step T) Expiry.new (before ++ .ended :: mid) s) :
    (0 < ticks mid → .malformed ∉ before → s.closed = true) ∧ .ended ∉ before ++ mid ∧ .arrived ∉ mid ∧ .bytes ∉ mid ∧ .malformed ∉ mid := by
  rw [show before ++ Expiry.Ev.ended :: mid = (before ++ [.ended]) ++ mid by simp] at h
  obtain ⟨s2, h2, hx⟩ := h.split
  obtain ⟨s1, h1, hs⟩ := h2.split_snoc
  have e1 : .ended ∉ before ∧ s2.ended = true := by
    have : s1.ended = false → .ended ∉ before := by
      refine h1.inv (P := fun tr s => s.ended = false → .ended ∉ tr) (by simp) ?_
      intro tr s e s' _ ih hs
      cases hs <;> grind
    cases hs with | ended h => exact ⟨this h, rfl⟩
  have key := hx.inv (P := fun tr s => s.ended = true ∧ .ended ∉ tr ∧ .arrived ∉ tr ∧ .bytes ∉ tr ∧ .malformed ∉ tr) ⟨e1.2, by simp⟩ (by
    intro tr s e s' _ ih hs
    cases hs <;> grind)
  refine ⟨fun ht hm => ?_, by simp [e1.1, key.2.1], key.2.2⟩
  have o2 := ok_of h2
  have hm2 : .malformed ∉ before ++ [.ended] := by simp [hm]
  have : s.closed = true ∨ s.now = s2.now := by
    refine (hx.inv (P := fun tr s => s.ended = true ∧ (s.closed = false → s.worker = true) ∧ (s.closed = false → s.reader ≠ .stopped) ∧
      (s.closed = true ∨ s.now = s2.now)) ⟨e1.2, fun hc => (o2.fresh hc).1, fun hc hr => hm2 (o2.stopped hr hc), .inr rfl⟩ ?_).2.2.2
    rintro tr s e s' _ ⟨i1, i2, i3, i4⟩ hs
    cases hs with
    | tick hb =>
      simp only [busy] at hb
      cases hr : s.reader <;> grind
    | _ => grind
  have hn := now_eq hx
  rcases this with h | h
  · exact h
  · omega

/-- C68: the goroutines of the server come to rest: as long as the clock stands still and nothing arrives they can do only so many steps. -/
theorem C68_settles {s s' : Expiry.Sys} {tr : List Expiry.Ev} (h : Exec (Expiry.Step T) s tr s') (ho : ∀ e ∈ tr, ¬ Outside e) :
    tr.length ≤ 2 * s.inbox + s.writers + 3 := by
  let m (s : Expiry.Sys) : Nat := 2 * s.inbox + s.writers + (match s.reader with | .resetting => 2 | .reading => 1 | .stopped => 0) +
    (if s.worker = true then 1 else 0)
  have hm : m s ≤ 2 * s.inbox + s.writers + 3 := by
    simp only [m]
    split <;> split <;> omega
  have : m s' + tr.length ≤ m s := by
    refine h.inv (P := fun tr s' => (∀ e ∈ tr, ¬ Outside e) → m s' + tr.length ≤ m s) (by simp) ?_ ho
    intro tr s1 e s2 _ ih hs hc
    have ih := ih fun e he => hc e (by simp [he])
    have hce := hc e (by simp)
    cases hs <;> simp [m, Outside] at hce ih ⊢ <;> grind
  omega

/-- C68: and then the clock moves. -/
theorem C68_time_passes {s : Expiry.Sys} (hr : ∀ e s', Expiry.Step T s e s' → Outside e) : ∃ s', Expiry.Step T s .tick s' := by
  refine ⟨_, .tick fun hb => ?_⟩
  rcases hb with ⟨hw, hb⟩ | ⟨h1, hb⟩
  · rcases hb with hb | hb | hb | hb
    · exact hr _ _ (.readReset hw hb)
    · exact hr _ _ (.wrote hw hb)
    · exact hr _ _ (.workerLeft hw hb)
    · cases hc : s.closed with
      | true => exact hr _ _ (.workerLeft hw hc)
      | false => exact hr _ _ (.expire hw hc hb)
  · by_cases hi : 0 < s.inbox
    · exact hr _ _ (.read h1 hi)
    · rcases hb with hb | hb | hb
      · exact hi hb
      · exact hr _ _ (.readFailed h1 hb)
      · exact hr _ _ (.left h1 (by omega) hb)

theorem trickle (n : Nat) (hn : n ≤ T) : ∃ s, Exec (Expiry.Step T) Expiry.new (.readReset :: (List.replicate n [.bytes, .tick]).flatten) s ∧
    s.now = n ∧ s.armed = 0 ∧ s.worker = true ∧ s.closed = false ∧ s.reader = .reading ∧ s.inbox = 0 ∧ s.ended = false ∧ s.writers = 0 := by
  induction n with
  | zero => exact ⟨_, by simpa using Exec.one (s0 := Expiry.new) (step := Expiry.Step T) (.readReset rfl rfl), rfl, rfl, rfl, rfl, rfl, rfl, rfl, rfl⟩
  | succ n ih =>
    have e : (.readReset :: (List.replicate (n + 1) [.bytes, .tick]).flatten : List Expiry.Ev) =
        (.readReset :: (List.replicate n [.bytes, .tick]).flatten) ++ [.bytes] ++ [.tick] := by
      rw [List.replicate_succ']
      simp
    rw [e]
    obtain ⟨s, h1, h2, h3, h4, h5, h6, h7, h8, h9⟩ := ih (by omega)
    refine ⟨_, .snoc (.snoc h1 (.bytes h8)) (.tick ?_), ?_, h3, h4, h5, h6, h7, h8, h9⟩
    · simp [busy, h2, h3, h4, h5, h6, h7, h8, h9]; omega
    · simp [h2]

/-- C68: bytes of a request that is not complete do not count. Whatever the expire time, a client that sends bytes at every
instant is cut off in the middle of its request. -/
theorem C68_bytes_do_not_count (T : Nat) : ∃ tr s, Exec (Expiry.Step T) Expiry.new (tr ++ [.expired]) s ∧ ticks tr = T ∧
    tr = .readReset :: (List.replicate T [.bytes, .tick]).flatten := by
  obtain ⟨s, h1, h2, h3, h4, h5, -⟩ := trickle (T := T) T (Nat.le_refl _)
  refine ⟨_, _, .snoc h1 (.expire h4 h5 (by omega)), ?_, rfl⟩
  clear s h1 h2 h3 h4 h5
  simp only [ticks, List.count_cons]
  induction T with
  | zero => rfl
  | succ n ih => simp only [List.replicate_succ, List.flatten_cons, List.count_append] at ih ⊢; simp at ih ⊢; omega

/-- C68: a connection does not get by with one timer. For every number there is a connection that holds more timers at its very
first instant. -/
theorem C68_timers_pile_up (T n : Nat) : ∃ tr s, Exec (Expiry.Step T) Expiry.new tr s ∧ ticks tr = 0 ∧ n < s.timers.length := by
  suffices h : ∀ n, ∃ tr s, Exec (Expiry.Step T) Expiry.new tr s ∧ ticks tr = 0 ∧ n < s.timers.length ∧ s.reader = .reading ∧ s.worker = true ∧
      s.ended = false by
    obtain ⟨tr, s, h1, h2, h3, -⟩ := h n
    exact ⟨tr, s, h1, h2, h3⟩
  intro n
  induction n with
  | zero => exact ⟨_, _, .snoc .nil (.readReset rfl rfl), by simp [ticks], by simp [Expiry.new], rfl, rfl, rfl⟩
  | succ n ih =>
    obtain ⟨tr, s, h1, h2, h3, h4, h5, h6⟩ := ih
    refine ⟨_, _, .snoc (.snoc (.snoc h1 (.arrive h6)) (.read h4 (Nat.succ_pos _))) (.readReset h5 rfl), ?_, ?_, rfl, h5, h6⟩
    · simpa [ticks, List.count_append] using h2
    · simp; omega

theorem startedFrom_append (now : Nat) (a b : List Expiry.Ev) : startedFrom now (a ++ b) = startedFrom now a ++ startedFrom (now + ticks a) b := by
  induction a generalizing now with
  | nil => simp [startedFrom, ticks]
  | cons e a ih =>
    have ht : ∀ e, ticks (e :: a) = ticks a + if e = .tick then 1 else 0 := fun e => by simp [ticks, List.count_cons]
    cases e <;> simp [startedFrom, ih, ht, Nat.add_comm (ticks a) 1, Nat.add_assoc]

theorem startedFrom_le {now t : Nat} {a : List Expiry.Ev} (h : t ∈ startedFrom now a) : t ≤ now + ticks a := by
  induction a generalizing now with
  | nil => cases h
  | cons e a ih =>
    cases e <;> simp only [startedFrom, List.mem_cons] at h <;> simp [ticks] at ih ⊢
    case tick => have := ih h; omega
    case readReset => rcases h with rfl | h; · omega
                      · exact ih h
    case wrote => rcases h with rfl | h; · omega
                  · exact ih h
    all_goals exact ih h

/-- C68: the timers a connection holds are those that were started less than the expire time ago, and those that were started just now, whether
anybody waits for them or not and whether the connection is closed or not. -/
theorem C68_timers {tr : List Expiry.Ev} {s : Expiry.Sys} (h : Exec (Expiry.Step T) Expiry.new tr s) :
    s.timers.reverse = (started tr).filter fun t => ticks tr < t + T ∨ t = ticks tr := by
  refine (h.inv (P := fun tr s => s.now = ticks tr ∧ s.timers.reverse = (started tr).filter fun t => ticks tr < t + T ∨ t = ticks tr) ?_ ?_).2
  · simp [Expiry.new, started, startedFrom, ticks]
  · rintro tr s e s' _ ⟨hn, ih⟩ hs
    have hn' := hn
    have hk : ∀ e, e ≠ .tick → ticks (tr ++ [e]) = ticks tr := fun e he => by simp [ticks, he]
    have ht : ticks (tr ++ [.tick]) = ticks tr + 1 := by simp [ticks]
    simp only [started] at ih ⊢
    cases hs with
    | tick hb =>
      refine ⟨by simp [ht, hn], ?_⟩
      rw [← List.filter_reverse, ih, List.filter_filter, ht, startedFrom_append, hn]
      simp only [startedFrom, List.append_nil]
      refine List.filter_congr fun t hm => ?_
      have hle : t ≤ ticks tr := by
        rcases List.mem_cons.1 hm with rfl | hm
        · omega
        · have := startedFrom_le hm; omega
      simp only [← Bool.decide_and, decide_eq_decide]
      omega
    | readReset _ _ =>
      rw [hk _ (by simp)]
      refine ⟨hn, ?_⟩
      rw [startedFrom_append, ← List.cons_append, List.filter_append, ← ih]
      simp [startedFrom, hn]
    | wrote _ _ =>
      rw [hk _ (by simp)]
      refine ⟨hn, ?_⟩
      rw [startedFrom_append, ← List.cons_append, List.filter_append, ← ih]
      simp [startedFrom, hn]
    | _ =>
      rw [hk _ (by simp)]
      refine ⟨hn, ?_⟩
      rw [startedFrom_append]
      simpa [startedFrom] using ih

/-- C68: once a connection has expired, or its client has left, no further reply gets as far as waiting to be written to it. -/
theorem C68_no_writes {before after : List Expiry.Ev} {e : Expiry.Ev} {s : Expiry.Sys} (he : e = .expired ∨ e = .left)
    (h : Exec (Expiry.Step T) Expiry.new (before ++ e :: after) s) : .writeCall ∉ after := by
  intro hm
  obtain ⟨a, b, rfl⟩ := List.append_of_mem hm
  rw [List.append_cons] at h
  obtain ⟨s1, h1, h2⟩ := h.split
  obtain ⟨s0, h0, hs⟩ := h1.split_snoc
  have hc : s1.closed = true := by rcases he with rfl | rfl <;> cases hs <;> rfl
  rw [List.append_cons] at h2
  obtain ⟨s2, h3, -⟩ := h2.split
  obtain ⟨s3, h4, hw⟩ := h3.split_snoc
  cases hw with
  | writeCall hx => rw [(closed_mono h4).1 hc] at hx; cases hx

/-! ### examples -/

/-- The hypotheses of `C68_no_writes`, with a call of `Write` that was waiting already. -/
example : ∃ before after s, Exec (Expiry.Step 2) Expiry.new (before ++ .left :: after) s ∧ .writeCall ∈ before ∧ .wrote ∈ after :=
  ⟨[.ended, .readReset, .writeCall], [.wrote], _, .snoc (.snoc (.snoc (.snoc (.snoc .nil (.ended rfl)) (.readReset rfl rfl)) (.writeCall rfl)) (.left rfl rfl rfl))
    (.wrote rfl (by simp)), by simp, by simp⟩

example : started [.readReset, .tick, .arrived, .read, .readReset, .tick, .writeCall, .wrote, .tick] = [0, 0, 1, 2] := rfl

/-- With an expire time of 2: a request, its reply one tick later, and the end two ticks after that. -/
theorem expiry_sample : ∃ s, Exec (Expiry.Step 2) Expiry.new ([.readReset, .tick] ++ .arrived :: [.read, .readReset, .tick, .writeCall] ++
    .wrote :: [.bytes, .tick, .tick] ++ [.expired]) s ∧ s.closed = true := by
  refine ⟨_, .snoc (.snoc (.snoc (.snoc (.snoc (.snoc (.snoc (.snoc (.snoc (.snoc (.snoc (.snoc .nil (.readReset rfl rfl)) (.tick ?_)) (.arrive rfl))
    (.read rfl ?_)) (.readReset rfl rfl)) (.tick ?_)) (.writeCall rfl)) (.wrote rfl ?_)) (.bytes rfl)) (.tick ?_)) (.tick ?_)) (.expire rfl rfl ?_), rfl⟩
  all_goals simp [busy, Expiry.new]

example : ∃ before mid s, Exec (Expiry.Step 2) Expiry.new (before ++ .wrote :: mid ++ [.expired]) s ∧ ticks mid = 2 :=
  expiry_sample.elim fun s h => ⟨_, _, s, h.1, rfl⟩

example : ∃ before mid s, Exec (Expiry.Step 2) Expiry.new (before ++ .arrived :: mid ++ [.expired]) s ∧ .malformed ∉ before ∧ ticks mid = 3 :=
  expiry_sample.elim fun s h => ⟨[.readReset, .tick], [.read, .readReset, .tick, .writeCall, .wrote, .bytes, .tick, .tick], s, h.1, by simp, rfl⟩

example : ∃ before s, Exec (Expiry.Step 2) Expiry.new (before ++ [.expired]) s ∧ ticks before = 4 :=
  expiry_sample.elim fun s h => ⟨_, s, h.1, rfl⟩

example : ∃ before mid s, Exec (Expiry.Step 2) Expiry.new (before ++ mid) s ∧ .read ∉ mid ∧ .wrote ∉ mid ∧ 2 < ticks mid ∧ .bytes ∈ mid := by
  refine ⟨[.readReset, .arrived, .read], [.readReset, .tick, .bytes, .tick, .expired, .readFailed, .tick], _,
    .snoc (.snoc (.snoc (.snoc (.snoc (.snoc (.snoc (.snoc (.snoc (.snoc .nil (.readReset rfl rfl)) (.arrive rfl)) (.read rfl ?_)) (.readReset rfl rfl))
    (.tick ?_)) (.bytes rfl)) (.tick ?_)) (.expire rfl rfl ?_)) (.readFailed rfl rfl)) (.tick ?_), by simp, by simp, by decide, by simp⟩
  all_goals simp [busy, Expiry.new]

example : ∃ before mid s, Exec (Expiry.Step 2) Expiry.new (before ++ .ended :: mid) s ∧ 0 < ticks mid ∧ .malformed ∉ before := by
  refine ⟨[.readReset, .arrived], [.read, .readReset, .left, .workerLeft, .tick], _,
    .snoc (.snoc (.snoc (.snoc (.snoc (.snoc (.snoc (.snoc .nil (.readReset rfl rfl)) (.arrive rfl)) (.ended rfl)) (.read rfl ?_)) (.readReset rfl rfl))
    (.left rfl rfl rfl)) (.workerLeft rfl rfl)) (.tick ?_), by decide, by simp⟩
  all_goals simp [busy, Expiry.new]

example : ∃ s s' tr, Exec (Expiry.Step 2) s tr s' ∧ (∀ e ∈ tr, ¬ Outside e) ∧ tr = [.readReset, .read, .readReset, .wrote] :=
  ⟨{ Expiry.new with inbox := 1, writers := 1 }, _, _,
    .snoc (.snoc (.snoc (.snoc .nil (.readReset rfl rfl)) (.read rfl (by simp))) (.readReset rfl rfl)) (.wrote rfl (by simp)), by simp [Outside], rfl⟩

example : ∃ s, Reach (Expiry.Step 2) Expiry.new s ∧ ∀ e s', Expiry.Step 2 s e s' → Outside e := by
  refine ⟨_, ⟨_, .snoc .nil (.readReset rfl rfl)⟩, ?_⟩
  intro e s' hs
  cases hs <;> simp_all [Outside, Expiry.new]

end Verif.Props
