import Verif.Spec.Topic
import Verif.Lemmas.LTS
import Verif.Lemmas.GoMap
import Verif.Lemmas.DataMap

/-! Invariants of the topic. -/

namespace Verif

open Spec Topic
open Fut (upd)

theorem runOf_append (d : Nat) (t u : List Topic.Ev) : runOf d (t ++ u) = runOf d t ++ runOf d u := by
  induction t with
  | nil => rfl
  | cons a t ih => cases a <;> simp [runOf, ih] <;> split <;> simp

theorem namesOf_append (t u : List Topic.Ev) : namesOf (t ++ u) = namesOf t ++ namesOf u := by
  induction t with
  | nil => rfl
  | cons a t ih => cases a <;> simp [namesOf, ih]

theorem acceptedBy_append (t u : List DEv) : acceptedBy (t ++ u) = acceptedBy t ++ acceptedBy u := by
  induction t with
  | nil => rfl
  | cons a t ih =>
    cases a
    case tried n id r => cases r <;> simp [acceptedBy, ih]
    all_goals simp [acceptedBy, ih]

/-- The goroutine has started and not ended. -/
def Topic.SPc.active : SPc → Bool
  | .sending _ | .reporting | .adding | .ending => true
  | _ => false

/-- What holds for a run after the events `es`, whatever the other goroutines do. -/
structure DistInv (es : List DEv) (d : Dist) : Prop where
  visited : ∀ n, n ∈ d.visited ↔ d.snd n ≠ .none
  nodup : d.visited.Nodup
  active : ∃ ps : List Bytes, ps.Nodup ∧ (∀ n, n ∈ ps ↔ (d.snd n).active = true) ∧ d.wg = ps.length
  adding : ∃ ps : List Bytes, ps.Nodup ∧ (∀ n, n ∈ ps ↔ d.snd n = .adding) ∧ Proto.wrap32 (d.count + ps.length) = Proto.wrap32 (acceptedBy es).length
  range : Proto.wrap32 d.count = d.count
  names : ∀ n id, (n, id) ∈ acceptedBy es → ∃ p, d.snd n = p ∧ p ≠ .none ∧ ∀ i, p ≠ .sending i
  once : ((acceptedBy es).map Prod.fst).Nodup
  after : (d.pc = .called ∨ d.pc = .ranging ∨ d.pc = .waiting) ∨ ∀ n, (d.snd n).active = false
  early : d.pc = .called → d.visited = []
  open_ : d.pc = .called ∨ d.pc = .ranging ∨ d.pc = .waiting ∨ d.pc = .closing → d.chClosed = false
  published : (∃ n, .published n ∈ es) ↔ ¬ (d.pc = .called ∨ d.pc = .ranging ∨ d.pc = .waiting)
  crash : .crash ∉ es
  value : ∀ n, .published n ∈ es → n = Proto.wrap32 (acceptedBy es).length
  shut : d.pc = .spawning ∨ (∃ ks, d.pc = .cleaning ks) → d.chClosed = true
  left : d.collecting = false → d.chClosed = true ∧ d.collector = Option.none

theorem distInv_new : DistInv [] Dist.new := by
  refine ⟨by simp [Dist.new], by simp [Dist.new], ⟨[], by simp [Dist.new, SPc.active]⟩, ⟨[], by simp [Dist.new, acceptedBy]⟩, by simp [Dist.new, Proto.wrap32],
    by simp [acceptedBy], by simp [acceptedBy], by simp [Dist.new], by simp [Dist.new], by simp [Dist.new], by simp [Dist.new], by simp, by simp, by simp [Dist.new],
    by simp [Dist.new]⟩

theorem distInv_step {subs : GoMap Nat} {closed : Nat → Bool} {es : List DEv} {d d' : Dist} {e : DEv} (h : DistInv es d)
    (hs : DStep subs closed d e d') : DistInv (es ++ [e]) d' := by
  obtain ⟨h1, h2, ⟨ps, p1, p2, p3⟩, ⟨as, a1, a2, a3⟩, h5, h6, h7, h8, h9, h10, h11, h12, h13, h14, h15⟩ := h
  cases hs with
  | start hp =>
    refine ⟨h1, h2, ⟨ps, p1, p2, p3⟩, ⟨as, a1, a2, ?_⟩, h5, ?_, ?_, ?_, ?_, ?_, ?_, ?_, ?_, ?_, ?_⟩ <;> (try simp only [acceptedBy_append, acceptedBy, List.append_nil] at *) <;> grind
  | visit name id hp hw hv =>
    have hn : d.snd name = .none := by grind
    refine ⟨?_, ?_, ⟨name :: ps, ?_, ?_, ?_⟩, ⟨as, a1, ?_, ?_⟩, h5, ?_, ?_, ?_, ?_, ?_, ?_, ?_, ?_, ?_, ?_⟩ <;> (try simp only [acceptedBy_append, acceptedBy, List.append_nil] at *) <;> grind [put, SPc.active]
  | ranged hp hd =>
    refine ⟨h1, h2, ⟨ps, p1, p2, p3⟩, ⟨as, a1, a2, ?_⟩, h5, ?_, ?_, ?_, ?_, ?_, ?_, ?_, ?_, ?_, ?_⟩ <;> (try simp only [acceptedBy_append, acceptedBy, List.append_nil] at *) <;> grind
  | sent name id hp =>
    refine ⟨?_, h2, ⟨ps, p1, ?_, p3⟩, ⟨name :: as, ?_, ?_, ?_⟩, h5, ?_, ?_, ?_, ?_, ?_, ?_, ?_, ?_, ?_, ?_⟩ <;> (try simp only [acceptedBy_append, acceptedBy] at *)
    case refine_5 =>
      have := congrArg (fun x => Proto.wrap32 (x + 1)) a3
      simp only [wrap32_wrap32_add] at this
      simpa [Int.add_assoc] using this
    all_goals grind [put, SPc.active]
  | sendClosed name id hp hc =>
    refine ⟨?_, h2, ⟨ps, p1, ?_, p3⟩, ⟨as, a1, ?_, ?_⟩, h5, ?_, ?_, ?_, ?_, ?_, ?_, ?_, ?_, ?_, ?_⟩ <;> (try simp only [acceptedBy_append, acceptedBy, List.append_nil] at *) <;> grind [put, SPc.active]
  | sendExpired name id hp =>
    refine ⟨?_, h2, ⟨ps, p1, ?_, p3⟩, ⟨as, a1, ?_, ?_⟩, h5, ?_, ?_, ?_, ?_, ?_, ?_, ?_, ?_, ?_, ?_⟩ <;> (try simp only [acceptedBy_append, acceptedBy, List.append_nil] at *) <;> grind [put, SPc.active]
  | count name hp =>
    have hm : name ∈ as := (a2 name).2 hp
    have hl := List.length_erase_of_mem hm
    have hl' := List.length_pos_of_mem hm
    refine ⟨?_, h2, ⟨ps, p1, ?_, p3⟩, ⟨as.erase name, a1.erase _, ?_, ?_⟩, ?_, ?_, ?_, ?_, ?_, ?_, ?_, ?_, ?_, ?_, ?_⟩ <;> (try simp only [acceptedBy_append, acceptedBy, List.append_nil] at *)
    case refine_4 =>
      rw [← a3, wrap32_wrap32_add, hl]
      congr 1; omega
    case refine_5 => simpa using wrap32_wrap32_add (d.count + 1) 0
    all_goals grind [put, SPc.active, List.Nodup.mem_erase_iff]
  | report name hp hc hl hn =>
    refine ⟨?_, h2, ⟨ps, p1, ?_, p3⟩, ⟨as, a1, ?_, ?_⟩, h5, ?_, ?_, ?_, ?_, ?_, ?_, ?_, ?_, ?_, ?_⟩ <;> (try simp only [acceptedBy_append, acceptedBy, List.append_nil] at *) <;> grind [put, SPc.active]
  | crash name hp hc => exfalso; grind [SPc.active]
  | collect name hp =>
    refine ⟨h1, h2, ⟨ps, p1, p2, p3⟩, ⟨as, a1, a2, ?_⟩, h5, ?_, ?_, ?_, ?_, ?_, ?_, ?_, ?_, ?_, ?_⟩ <;> (try simp only [acceptedBy_append, acceptedBy, List.append_nil] at *) <;> grind
  | collectorLeft hp hn hc =>
    refine ⟨h1, h2, ⟨ps, p1, p2, p3⟩, ⟨as, a1, a2, ?_⟩, h5, ?_, ?_, ?_, ?_, ?_, ?_, ?_, ?_, ?_, ?_⟩ <;> (try simp only [acceptedBy_append, acceptedBy, List.append_nil] at *) <;> grind
  | finish name hp =>
    have hm : name ∈ ps := (p2 name).2 (by simp [hp, SPc.active])
    have hl := List.length_erase_of_mem hm
    have hl' := List.length_pos_of_mem hm
    refine ⟨?_, h2, ⟨ps.erase name, p1.erase _, ?_, ?_⟩, ⟨as, a1, ?_, ?_⟩, h5, ?_, ?_, ?_, ?_, ?_, ?_, ?_, ?_, ?_, ?_⟩ <;> (try simp only [acceptedBy_append, acceptedBy, List.append_nil] at *) <;> grind [put, SPc.active, List.Nodup.mem_erase_iff]
  | publish hp hw =>
    have he : ps = [] := by
      have : ps.length = 0 := by omega
      simpa using this
    have ha : as = [] := by
      refine List.eq_nil_iff_forall_not_mem.2 fun n hn => ?_
      have := (p2 n).2 (by simp [(a2 n).1 hn, SPc.active])
      simp [he] at this
    have hv : d.count = Proto.wrap32 (acceptedBy es).length := by
      rw [← h5, ← a3, ha]; simp
    refine ⟨h1, h2, ⟨ps, p1, p2, p3⟩, ⟨as, a1, a2, ?_⟩, h5, ?_, ?_, ?_, ?_, ?_, ?_, ?_, ?_, ?_, ?_⟩ <;> (try simp only [acceptedBy_append, acceptedBy, List.append_nil] at *) <;> grind
  | close hp =>
    refine ⟨h1, h2, ⟨ps, p1, p2, p3⟩, ⟨as, a1, a2, ?_⟩, h5, ?_, ?_, ?_, ?_, ?_, ?_, ?_, ?_, ?_, ?_⟩ <;> (try simp only [acceptedBy_append, acceptedBy, List.append_nil] at *) <;> grind
  | spawn hp =>
    refine ⟨h1, h2, ⟨ps, p1, p2, p3⟩, ⟨as, a1, a2, ?_⟩, h5, ?_, ?_, ?_, ?_, ?_, ?_, ?_, ?_, ?_, ?_⟩ <;> (try simp only [acceptedBy_append, acceptedBy, List.append_nil] at *) <;> grind

theorem DistInv.stored {es : List DEv} {d : Dist} (h : DistInv es d) (n : Bytes) (id : Nat) : DistInv es (d.stored n id) := by
  obtain ⟨h1, h2, h3, h4, h5, h6, h7, h8, h9, h10, h11, h12, h13, h14, h15⟩ := h
  exact ⟨h1, h2, h3, h4, h5, h6, h7, h8, h9, h10, h11, h12, h13, h14, h15⟩

theorem DistInv.deleted {es : List DEv} {d : Dist} (h : DistInv es d) (n : Bytes) : DistInv es (d.deleted n) := by
  obtain ⟨h1, h2, h3, h4, h5, h6, h7, h8, h9, h10, h11, h12, h13, h14, h15⟩ := h
  exact ⟨h1, h2, h3, h4, h5, h6, h7, h8, h9, h10, h11, h12, h13, h14, h15⟩

theorem DistInv.cleaning {es : List DEv} {d : Dist} {ks ks' : List Bytes} (h : DistInv es d) (hp : d.pc = .cleaning ks) :
    DistInv es { d with pc := .cleaning ks' } := by
  obtain ⟨h1, h2, h3, h4, h5, h6, h7, h8, h9, h10, h11, h12, h13, h14, h15⟩ := h
  rw [hp] at h8 h11
  exact ⟨h1, h2, h3, h4, h5, h6, h7, by simpa using h8, by simp, by simp, by simpa using h11, h12, h13, fun _ => h14 (.inr ⟨ks, hp⟩), h15⟩

theorem current_nil (n : Bytes) (id : Nat) : ¬ Current [] n id := by
  rintro ⟨b, a, e, -⟩
  simp at e

theorem current_snoc (tr : List Topic.Ev) (x : Topic.Ev) (n : Bytes) (id : Nat) :
    Current (tr ++ [x]) n id ↔ x = .subscribed n id ∨ ((∀ i, x ≠ .subscribed n i) ∧ (∀ d, x ≠ .deleted d n) ∧ Current tr n id) := by
  constructor
  · rintro ⟨b, a, e, h1, h2⟩
    rcases List.eq_nil_or_concat a with rfl | ⟨a', y, rfl⟩
    · obtain ⟨rfl, e2⟩ := List.append_inj' e rfl
      exact .inl (by simpa using e2)
    · rw [List.concat_eq_append, ← List.cons_append, ← List.append_assoc] at e
      obtain ⟨e1, e2⟩ := List.append_inj' e rfl
      have e2 : x = y := by simpa using e2
      subst e2
      exact .inr ⟨fun i hx => h1 i (by simp [hx]), fun i hx => h2 i (by simp [hx]), b, a', e1, fun i hx => h1 i (by simp [hx]), fun i hx => h2 i (by simp [hx])⟩
  · rintro (rfl | ⟨h1, h2, b, a, rfl, h3, h4⟩)
    · exact ⟨tr, [], rfl, by simp, by simp⟩
    · refine ⟨b, a ++ [x], by simp, fun i hi => ?_, fun i hi => ?_⟩
      · rcases List.mem_append.1 hi with hi | hi
        · exact h3 i hi
        · exact h1 i (List.mem_singleton.1 hi).symm
      · rcases List.mem_append.1 hi with hi | hi
        · exact h4 i hi
        · exact h2 i (List.mem_singleton.1 hi).symm

/-- The name was subscribed and that subscription closed. -/
def Gone (tr : List Topic.Ev) (n : Bytes) : Prop := ∃ id, .subscribed n id ∈ tr ∧ .closed id ∈ tr

/-- How a run relates to the map and to what happened. -/
structure RunInv (tr : List Topic.Ev) (subs : GoMap Nat) (x : Dist) : Prop where
  past : ∀ n id, (n, id) ∈ x.window → .subscribed n id ∈ tr
  sending : ∀ n id, x.snd n = .sending id → .subscribed n id ∈ tr
  visited : ∀ n ∈ x.visited, n ∈ namesOf tr
  due : ∀ n ∈ x.due, ∃ id, (n, id) ∈ x.window
  reporting : ∀ n, x.snd n = .reporting → Gone tr n
  collector : ∀ n, x.collector = some n → Gone tr n
  keys : ∀ n ∈ x.keys, Gone tr n
  cleaning : ∀ ks, x.pc = .cleaning ks → ∀ n ∈ ks, Gone tr n

/-- What holds in every reachable state of a topic. -/
structure TopicInv (tr : List Topic.Ev) (s : Sys) : Prop where
  wf : s.subscribers.WF
  map : ∀ n id, s.subscribers.get n = some id ↔ Current tr n id
  fresh : ∀ n id, .subscribed n id ∈ tr → id < s.made
  closedMade : ∀ id, .closed id ∈ tr → id < s.made
  closed : ∀ id, s.closed id = true ↔ .closed id ∈ tr
  none : ∀ d, s.dists d = none → runOf d tr = []
  dist : ∀ d x, s.dists d = some x → DistInv (runOf d tr) x
  run : ∀ d x, s.dists d = some x → RunInv tr s.subscribers x

theorem mem_namesOf {tr : List Topic.Ev} {n : Bytes} : n ∈ namesOf tr ↔ ∃ id, .subscribed n id ∈ tr := by
  induction tr with
  | nil => simp [namesOf]
  | cons a t ih => cases a <;> simp [namesOf, ih, exists_or]

theorem current_mem {tr : List Topic.Ev} {n : Bytes} {id : Nat} (h : Current tr n id) : .subscribed n id ∈ tr := by
  obtain ⟨b, a, rfl, -⟩ := h
  simp

theorem RunInv.mono {tr : List Topic.Ev} {subs subs' : GoMap Nat} {x : Dist} (h : RunInv tr subs x) (e : Topic.Ev) : RunInv (tr ++ [e]) subs' x := by
  have hg : ∀ n, Gone tr n → Gone (tr ++ [e]) n := fun n ⟨i, h1, h2⟩ => ⟨i, by simp [h1], by simp [h2]⟩
  obtain ⟨h1, h2, h3, h4, h5, h6, h7, h8⟩ := h
  refine ⟨?_, ?_, ?_, h4, fun n hn => hg _ (h5 n hn), fun n hn => hg _ (h6 n hn), fun n hn => hg _ (h7 n hn), fun ks hk n hn => hg _ (h8 ks hk n hn)⟩
  · intro n id hm; simp [h1 n id hm]
  · intro n id hm; simp [h2 n id hm]
  · intro n hn; simp [namesOf_append, h3 n hn]

theorem topicInv {tr : List Topic.Ev} {s : Sys} (h : Exec Topic.Step Topic.new tr s) : TopicInv tr s := by
  refine h.inv (P := TopicInv) ?_ ?_
  · exact ⟨by simp [Topic.new], by simp [Topic.new, current_nil], by simp, by simp, by simp [Topic.new], by simp [runOf], by simp [Topic.new], by simp [Topic.new]⟩
  · intro tr s l s' _ ih hs
    obtain ⟨h0, h1, h2, h3, h4, h5, h6, h7⟩ := ih
    cases hs with
    | subscribe name =>
      refine ⟨GoMap.wf_set h0 _ _, ?_, ?_, ?_, ?_, ?_, ?_, ?_⟩
      · intro n id
        rw [current_snoc, GoMap.get_set, ← h1]
        by_cases e : name = n <;> simp [e]
      · intro n id hm
        simp only [List.mem_append, List.mem_singleton, Ev.subscribed.injEq] at hm
        rcases hm with hm | hm
        · have := h2 n id hm; simp only; omega
        · simp only; omega
      · intro id hm
        simp only [List.mem_append, List.mem_singleton, reduceCtorEq, or_false] at hm
        have := h3 id hm; simp only; omega
      · intro id; simp [h4]
      · intro d hd
        simp only [Option.map_eq_none_iff] at hd
        simp [runOf_append, runOf, h5 d hd]
      · intro d x hd
        simp only [Option.map_eq_some_iff] at hd
        obtain ⟨y, hy, rfl⟩ := hd
        simpa [runOf_append, runOf] using (h6 d y hy).stored name s.made
      · intro d x hd
        simp only [Option.map_eq_some_iff] at hd
        obtain ⟨y, hy, rfl⟩ := hd
        have := (h7 d y hy).mono (subs' := s.subscribers.set name s.made) (.subscribed name s.made)
        obtain ⟨g1, g2, g3, g4, g5, g6, g7, g8⟩ := this
        refine ⟨?_, g2, g3, ?_, g5, g6, g7, g8⟩
        · intro n id hm
          simp only [Dist.stored, List.mem_cons, Prod.mk.injEq] at hm
          rcases hm with ⟨rfl, rfl⟩ | hm
          · simp
          · exact g1 n id hm
        · intro n hn
          obtain ⟨i, hi⟩ := g4 n hn
          exact ⟨i, by simp [Dist.stored, hi]⟩
    | close id hid =>
      refine ⟨h0, ?_, ?_, ?_, ?_, ?_, ?_, ?_⟩
      · intro n i; rw [current_snoc, ← h1]; simp
      · intro n i hm; exact h2 n i (by simpa using hm)
      · intro i hm
        simp only [List.mem_append, List.mem_singleton, Ev.closed.injEq] at hm
        rcases hm with hm | rfl
        · exact h3 i hm
        · exact hid
      · intro i
        by_cases e : i = id
        · simp [upd, e]
        · simp [upd, e, h4]
      · intro d hd; simpa [runOf_append, runOf] using h5 d hd
      · intro d x hd; simpa [runOf_append, runOf] using h6 d x hd
      · intro d x hd; exact (h7 d x hd).mono _
    | publish d hd =>
      refine ⟨h0, ?_, ?_, ?_, ?_, ?_, ?_, ?_⟩
      · intro n i; rw [current_snoc, ← h1]; simp
      · intro n i hm; exact h2 n i (by simpa using hm)
      · intro i hm; exact h3 i (by simpa using hm)
      · intro i; simp [h4]
      · intro d' hd'
        simp only [upd] at hd'
        split at hd'
        · cases hd'
        · simpa [runOf_append, runOf] using h5 d' hd'
      · intro d' x hd'
        simp only [upd] at hd'
        split at hd'
        · cases hd'
          rename_i e; subst e
          simpa [runOf_append, runOf, h5 _ hd] using distInv_new
        · simpa [runOf_append, runOf] using h6 d' x hd'
      · intro d' x hd'
        simp only [upd] at hd'
        split at hd'
        · cases hd'
          exact ⟨by simp [Dist.new], by simp [Dist.new], by simp [Dist.new], by simp [Dist.new], by simp [Dist.new], by simp [Dist.new], by simp [Dist.new], by simp [Dist.new]⟩
        · exact (h7 d' x hd').mono _
    | own d x x' e hd hst =>
      refine ⟨h0, ?_, ?_, ?_, ?_, ?_, ?_, ?_⟩
      · intro n i; rw [current_snoc, ← h1]; simp
      · intro n i hm; exact h2 n i (by simpa using hm)
      · intro i hm; exact h3 i (by simpa using hm)
      · intro i; simp [h4]
      · intro d' hd'
        simp only [upd] at hd'
        split at hd'
        · cases hd'
        · rename_i ne
          simpa [runOf_append, runOf, Ne.symm ne] using h5 d' hd'
      · intro d' y hd'
        simp only [upd] at hd'
        split at hd'
        · cases hd'
          rename_i e; subst e
          simpa [runOf_append, runOf] using distInv_step (h6 _ x hd) hst
        · rename_i ne
          simpa [runOf_append, runOf, Ne.symm ne] using h6 d' y hd'
      · intro d' y hd'
        simp only [upd] at hd'
        split at hd'
        · cases hd'
          rename_i e'; subst e'
          have g := (h7 _ x hd).mono (subs' := s.subscribers) (.own d' e)
          have di := h6 _ x hd
          obtain ⟨g1, g2, g3, g4, g5, g6, g7, g8⟩ := g
          cases hst with
          | start hp =>
            refine ⟨?_, g2, g3, ?_, g5, g6, g7, by simp⟩
            · intro n id hm
              have := current_mem ((h1 n id).1 (GoMap.get_of_mem h0 hm))
              simp [this]
            · intro n hn
              simp only [GoMap.keys, List.mem_map] at hn
              obtain ⟨⟨a, b⟩, hab, rfl⟩ := hn
              exact ⟨b, hab⟩
          | visit n id hp hw hv =>
            refine ⟨g1, ?_, ?_, g4, ?_, g6, g7, g8⟩
            · grind [put]
            · intro m hm
              simp only [List.mem_cons] at hm
              rcases hm with rfl | hm
              · exact mem_namesOf.2 ⟨id, g1 _ _ hw⟩
              · exact g3 m hm
            · grind [put]
          | ranged hp hw => exact ⟨g1, g2, g3, g4, g5, g6, g7, by simp⟩
          | sent n id hp => refine ⟨g1, ?_, g3, g4, ?_, g6, g7, g8⟩ <;> grind [put]
          | sendClosed n id hp hc =>
            refine ⟨g1, by grind [put], g3, g4, ?_, g6, g7, g8⟩
            intro m hm
            simp only [put] at hm
            split at hm
            · rename_i e; subst e
              exact ⟨id, g2 _ _ hp, by simp [(h4 id).1 hc]⟩
            · exact g5 m hm
          | sendExpired n id hp => refine ⟨g1, ?_, g3, g4, ?_, g6, g7, g8⟩ <;> grind [put]
          | count n hp => refine ⟨g1, ?_, g3, g4, ?_, g6, g7, g8⟩ <;> grind [put]
          | report n hp hc hl hn => refine ⟨g1, ?_, g3, g4, ?_, ?_, g7, g8⟩ <;> grind [put]
          | crash n hp hc => exact ⟨g1, g2, g3, g4, g5, g6, g7, g8⟩
          | collect n hp => refine ⟨g1, g2, g3, g4, g5, ?_, ?_, g8⟩ <;> grind
          | collectorLeft hp hn hc => exact ⟨g1, g2, g3, g4, g5, g6, g7, g8⟩
          | finish n hp => refine ⟨g1, ?_, g3, g4, ?_, g6, g7, g8⟩ <;> grind [put]
          | publish hp hw => exact ⟨g1, g2, g3, g4, g5, g6, g7, by simp⟩
          | close hp => exact ⟨g1, g2, g3, g4, g5, g6, g7, by simp⟩
          | spawn hp =>
            refine ⟨g1, g2, g3, g4, g5, g6, g7, ?_⟩
            intro ks hk
            cases hk
            exact g7
        · exact (h7 d' y hd').mono _
    | delete d x name rest hd hp =>
      refine ⟨GoMap.wf_erase h0 _, ?_, ?_, ?_, ?_, ?_, ?_, ?_⟩
      · intro n i; rw [current_snoc, GoMap.get_erase, ← h1]
        by_cases e : name = n <;> simp [e]
      · intro n i hm; exact h2 n i (by simpa using hm)
      · intro i hm; exact h3 i (by simpa using hm)
      · intro i; simp [h4]
      · intro d' hd'
        simp only [Option.map_eq_none_iff, upd] at hd'
        split at hd'
        · cases hd'
        · simpa [runOf_append, runOf] using h5 d' hd'
      · intro d' y hd'
        simp only [Option.map_eq_some_iff, upd] at hd'
        obtain ⟨z, hz, rfl⟩ := hd'
        split at hz
        · cases hz
          rename_i e; subst e
          simpa [runOf_append, runOf] using ((h6 _ x hd).cleaning hp).deleted name
        · simpa [runOf_append, runOf] using (h6 d' z hz).deleted name
      · intro d' y hd'
        simp only [Option.map_eq_some_iff, upd] at hd'
        obtain ⟨z, hz, rfl⟩ := hd'
        have key : ∀ z : Dist, RunInv (tr ++ [.deleted d name]) (s.subscribers.erase name) z → RunInv (tr ++ [.deleted d name]) (s.subscribers.erase name) (z.deleted name) := by
          rintro z ⟨g1, g2, g3, g4, g5, g6, g7, g8⟩
          refine ⟨g1, g2, g3, ?_, g5, g6, g7, g8⟩
          intro n hn
          exact g4 n (by simp only [Dist.deleted, List.mem_filter] at hn; exact hn.1)
        split at hz
        · cases hz
          obtain ⟨g1, g2, g3, g4, g5, g6, g7, g8⟩ := (h7 _ x hd).mono (subs' := s.subscribers.erase name) (.deleted d name)
          refine key _ ⟨g1, g2, g3, g4, g5, g6, g7, ?_⟩
          intro ks hk n hn
          cases hk
          exact g8 _ hp n (by simp [hn])
        · exact key _ ((h7 d' z hz).mono _)

end Verif
