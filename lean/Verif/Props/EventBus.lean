import Verif.Spec.EventBus
import Verif.Lemmas.GoMap
import Verif.Lemmas.RWLock

/-! # C43 – the topics of the event bus -/

namespace Verif.Props

open Spec Bus

theorem alive_nil (n : Bytes) (id : Nat) : ¬ Alive [] n id := by
  rintro ⟨b, a, e, -⟩
  simp at e

theorem alive_snoc (h : List (Op × Ret)) (x : Op × Ret) (n : Bytes) (id : Nat) :
    Alive (h ++ [x]) n id ↔ (x = (.newTopic n, .bool true) ∧ madeBy h = id) ∨ (x ≠ (.removeTopic n, .bool true) ∧ Alive h n id) := by
  constructor
  · rintro ⟨b, a, e, ha, hm⟩
    rcases List.eq_nil_or_concat a with rfl | ⟨a', y, rfl⟩
    · obtain ⟨rfl, e2⟩ := List.append_inj' e rfl
      exact .inl ⟨by simpa using e2, hm⟩
    · rw [List.concat_eq_append, ← List.cons_append, ← List.append_assoc] at e
      obtain ⟨e1, e2⟩ := List.append_inj' e rfl
      have e2 : x = y := by simpa using e2
      subst e2
      exact .inr ⟨fun hx => ha (by simp [hx]), b, a', e1, fun hx => ha (by simp [hx]), hm⟩
  · rintro (⟨rfl, hm⟩ | ⟨hx, b, a, rfl, ha, hm⟩)
    · exact ⟨h, [], rfl, by simp, hm⟩
    · refine ⟨b, a ++ [x], by simp, ?_, hm⟩
      simp only [List.mem_append, List.mem_singleton, not_or]
      exact ⟨ha, fun hh => hx hh.symm⟩

open Classical in
theorem madeBy_snoc (h : List (Op × Ret)) (x : Op × Ret) :
    madeBy (h ++ [x]) = madeBy h + if ∃ n, x = (.newTopic n, .bool true) then 1 else 0 := by
  simp only [madeBy, List.filter_append, List.length_append]
  congr 1
  obtain ⟨o, r⟩ := x
  cases o <;> cases r <;> simp
  rename_i n b
  cases b <;> simp

/-- The table says which topics are alive. -/
structure BusRel (s : State) (h : List (Op × Ret)) : Prop where
  get : ∀ n id, s.topics.get n = some id ↔ Alive h n id
  made : s.made = madeBy h

theorem bus_run {s : State} {h : List (Op × Ret)} (r : BusRel s h) (o : Op) :
    BusRel (obj.run o s).1 (h ++ [(o, (obj.run o s).2)]) ∧ BusAnswer h o (obj.run o s).2 := by
  have noop : ∀ r' : Ret, (∀ n, (o, r') ≠ (.newTopic n, .bool true)) → (∀ n, (o, r') ≠ (.removeTopic n, .bool true)) → BusRel s (h ++ [(o, r')]) := by
    intro r' h1 h2
    refine ⟨fun n id => ?_, by rw [madeBy_snoc, r.made]; simp [h1]⟩
    rw [alive_snoc, ← r.get]
    simp [h1 n, h2 n]
  have none_iff : ∀ n, s.topics.get n = none ↔ ∀ id, ¬ Alive h n id := by
    intro n
    simp only [← r.get]
    cases s.topics.get n <;> simp
  have some_iff : ∀ n, (s.topics.get n).isSome = true ↔ ∃ id, Alive h n id := by
    intro n
    simp only [← r.get, Option.isSome_iff_exists]
  cases o with
  | publish n =>
    cases hg : s.topics.get n with
    | none => simp only [obj, find, hg]; exact ⟨noop _ (by simp) (by simp), .inr ⟨rfl, (none_iff n).1 hg⟩⟩
    | some id => simp only [obj, find, hg]; exact ⟨noop _ (by simp) (by simp), .inl ⟨id, rfl, (r.get n id).1 hg⟩⟩
  | subscribe n =>
    cases hg : s.topics.get n with
    | none => simp only [obj, find, hg]; exact ⟨noop _ (by simp) (by simp), .inr ⟨rfl, (none_iff n).1 hg⟩⟩
    | some id => simp only [obj, find, hg]; exact ⟨noop _ (by simp) (by simp), .inl ⟨id, rfl, (r.get n id).1 hg⟩⟩
  | existTopic n =>
    simp only [obj, existTopic]
    exact ⟨noop _ (by simp) (by simp), _, rfl, some_iff n⟩
  | newTopic n =>
    cases hg : s.topics.get n with
    | some id =>
      simp only [obj, newTopic, hg]
      refine ⟨noop _ (by simp) (by simp), false, rfl, ?_⟩
      rw [← none_iff, hg]; simp
    | none =>
      simp only [obj, newTopic, hg]
      refine ⟨⟨fun n' id => ?_, by rw [madeBy_snoc, r.made]; simp⟩, true, rfl, by simpa using (none_iff n).1 hg⟩
      rw [alive_snoc, ← r.get, GoMap.get_set, r.made]
      by_cases e : n = n'
      · subst e; simp [hg]
      · simp [e]
  | removeTopic n =>
    cases hg : s.topics.get n with
    | none =>
      simp only [obj, removeTopic, hg]
      refine ⟨noop _ (by simp) (by simp), false, rfl, ?_⟩
      rw [← some_iff, hg]; simp
    | some id =>
      simp only [obj, removeTopic, hg]
      refine ⟨⟨fun n' id => ?_, by rw [madeBy_snoc, r.made]; simp⟩, true, rfl, by simpa [hg] using some_iff n⟩
      rw [alive_snoc, ← r.get, GoMap.get_erase]
      by_cases e : n = n'
      · subst e; simp
      · simp [e]

theorem bus_legal {h : List (Op × Ret)} {s : State} (hl : Legal obj empty h s) :
    BusRel s h ∧ ∀ before o r after, h = before ++ (o, r) :: after → BusAnswer before o r := by
  induction hl with
  | nil => exact ⟨⟨by simp [alive_nil, empty], rfl⟩, by simp⟩
  | @snoc h w o _ ih =>
    have hr := bus_run ih.1 o
    refine ⟨hr.1, ?_⟩
    intro b o' r' a e
    rcases List.eq_nil_or_concat a with rfl | ⟨a', x, rfl⟩
    · obtain ⟨rfl, e2⟩ := List.append_inj' e rfl
      simp only [List.cons.injEq, Prod.mk.injEq, and_true] at e2
      obtain ⟨rfl, rfl⟩ := e2
      exact hr.2
    · rw [List.concat_eq_append, ← List.cons_append, ← List.append_assoc] at e
      obtain ⟨rfl, -⟩ := List.append_inj' e rfl
      exact ih.2 _ _ _ _ rfl

theorem bus_writes (o : Op) (h : obj.Writes o) : obj.reads o = false := by
  obtain ⟨v, h⟩ := h
  cases o with
  | publish n => exact absurd (by simp only [obj, find]; split <;> rfl) h
  | subscribe n => exact absurd (by simp only [obj, find]; split <;> rfl) h
  | existTopic n => exact absurd rfl h
  | newTopic n => rfl
  | removeTopic n => rfl

/-- C43: any number of goroutines use the bus. There is no data race, every call takes effect at one moment between call and return, and in
the order of these moments every answer is right: `Publish` and `Subscribe` reach the topic made by the last successful `NewTopic` of the name
unless it was removed since, and `NewTopic`, `RemoveTopic` and `ExistTopic` tell the truth. -/
theorem C43_bus {tr : List (RW.Ev Op Ret)} {s : RW.Sys State Op Ret} (h : Exec (RW.Step obj) (RW.new _ _ empty) tr s) :
    .crash ∉ tr ∧ (∀ t, Orderly (actsOf t tr)) ∧
      ∀ before o r after, appliedOf tr = before ++ (o, r) :: after → BusAnswer before o r :=
  ⟨(lockInv bus_writes h).2, rw_orderly h, (bus_legal (rw_legal h)).2⟩

/-- C43: no two topics under the same name or with the same number are alive at once. -/
theorem C43_unique {tr : List (RW.Ev Op Ret)} {s : RW.Sys State Op Ret} (h : Exec (RW.Step obj) (RW.new _ _ empty) tr s) {n n' : Bytes} {id id' : Nat}
    (ha : Alive (appliedOf tr) n id) (ha' : Alive (appliedOf tr) n' id') : (n = n' → id = id') ∧ (id = id' → n = n') := by
  have r := (bus_legal (rw_legal h)).1
  constructor
  · rintro rfl
    have h1 := (r.get _ _).2 ha
    have h2 := (r.get _ _).2 ha'
    rw [h1] at h2; simpa using h2
  · rintro rfl
    obtain ⟨b, a, e, -, hm⟩ := ha
    obtain ⟨b', a', e', -, hm'⟩ := ha'
    rw [e] at e'
    have key : ∀ (b a b' a' : List (Op × Ret)) (n n' : Bytes), b ++ (Op.newTopic n, Ret.bool true) :: a = b' ++ (Op.newTopic n', Ret.bool true) :: a' →
        madeBy b = madeBy b' → n = n' := by
      intro b
      induction b with
      | nil =>
        intro a b' a' n n' e hm
        cases b' with
        | nil => simpa using And.left (by simpa using e)
        | cons x b' =>
          simp only [List.nil_append, List.cons_append, List.cons.injEq] at e
          obtain ⟨rfl, -⟩ := e
          simp [madeBy] at hm
      | cons x b ih =>
        intro a b' a' n n' e hm
        cases b' with
        | nil =>
          simp only [List.nil_append, List.cons_append, List.cons.injEq] at e
          obtain ⟨rfl, -⟩ := e
          simp [madeBy] at hm
        | cons y b' =>
          simp only [List.cons_append, List.cons.injEq] at e
          obtain ⟨rfl, e⟩ := e
          refine ih a b' a' n n' e ?_
          simp only [madeBy, List.filter_cons] at hm ⊢
          split at hm <;> simpa using hm
    exact key _ _ _ _ _ _ e' (by rw [hm, hm'])

/-- A topic is made, found, removed, missed. -/
example : ∃ s, Exec (RW.Step obj) (RW.new _ _ empty)
    [.call 1 (.newTopic b!"r"), .locked 1, .entered 1, .applied 1 (.newTopic b!"r") (.bool true), .returned 1 (.newTopic b!"r") (.bool true),
      .call 2 (.publish b!"r"), .call 3 (.removeTopic b!"r"), .locked 2, .entered 2, .applied 2 (.publish b!"r") (.topic 0),
      .returned 2 (.publish b!"r") (.topic 0), .locked 3, .entered 3, .applied 3 (.removeTopic b!"r") (.bool true)] s :=
  ⟨_, .cons (.call 1 _ rfl rfl) (.cons (.lock 1 (Op.newTopic b!"r") rfl rfl rfl rfl rfl) (.cons (.enter 1 (Op.newTopic b!"r") rfl rfl)
    (.cons (.apply 1 (Op.newTopic b!"r") rfl rfl) (.cons (.unlock 1 _ _ rfl rfl rfl) (.cons (.call 2 _ rfl rfl) (.cons (.call 3 _ rfl rfl)
      (.cons (.rlock 2 (Op.publish b!"r") rfl rfl rfl rfl) (.cons (.enter 2 (Op.publish b!"r") rfl rfl) (.cons (.apply 2 (Op.publish b!"r") rfl rfl)
        (.cons (.runlock 2 _ _ rfl rfl rfl) (.cons (.lock 3 (Op.removeTopic b!"r") rfl rfl rfl rfl rfl) (.cons (.enter 3 (Op.removeTopic b!"r") rfl rfl)
          (.one (.apply 3 (Op.removeTopic b!"r") rfl rfl))))))))))))))⟩

end Verif.Props
