import Verif.Spec.RWLock
import Verif.Lemmas.LTS

/-! Mutual exclusion and linearisability of objects behind a read-write mutex. -/

namespace Verif

open Spec RW
open Fut (upd)

variable {σ op ret : Type} {obj : Obj σ op ret} {v : σ}

theorem appliedOf_append (t u : List (RW.Ev op ret)) : appliedOf (t ++ u) = appliedOf t ++ appliedOf u := by
  induction t with
  | nil => rfl
  | cons a t ih => cases a <;> simp [appliedOf, ih]

theorem actsOf_append (i : Nat) (t u : List (RW.Ev op ret)) : actsOf i (t ++ u) = actsOf i t ++ actsOf i u := by
  induction t with
  | nil => rfl
  | cons a t ih => cases a <;> simp [actsOf, ih] <;> split <;> simp

theorem legal_cons {w : σ} {h : List (op × ret)} (o : op) (hl : Legal obj (obj.run o v).1 h w) : Legal obj v ((o, (obj.run o v).2) :: h) w := by
  induction hl with
  | nil => exact Legal.snoc (h := []) o .nil
  | snoc p _ ih => exact Legal.snoc p ih

/-- The goroutine holds the lock for method `o`. -/
def RW.Pc.inside : Pc op ret → Option op
  | .holds o | .body o | .leaving o _ => some o
  | _ => none

/-- What holds in every reachable state. -/
structure LockInv (obj : Obj σ op ret) (s : RW.Sys σ op ret) : Prop where
  nodup : s.readers.Nodup
  readers : ∀ t, t ∈ s.readers ↔ ∃ o, (s.pcs t).inside = some o ∧ obj.reads o = true
  writer : ∀ t, s.writer = some t ↔ ∃ o, (s.pcs t).inside = some o ∧ obj.reads o = false
  excl : s.writer = none ∨ s.readers = []
  fine : s.crashed = false

theorem lockInv (hobj : ∀ o, obj.Writes o → obj.reads o = false) {tr : List (RW.Ev op ret)} {s : RW.Sys σ op ret} (h : Exec (RW.Step obj) (RW.new op ret v) tr s) : LockInv obj s ∧ .crash ∉ tr := by
  refine h.inv (P := fun tr s => LockInv obj s ∧ .crash ∉ tr) ?_ ?_
  · exact ⟨⟨by simp [RW.new], by simp [RW.new, Pc.inside], by simp [RW.new, Pc.inside], .inl rfl, rfl⟩, by simp⟩
  · intro tr s l s' _ ih hs
    obtain ⟨⟨i1, i2, i3, i4, i5⟩, ih⟩ := ih
    cases hs with
    | call t o _ hp => refine ⟨⟨?_, ?_, ?_, ?_, ?_⟩, ?_⟩ <;> grind [upd, Pc.inside]
    | rlock t o _ hp hr hw => refine ⟨⟨?_, ?_, ?_, ?_, ?_⟩, ?_⟩ <;> grind [upd, Pc.inside]
    | lock t o _ hp hr hw hn => refine ⟨⟨?_, ?_, ?_, ?_, ?_⟩, ?_⟩ <;> grind [upd, Pc.inside]
    | enter t o _ hp => refine ⟨⟨?_, ?_, ?_, ?_, ?_⟩, ?_⟩ <;> grind [upd, Pc.inside]
    | apply t o _ hp => refine ⟨⟨?_, ?_, ?_, ?_, ?_⟩, ?_⟩ <;> grind [upd, Pc.inside]
    | runlock t o r _ hp hr => refine ⟨⟨?_, ?_, ?_, ?_, ?_⟩, ?_⟩ <;> grind [upd, Pc.inside]
    | unlock t o r _ hp hr =>
      have hw := (i3 t).2 ⟨o, by simp [hp, Pc.inside], hr⟩
      have he : s.readers = [] := by grind
      have key : ∀ u o, (upd s.pcs t .idle u).inside = some o → obj.reads o = true := by
        intro u q hq
        by_cases e : u = t
        · simp [upd, e, Pc.inside] at hq
        · simp only [upd, if_neg e] at hq
          cases hqr : obj.reads q
          · have := (i3 u).2 ⟨q, hq, hqr⟩
            grind
          · rfl
      refine ⟨⟨i1, ?_, ?_, .inl rfl, i5⟩, ?_⟩
      · intro u
        simp only [i2 u]
        by_cases e : u = t
        · subst e; simp [upd, hp, Pc.inside, hr]
        · simp [upd, e]
      · intro u
        simp only [reduceCtorEq, false_iff, not_exists, not_and]
        intro q hq
        simp [key u q hq]
      · simpa using ih
    | race t u o p _ hne ht hu hr =>
      replace hr := hobj o hr 
      have hw := (i3 t).2 ⟨o, by simp [ht, Pc.inside], hr⟩
      have he : s.readers = [] := by grind
      have h2 := i2 u
      have h3 := i3 u
      simp only [hu, Pc.inside, he, hw, Option.some.injEq, exists_eq_left', List.not_mem_nil, false_iff] at h2 h3
      exfalso
      cases hq : obj.reads p <;> simp_all

/-- The executed bodies form a sequential history ending in the current state. -/
theorem rw_legal {tr : List (RW.Ev op ret)} {s : RW.Sys σ op ret} (h : Exec (RW.Step obj) (RW.new op ret v) tr s) : Legal obj v (appliedOf tr) s.val := by
  refine h.inv (P := fun tr s => Legal obj v (appliedOf tr) s.val) .nil ?_
  intro tr s l s' _ ih hs
  rw [appliedOf_append]
  cases hs
  case apply t o _ hp => exact .snoc o ih
  all_goals simpa [appliedOf] using ih

/-- Every goroutine's calls are orderly: a method returns the result its body computed, between call and return. -/
theorem rw_orderly {tr : List (RW.Ev op ret)} {s : RW.Sys σ op ret} (h : Exec (RW.Step obj) (RW.new op ret v) tr s) (t : Nat) :
    Orderly (actsOf t tr) := by
  have key : ∃ bs, Calm bs ∧ match s.pcs t with
      | .idle => actsOf t tr = bs
      | .want o | .holds o | .body o => actsOf t tr = bs ++ [.call o]
      | .leaving o r => actsOf t tr = bs ++ [.call o, .applied o r] := by
    refine h.inv (P := fun tr s => ∃ bs, Calm bs ∧ match s.pcs t with
      | .idle => actsOf t tr = bs
      | .want o | .holds o | .body o => actsOf t tr = bs ++ [.call o]
      | .leaving o r => actsOf t tr = bs ++ [.call o, .applied o r]) ?_ ?_
    · exact ⟨[], .nil, by simp [RW.new, actsOf]⟩
    · intro tr s l s' _ ih hs
      obtain ⟨bs, hb, ih⟩ := ih
      rw [actsOf_append]
      cases hs with
      | call u o _ hp =>
        by_cases e : u = t
        · subst e; rw [hp] at ih; exact ⟨bs, hb, by simp_all [upd, actsOf]⟩
        · exact ⟨bs, hb, by simpa [upd, Ne.symm e, e, actsOf] using ih⟩
      | rlock u o _ hp hr hw =>
        by_cases e : u = t
        · subst e; rw [hp] at ih; exact ⟨bs, hb, by simp_all [upd, actsOf]⟩
        · exact ⟨bs, hb, by simpa [upd, Ne.symm e, e, actsOf] using ih⟩
      | lock u o _ hp hr hw hn =>
        by_cases e : u = t
        · subst e; rw [hp] at ih; exact ⟨bs, hb, by simp_all [upd, actsOf]⟩
        · exact ⟨bs, hb, by simpa [upd, Ne.symm e, e, actsOf] using ih⟩
      | enter u o _ hp =>
        by_cases e : u = t
        · subst e; rw [hp] at ih; exact ⟨bs, hb, by simp_all [upd, actsOf]⟩
        · exact ⟨bs, hb, by simpa [upd, Ne.symm e, e, actsOf] using ih⟩
      | apply u o _ hp =>
        by_cases e : u = t
        · subst e; rw [hp] at ih; exact ⟨bs, hb, by simp_all [upd, actsOf]⟩
        · exact ⟨bs, hb, by simpa [upd, Ne.symm e, e, actsOf] using ih⟩
      | runlock u o r _ hp hr =>
        by_cases e : u = t
        · subst e; rw [hp] at ih; exact ⟨_, hb.snoc o r, by simp_all [upd, actsOf]⟩
        · exact ⟨bs, hb, by simpa [upd, Ne.symm e, e, actsOf] using ih⟩
      | unlock u o r _ hp hr =>
        by_cases e : u = t
        · subst e; rw [hp] at ih; exact ⟨_, hb.snoc o r, by simp_all [upd, actsOf]⟩
        · exact ⟨bs, hb, by simpa [upd, Ne.symm e, e, actsOf] using ih⟩
      | race => exact ⟨bs, hb, by simpa [actsOf] using ih⟩
  obtain ⟨bs, hb, key⟩ := key
  refine ⟨bs, hb, ?_⟩
  split at key
  · exact .inl key
  · exact .inr (.inl ⟨_, key⟩)
  · exact .inr (.inl ⟨_, key⟩)
  · exact .inr (.inl ⟨_, key⟩)
  · exact .inr (.inr ⟨_, _, key⟩)

end Verif
