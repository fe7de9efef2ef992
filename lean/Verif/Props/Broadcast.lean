import Verif.Model.Broadcast
import Verif.Lemmas.LTS

/-! # C42 – broadcasters -/

namespace Verif.Props

open Spec Bcast
open Fut (upd)

variable {M : Type}

/-- What holds in every reachable state. -/
structure BcastInv (tr : List (Ev M)) (s : Sys M) : Prop where
  message : ∀ m, s.message = some m → ∃ i, .setCall i m ∈ tr
  stored : ∀ i, s.setters i = .stored → ∃ m, s.message = some m
  ready : s.ready = true ↔ ∃ i, .setDone i ∈ tr
  full : s.ready = true → ∃ m, s.message = some m
  woken : ∀ j, s.getters j = .woken → s.ready = true

theorem bcastInv {tr : List (Ev M)} {s : Sys M} (h : Exec Step (new M) tr s) : BcastInv tr s := by
  refine h.inv (P := BcastInv) ?_ ?_
  · exact ⟨by simp [new], by simp [new], by simp [new], by simp [new], by simp [new]⟩
  · intro tr s l s' _ ih hs
    obtain ⟨i1, i2, i3, i4, i5⟩ := ih
    cases hs <;> constructor <;> grind [upd]

/-- C42: a `Get` returns only after a `Set` has returned, and a message some `Set` was called with before. -/
theorem C42_get {tr : List (Ev M)} {s : Sys M} (h : Exec Step (new M) tr s) (j : Nat) (x : Option M) :
    After tr (.got j x) fun before => (∃ i, .setDone i ∈ before) ∧ ∃ m i, x = some m ∧ .setCall i m ∈ before := by
  refine .of_step h ?_
  intro tr1 s1 s2 h1 hs
  have inv := bcastInv h1
  cases hs with
  | got _ _ hw =>
    have hr := inv.woken j hw
    obtain ⟨m, hm⟩ := inv.full hr
    obtain ⟨i, hi⟩ := inv.message m hm
    exact ⟨inv.ready.1 hr, m, i, hm, hi⟩

/-- C42: with one `Set`, every `Get`, by whomever and whenever, returns its message. -/
theorem C42_everyone {tr : List (Ev M)} {s : Sys M} (h : Exec Step (new M) tr s) {m : M} (h1 : ∀ i m', .setCall i m' ∈ tr → m' = m) {j : Nat}
    {x : Option M} (hg : .got j x ∈ tr) : x = some m := by
  obtain ⟨b, a, rfl⟩ := List.append_of_mem hg
  obtain ⟨-, m', i, rfl, hm⟩ := C42_get h j x b a rfl
  rw [h1 i m' (by simp [hm])]

/-- C42: once a `Set` has returned, nobody waits in vain. -/
theorem C42_wakes {tr : List (Ev M)} {s : Sys M} (h : Exec Step (new M) tr s) (hc : s.crashed = false) {i : Nat} (hs : .setDone i ∈ tr) (j : Nat)
    (hj : s.getters j ≠ .idle) : ∃ e s', Step s e s' ∧ (e = .woken j ∨ ∃ x, e = .got j x) := by
  cases hx : s.getters j with
  | idle => exact absurd hx hj
  | waiting => exact ⟨_, _, .woken j hc hx ((bcastInv h).ready.2 ⟨i, hs⟩), .inl rfl⟩
  | woken => exact ⟨_, _, .got j hc hx, .inr ⟨_, rfl⟩⟩

/-- C42: a second `Set` never returns; all it can do is crash. -/
theorem C42_second {tr : List (Ev M)} {s : Sys M} (h : Exec Step (new M) tr s) {i : Nat} (hd : .setDone i ∈ tr) {k : Nat}
    (hk : s.setters k = .stored) (hc : s.crashed = false) :
    (∃ s', Step s .crash s') ∧ (∀ s', ¬ Step s (.setDone k) s') ∧ After tr (.setDone i) fun before => ∀ j, .setDone j ∉ before := by
  have hr := (bcastInv h).ready.2 ⟨i, hd⟩
  refine ⟨⟨_, .crash k hc hk hr⟩, ?_, .of_step h ?_⟩
  · intro s' hs
    cases hs with
    | setDone _ _ _ hf => rw [hr] at hf; cases hf
  · intro tr1 s1 s2 h1 hs j hj
    cases hs with
    | setDone _ _ _ hf => rw [(bcastInv h1).ready.2 ⟨j, hj⟩] at hf; cases hf

/-- C42: with one `Set` call nothing crashes. -/
theorem C42_no_crash {tr : List (Ev M)} {s : Sys M} (h : Exec Step (new M) tr s)
    (h1 : ∀ i m before after, tr = before ++ .setCall i m :: after → ∀ j m', .setCall j m' ∉ before) : .crash ∉ tr := by
  have key : (∀ i m before after, tr = before ++ .setCall i m :: after → ∀ j m', .setCall j m' ∉ before) →
      .crash ∉ tr ∧ (∀ i, s.setters i = .stored → s.ready = false ∧ ∃ m, .setCall i m ∈ tr) ∧ (s.ready = true → ∃ i m, .setCall i m ∈ tr) ∧
      ∀ i j, s.setters i = .stored → s.setters j = .stored → i = j := by
    refine h.inv (P := fun tr s => (∀ i m before after, tr = before ++ .setCall i m :: after → ∀ j m', .setCall j m' ∉ before) →
      .crash ∉ tr ∧ (∀ i, s.setters i = .stored → s.ready = false ∧ ∃ m, .setCall i m ∈ tr) ∧ (s.ready = true → ∃ i m, .setCall i m ∈ tr) ∧
      ∀ i j, s.setters i = .stored → s.setters j = .stored → i = j) ?_ ?_
    · simp [new]
    · intro tr s l s' _ ih hs hu
      have i1 := ih fun i m b a e => hu i m b (a ++ [l]) (by simp [e])
      have i2 := hu
      cases hs with
      | setCall i m _ _ =>
        have i3 := hu i m tr [] rfl
        grind [upd]
      | _ => grind [upd]
  exact (key h1).1

/-- C42: two concurrent `Set`s crash the process, and a `Get` may return the second message before that. -/
theorem C42_two_sets (m m' : M) : ∃ s, Exec Step (new M) [.setCall 0 m, .getCall 5, .setDone 0, .setCall 1 m', .woken 5, .got 5 (some m'), .crash] s :=
  ⟨_, .cons (.setCall 0 m rfl rfl) (.cons (.getCall 5 rfl rfl) (.cons (.setDone 0 rfl rfl rfl) (.cons (.setCall 1 m' rfl rfl)
    (.cons (.woken 5 rfl rfl rfl) (.cons (.got 5 rfl rfl) (.one (.crash 1 rfl rfl rfl)))))))⟩

/-- One `Set`, two `Get`s. -/
example : ∃ s, Exec Step (new Nat) [.getCall 4, .setCall 0 9, .setDone 0, .getCall 5, .woken 5, .woken 4, .got 5 (some 9), .got 4 (some 9)] s :=
  ⟨_, .cons (.getCall 4 rfl rfl) (.cons (.setCall 0 9 rfl rfl) (.cons (.setDone 0 rfl rfl rfl) (.cons (.getCall 5 rfl rfl)
    (.cons (.woken 5 rfl rfl rfl) (.cons (.woken 4 rfl rfl rfl) (.cons (.got 5 rfl rfl) (.one (.got 4 rfl rfl))))))))⟩

/-- C42: a crash is the last thing that happens: it takes the whole process with it. -/
theorem C42_dead {before after : List (Ev M)} {s : Sys M} (h : Exec Step (new M) (before ++ .crash :: after) s) : after = [] := by
  refine h.last (fun s => s.crashed = true) (fun s s' hs => by cases hs; rfl) fun s l s' hc hs => ?_
  cases hs <;> rw [hc] at * <;> contradiction

/-- Two calls of `Set`: the second one crashes. -/
example : ∃ s : Sys Nat, Exec Step (new Nat) ([.setCall 1 5, .setDone 1, .setCall 2 6] ++ .crash :: []) s :=
  ⟨_, .cons (.setCall 1 5 rfl rfl) (.cons (.setDone 1 rfl rfl rfl) (.cons (.setCall 2 6 rfl rfl) (.one (.crash 2 rfl rfl rfl))))⟩

end Verif.Props
