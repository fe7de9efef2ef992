import Verif.Spec.Seq

namespace Verif.Spec

variable {α : Type} [DecidableEq α]

@[simp] theorem removeFirst_nil (n : Nat) (x : α) : removeFirst n x [] = [] := by
  induction n with
  | zero => rfl
  | succ n ih => simpa [removeFirst] using ih

theorem removeFirst_cons_ne (n : Nat) {x y : α} (h : y ≠ x) (ys : List α) :
    removeFirst n x (y :: ys) = y :: removeFirst n x ys := by
  induction n generalizing ys with
  | zero => rfl
  | succ n ih => rw [removeFirst, removeFirst, List.erase_cons_tail (by simp [h]), ih]

theorem removeFirst_cons_eq (n : Nat) (x : α) (ys : List α) :
    removeFirst (n + 1) x (x :: ys) = removeFirst n x ys := by
  rw [removeFirst, List.erase_cons_head]

theorem removeFirst_all {n : Nat} (x : α) {xs : List α} (h : xs.length ≤ n) : removeFirst n x xs = removeAll x xs := by
  induction xs generalizing n with
  | nil => simp [removeAll]
  | cons y ys ih =>
    by_cases e : y = x
    · subst e
      cases n with
      | zero => simp at h
      | succ n =>
        rw [removeFirst_cons_eq, ih (by simpa using h)]
        simp [removeAll]
    · rw [removeFirst_cons_ne _ e, ih (by simp at h; omega)]
      simp [removeAll, e]

theorem removeFirst_length (n : Nat) (x : α) (xs : List α) :
    (removeFirst n x xs).length + min n (xs.count x) = xs.length := by
  induction xs generalizing n with
  | nil => simp
  | cons y ys ih =>
    by_cases e : y = x
    · subst e
      cases n with
      | zero => simp [removeFirst]
      | succ n => rw [removeFirst_cons_eq, List.count_cons_self, List.length_cons]; have := ih n; omega
    · rw [removeFirst_cons_ne _ e, List.count_cons_of_ne e]; have := ih n; simp; omega

end Verif.Spec
