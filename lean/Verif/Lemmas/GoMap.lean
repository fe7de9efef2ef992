import Verif.Model.GoMap
import Mathlib.Data.List.Nodup

/-! Lemmas on the Go map model. -/

namespace Verif.GoMap

variable {α : Type}

@[simp] theorem get_nil (k : Bytes) : get ([] : GoMap α) k = none := rfl

theorem get_set (m : GoMap α) (k k' : Bytes) (v : α) : (m.set k v).get k' = if k = k' then some v else m.get k' := by
  induction m with
  | nil => simp [set, get]
  | cons e m ih =>
    obtain ⟨a, b⟩ := e
    simp only [set]
    split
    · rename_i h; subst h; simp only [get]; split <;> simp_all
    · simp only [get]
      split
      · rename_i h1 h2; subst h2; rw [if_neg (fun e => h1 e.symm)]
      · exact ih

@[simp] theorem get_set_same (m : GoMap α) (k : Bytes) (v : α) : (m.set k v).get k = some v := by simp [get_set]

theorem get_set_ne (m : GoMap α) {k k' : Bytes} (v : α) (h : k ≠ k') : (m.set k v).get k' = m.get k' := by
  simp [get_set, h]

theorem get_erase (m : GoMap α) (k k' : Bytes) : (m.erase k).get k' = if k = k' then none else m.get k' := by
  induction m with
  | nil => simp [erase, get]
  | cons e m ih =>
    obtain ⟨a, b⟩ := e
    simp only [erase]
    split
    · rename_i h; subst h; rw [ih]; simp only [get]; split <;> simp_all
    · simp only [get]
      split
      · rename_i h1 h2; subst h2; rw [if_neg (fun e => h1 e.symm)]
      · exact ih

theorem mem_keys_iff (m : GoMap α) (k : Bytes) : k ∈ m.keys ↔ ∃ v, m.get k = some v := by
  induction m with
  | nil => simp [keys]
  | cons e m ih =>
    obtain ⟨a, b⟩ := e
    simp only [keys, List.map_cons, List.mem_cons, get] at ih ⊢
    split
    · rename_i h; simp [h]
    · rename_i h; have h' : k ≠ a := fun e => h e.symm
      rw [ih]; simp [h']

theorem get_eq_none_iff (m : GoMap α) (k : Bytes) : m.get k = none ↔ k ∉ m.keys := by
  rw [mem_keys_iff]
  cases m.get k <;> simp

theorem mem_keys_isSome (m : GoMap α) (k : Bytes) : k ∈ m.keys ↔ (m.get k).isSome = true := by
  rw [mem_keys_iff]; cases m.get k <;> simp

theorem keys_set (m : GoMap α) (k : Bytes) (v : α) :
    (m.set k v).keys = if k ∈ m.keys then m.keys else m.keys ++ [k] := by
  induction m with
  | nil => simp [set, keys]
  | cons e m ih =>
    obtain ⟨a, b⟩ := e
    simp only [set]
    split
    · rename_i h; subst h; simp [keys]
    · rename_i h
      have h' : k ≠ a := fun e => h e.symm
      simp only [keys, List.map_cons, List.mem_cons, h', false_or] at ih ⊢
      rw [ih]; split <;> simp_all

theorem keys_erase (m : GoMap α) (k : Bytes) : (m.erase k).keys = m.keys.filter (· ≠ k) := by
  induction m with
  | nil => simp [erase, keys]
  | cons e m ih =>
    obtain ⟨a, b⟩ := e
    simp only [erase]
    split
    · rename_i h; subst h; rw [ih]; simp [keys]
    · rename_i h; simp only [keys, List.map_cons] at ih ⊢; rw [ih, List.filter_cons_of_pos (by simpa using h)]

@[simp] theorem wf_nil : WF ([] : GoMap α) := List.nodup_nil

theorem wf_set {m : GoMap α} (h : WF m) (k : Bytes) (v : α) : WF (m.set k v) := by
  unfold WF at *
  rw [keys_set]
  split
  · exact h
  · rename_i hk
    rw [List.nodup_append]
    refine ⟨h, by simp, ?_⟩
    intro a ha b hb
    simp at hb; subst hb
    intro e; subst e; exact hk ha

theorem wf_erase {m : GoMap α} (h : WF m) (k : Bytes) : WF (m.erase k) := by
  unfold WF at *
  rw [keys_erase]; exact h.filter _

theorem length_keys (m : GoMap α) : m.keys.length = m.length := by simp [keys]

theorem length_set (m : GoMap α) (k : Bytes) (v : α) :
    (m.set k v).length = m.length + if k ∈ m.keys then 0 else 1 := by
  rw [← length_keys, keys_set, ← length_keys]
  split <;> simp

theorem get_of_mem {m : GoMap α} (h : WF m) {k : Bytes} {v : α} (hm : (k, v) ∈ m) : m.get k = some v := by
  induction m with
  | nil => cases hm
  | cons e m ih =>
    obtain ⟨a, b⟩ := e
    simp only [WF, keys, List.map_cons, List.nodup_cons] at h
    simp only [List.mem_cons, Prod.mk.injEq] at hm
    simp only [get]
    rcases hm with ⟨rfl, rfl⟩ | hm
    · simp
    · rw [if_neg]
      · exact ih h.2 hm
      · rintro rfl
        exact h.1 (List.mem_map.2 ⟨_, hm, rfl⟩)

theorem mem_of_get {m : GoMap α} {k : Bytes} {v : α} (h : m.get k = some v) : (k, v) ∈ m := by
  induction m with
  | nil => cases h
  | cons e m ih =>
    obtain ⟨a, b⟩ := e
    simp only [get] at h
    split at h
    · rename_i hk; subst hk; cases h; simp
    · simp [ih h]

/-- Two well-formed maps with the same lookups have the same entries up to order. -/
theorem perm_of_get_eq {m m' : GoMap α} (h : WF m) (h' : WF m') (he : ∀ k, m.get k = m'.get k) : m.Perm m' := by
  have nd : ∀ {m : GoMap α}, WF m → m.Nodup := fun {m} h => by
    unfold WF keys at h; exact List.Nodup.of_map _ h
  refine (List.perm_ext_iff_of_nodup (nd h) (nd h')).2 ?_
  rintro ⟨k, v⟩
  constructor
  · intro hm; exact mem_of_get (by rw [← he, get_of_mem h hm])
  · intro hm; exact mem_of_get (by rw [he, get_of_mem h' hm])

theorem inOrder_eq_map {m : GoMap α} {ord : List Bytes} (h : ∀ k ∈ ord, k ∈ m.keys) :
    (m.inOrder ord).map Prod.fst = ord := by
  induction ord with
  | nil => simp [inOrder]
  | cons k ord ih =>
    obtain ⟨v, hv⟩ := (mem_keys_iff m k).1 (h k (by simp))
    have := ih (fun x hx => h x (by simp [hx]))
    simp only [inOrder, List.filterMap_cons, hv, Option.map_some, List.map_cons] at this ⊢
    rw [this]

theorem inOrder_perm {m : GoMap α} (hm : WF m) {ord : List Bytes} (h : ord.Perm m.keys) : (m.inOrder ord).Perm m := by
  have h1 : (m.inOrder ord).Perm (m.inOrder m.keys) := h.filterMap _
  refine h1.trans (List.Perm.of_eq ?_)
  clear h h1
  unfold inOrder
  have : ∀ l : GoMap α, (∀ e ∈ l, m.get e.1 = some e.2) →
      (l.keys.filterMap fun k => (m.get k).map fun v => (k, v)) = l := by
    intro l hl
    induction l with
    | nil => rfl
    | cons e l ih =>
      have := hl e (by simp)
      simp only [keys, List.map_cons, List.filterMap_cons, this, Option.map_some]
      rw [show (List.map Prod.fst l) = keys l from rfl, ih (fun x hx => hl x (by simp [hx]))]
  exact this m (fun e he => get_of_mem hm he)

end Verif.GoMap
