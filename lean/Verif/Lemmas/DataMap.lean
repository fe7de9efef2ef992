import Verif.Spec.DataMap
import Verif.Lemmas.GoMap
import Verif.Lemmas.RWLock

/-! Helper lemmas for the `DataMap` properties. -/

namespace Verif

open Spec

variable {V : Type}

theorem holds_nil (k : Bytes) (v : V) : ¬ Holds [] k v := by
  rintro ⟨b, a, e, -⟩
  simp at e

theorem holds_snoc (ops : List (MapOp V)) (o : MapOp V) (k : Bytes) (v : V) :
    Holds (ops ++ [o]) k v ↔ o = .set k v ∨ (¬ Spec.MapOp.Touches k o ∧ Holds ops k v) := by
  constructor
  · rintro ⟨b, a, e, ha⟩
    rcases List.eq_nil_or_concat a with rfl | ⟨a', x, rfl⟩
    · obtain ⟨-, e2⟩ := List.append_inj' e rfl
      left; simpa using e2
    · rw [List.concat_eq_append, ← List.cons_append, ← List.append_assoc] at e
      obtain ⟨e1, e2⟩ := List.append_inj' e rfl
      have e2 : o = x := by simpa using e2
      subst e2
      exact .inr ⟨ha o (by simp), b, a', e1, fun y hy => ha y (by simp [hy])⟩
  · rintro (rfl | ⟨ht, b, a, rfl, ha⟩)
    · exact ⟨ops, [], rfl, by simp⟩
    · refine ⟨b, a ++ [o], by simp, ?_⟩
      intro y hy
      rcases List.mem_append.1 hy with hy | hy
      · exact ha y hy
      · have : y = o := by simpa using hy
        subst this; exact ht

/-- The container holds what the calls say. -/
structure MapRel (m : GoMap V) (ops : List (MapOp V)) : Prop where
  wf : m.WF
  get : ∀ k v, m.get k = some v ↔ Holds ops k v

theorem mapRel_nil : MapRel ([] : GoMap V) [] := ⟨by simp, by simp [holds_nil]⟩

theorem MapRel.set {m : GoMap V} {ops : List (MapOp V)} (h : MapRel m ops) (k : Bytes) (v : V) : MapRel (m.set k v) (ops ++ [.set k v]) := by
  refine ⟨GoMap.wf_set h.wf k v, fun k' v' => ?_⟩
  rw [holds_snoc, GoMap.get_set, ← h.get]
  by_cases e : k = k' <;> simp [e, Spec.MapOp.Touches]

theorem MapRel.erase {m : GoMap V} {ops : List (MapOp V)} (h : MapRel m ops) (k : Bytes) : MapRel (m.erase k) (ops ++ [.remove k]) := by
  refine ⟨GoMap.wf_erase h.wf k, fun k' v' => ?_⟩
  rw [holds_snoc, GoMap.get_erase, ← h.get]
  by_cases e : k = k' <;> simp [e, Spec.MapOp.Touches]

theorem MapRel.noop {m : GoMap V} {ops : List (MapOp V)} (h : MapRel m ops) {o : MapOp V} (ho : ∀ k, ¬ Spec.MapOp.Touches k o) : MapRel m (ops ++ [o]) := by
  refine ⟨h.wf, fun k' v' => ?_⟩
  rw [holds_snoc, ← h.get]
  constructor
  · exact fun hx => .inr ⟨ho _, hx⟩
  · rintro (rfl | ⟨-, hx⟩)
    · exact absurd rfl (ho k')
    · exact hx

theorem MapRel.removeNone {m : GoMap V} {ops : List (MapOp V)} (h : MapRel m ops) {k : Bytes} (hk : m.get k = none) : MapRel m (ops ++ [.remove k]) := by
  refine ⟨h.wf, fun k' v' => ?_⟩
  rw [holds_snoc, ← h.get]
  by_cases e : k = k' <;> simp [e, Spec.MapOp.Touches]
  subst e; simp [hk]

theorem MapRel.isSome {m : GoMap V} {ops : List (MapOp V)} (h : MapRel m ops) (k : Bytes) : (m.get k).isSome = true ↔ ∃ v, Holds ops k v := by
  simp only [← h.get, Option.isSome_iff_exists]

theorem MapRel.holding {m : GoMap V} {ops : List (MapOp V)} (h : MapRel m ops) : Holding ops m.length :=
  ⟨m.keys, h.wf, fun k => by rw [GoMap.mem_keys_iff]; simp only [h.get], GoMap.length_keys m⟩

theorem holding_unique {ops : List (MapOp V)} {n n' : Nat} (h : Holding ops n) (h' : Holding ops n') : n = n' := by
  obtain ⟨ks, nd, hk, rfl⟩ := h
  obtain ⟨ks', nd', hk', rfl⟩ := h'
  exact ((List.perm_ext_iff_of_nodup nd nd').2 fun k => by rw [hk, hk']).length_eq

theorem exact_nil : Exact ([] : List (MapOp V × MapRet V)) := by
  intro b o r a e
  simp at e

theorem exact_snoc {h : List (MapOp V × MapRet V)} (hh : Exact h) {o : MapOp V} {r : MapRet V} (ha : Answer (h.map Prod.fst) o r) :
    Exact (h ++ [(o, r)]) := by
  intro b o' r' a e
  rcases List.eq_nil_or_concat a with rfl | ⟨a', x, rfl⟩
  · obtain ⟨rfl, e2⟩ := List.append_inj' e rfl
    simp only [List.cons.injEq, Prod.mk.injEq, and_true] at e2
    obtain ⟨rfl, rfl⟩ := e2
    exact ha
  · rw [List.concat_eq_append, ← List.cons_append, ← List.append_assoc] at e
    obtain ⟨rfl, -⟩ := List.append_inj' e rfl
    exact hh _ _ _ _ rfl

theorem map_run_answer {m : GoMap V} {ops : List (MapOp V)} (h : MapRel m ops) (o : MapOp V) :
    MapRel (DataMap.run o m).1 (ops ++ [o]) ∧ Answer ops o (DataMap.run o m).2 := by
  cases o with
  | set k v => exact ⟨h.set k v, rfl⟩
  | remove k => exact ⟨h.erase k, rfl⟩
  | get k => exact ⟨h.noop (by simp [Spec.MapOp.Touches]), _, rfl, fun v => h.get k v⟩
  | has k => exact ⟨h.noop (by simp [Spec.MapOp.Touches]), _, rfl, h.isSome k⟩
  | len => exact ⟨h.noop (by simp [Spec.MapOp.Touches]), _, rfl, h.holding⟩

theorem locked_exact {h : List (MapOp V × MapRet V)} {m : GoMap V} (hl : Legal (DataMap.locked V) [] h m) : MapRel m (h.map Prod.fst) ∧ Exact h := by
  induction hl with
  | nil => exact ⟨mapRel_nil, exact_nil⟩
  | @snoc h w o _ ih =>
    have := map_run_answer ih.1 o
    refine ⟨by simpa [DataMap.locked] using this.1, exact_snoc ih.2 this.2⟩

theorem wrap32_wrap32_add (x y : Int) : Proto.wrap32 (Proto.wrap32 x + y) = Proto.wrap32 (x + y) := by
  simp only [Proto.wrap32]; omega

theorem wrap32_of_lt {n : Nat} (h : n < 2147483648) : Proto.wrap32 n = n := by
  simp only [Proto.wrap32]; omega

/-- The size counter is the number of entries. -/
def SizeOk (m : DataMap.Sync V) : Prop := m.size = Proto.wrap32 m.container.length

theorem length_erase_mem {m : GoMap V} (h : m.WF) {k : Bytes} (hk : (m.get k).isSome = true) : (m.erase k).length + 1 = m.length := by
  rw [← GoMap.length_keys, GoMap.keys_erase, ← GoMap.length_keys]
  have hm : k ∈ m.keys := (GoMap.mem_keys_isSome m k).2 hk
  have h' : m.keys.Nodup := h
  have h1 : m.keys.filter (· ≠ k) = m.keys.erase k := by
    rw [h'.erase_eq_filter]
    exact List.filter_congr fun x _ => by by_cases e : x = k <;> simp [e]
  rw [h1, List.length_erase_of_mem hm]
  have := List.length_pos_of_mem hm
  omega

theorem length_set_mem {m : GoMap V} {k : Bytes} (hk : (m.get k).isSome = true) (v : V) : (m.set k v).length = m.length := by
  rw [GoMap.length_set, if_pos ((GoMap.mem_keys_isSome m k).2 hk)]; rfl

theorem length_set_not_mem {m : GoMap V} {k : Bytes} (hk : (m.get k).isSome = false) (v : V) : (m.set k v).length = m.length + 1 := by
  rw [GoMap.length_set, if_neg (by rw [GoMap.mem_keys_isSome, hk]; simp)]

theorem sync_legal {h : List (MapOp V × MapRet V)} {m : DataMap.Sync V} (hl : Legal (DataMap.Sync.obj V) (DataMap.Sync.new V) h m) :
    MapRel m.container (h.map Prod.fst) ∧ SizeOk m := by
  induction hl with
  | nil => exact ⟨mapRel_nil, by simp [SizeOk, DataMap.Sync.new, Proto.wrap32]⟩
  | @snoc h w o _ ih =>
    obtain ⟨ih1, ih2⟩ := ih
    simp only [SizeOk] at ih2
    simp only [List.map_append, List.map_cons, List.map_nil]
    cases o with
    | set k v =>
      cases hh : (w.container.get k).isSome with
      | true => exact ⟨by simpa [DataMap.Sync.obj, DataMap.Sync.run, DataMap.Sync.has, hh, DataMap.Sync.store] using ih1.set k v,
          by simp [SizeOk, DataMap.Sync.obj, DataMap.Sync.run, DataMap.Sync.has, hh, DataMap.Sync.store, ih2, length_set_mem]⟩
      | false => exact ⟨by simpa [DataMap.Sync.obj, DataMap.Sync.run, DataMap.Sync.has, hh, DataMap.Sync.store, DataMap.Sync.add] using ih1.set k v,
          by simp [SizeOk, DataMap.Sync.obj, DataMap.Sync.run, DataMap.Sync.has, hh, DataMap.Sync.store, DataMap.Sync.add, ih2, length_set_not_mem, wrap32_wrap32_add]⟩
    | remove k =>
      cases hh : (w.container.get k).isSome with
      | true =>
        have hlen := length_erase_mem ih1.wf hh
        refine ⟨by simpa [DataMap.Sync.obj, DataMap.Sync.run, DataMap.Sync.has, hh, DataMap.Sync.delete, DataMap.Sync.add] using ih1.erase k, ?_⟩
        simp only [SizeOk, DataMap.Sync.obj, DataMap.Sync.run, DataMap.Sync.has, hh, DataMap.Sync.delete, DataMap.Sync.add, ih2, if_true, wrap32_wrap32_add]
        congr 1; omega
      | false =>
        have hn : w.container.get k = none := by simpa using hh
        exact ⟨by simpa [DataMap.Sync.obj, DataMap.Sync.run, DataMap.Sync.has, hh] using ih1.removeNone hn,
          by simp [SizeOk, DataMap.Sync.obj, DataMap.Sync.run, DataMap.Sync.has, hh, ih2]⟩
    | get k => exact ⟨ih1.noop (by simp [Spec.MapOp.Touches]), ih2⟩
    | has k => exact ⟨ih1.noop (by simp [Spec.MapOp.Touches]), ih2⟩
    | len => exact ⟨ih1.noop (by simp [Spec.MapOp.Touches]), ih2⟩

end Verif
