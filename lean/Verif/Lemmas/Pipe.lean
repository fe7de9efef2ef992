import Verif.Spec.Pipe
import Verif.Lemmas.LTS
import Verif.Lemmas.GoMap
import Verif.Lemmas.Request

/-! The invariant of the request pipeline. -/

namespace Verif

open Spec Pipe Fut

theorem requestsOf_append (a b : List Pipe.Ev) : requestsOf (a ++ b) = requestsOf a ++ requestsOf b := by
  induction a with
  | nil => rfl
  | cons e a ih => cases e <;> simp [requestsOf, ih]

theorem executedOf_append (a b : List Pipe.Ev) : executedOf (a ++ b) = executedOf a ++ executedOf b := by
  induction a with
  | nil => rfl
  | cons e a ih => cases e <;> simp [executedOf, ih]

theorem writtenOf_append (a b : List Pipe.Ev) : writtenOf (a ++ b) = writtenOf a ++ writtenOf b := by
  induction a with
  | nil => rfl
  | cons e a ih => cases e <;> simp [writtenOf, ih]

theorem parseRequest_requestMap (id : Bytes) (o : Resp) : parseRequest (requestMap id o) = (asArray o).map fun objs => (id, objs) := by
  have h1 : (requestMap id o).get b!"id" = some (.str id) := by
    rw [requestMap, GoMap.get_set_ne _ _ (by decide), GoMap.get_set_same]
  have h2 : (requestMap id o).get b!"request" = some (.obj o) := by rw [requestMap, GoMap.get_set_same]
  rw [parseRequest, h1, h2]
  simp only
  cases asArray o <;> rfl

theorem parseRequest_some {id id' : Bytes} {o : Resp} {objs : List Resp} (h : parseRequest (requestMap id o) = some (id', objs)) :
    id = id' ∧ asArray o = some objs := by
  rw [parseRequest_requestMap] at h
  cases ho : asArray o <;> simp [ho] at h
  exact ⟨h.1, by rw [h.2]⟩

theorem parseResponse_responseMap (id : Bytes) (r : Resp) : parseResponse (responseMap id r) = some (id, r) := by
  have h1 : (responseMap id r).get b!"id" = some (.str id) := by
    rw [responseMap, GoMap.get_set_ne _ _ (by decide), GoMap.get_set_same]
  have h2 : (responseMap id r).get b!"response" = some (.obj r) := by rw [responseMap, GoMap.get_set_same]
  rw [parseResponse, h1, h2]

/-- A number occurs at most once. -/
def cnt {α : Type} (l : List (Nat × α)) (n : Nat) : Nat := (l.map Prod.fst).count n

@[simp] theorem cnt_nil {α : Type} (n : Nat) : cnt ([] : List (Nat × α)) n = 0 := rfl

@[simp] theorem cnt_append {α : Type} (a b : List (Nat × α)) (n : Nat) : cnt (a ++ b) n = cnt a n + cnt b n := by simp [cnt]

@[simp] theorem cnt_cons {α : Type} (m : Nat) (x : α) (b : List (Nat × α)) (n : Nat) : cnt ((m, x) :: b) n = cnt b n + if m = n then 1 else 0 := by
  simp [cnt, List.count_cons]

theorem cnt_pos {α : Type} {l : List (Nat × α)} {n : Nat} : 0 < cnt l n ↔ ∃ x, (n, x) ∈ l := by
  simp [cnt, List.count_pos_iff]

theorem cnt_nodup {α : Type} {l : List (Nat × α)} : (∀ n, cnt l n ≤ 1) ↔ (l.map Prod.fst).Nodup := List.nodup_iff_count_le_one.symm

structure PipeInv (tr : List Pipe.Ev) (s : Pipe.Sys) : Prop where
  ids : ∀ id c, s.clients.get id = some c ↔ s.conns c = some id
  fresh : ∀ n, s.next ≤ n → cnt (requestsOf tr) n = 0
  reads : ∀ n, cnt (requestsOf tr) n ≤ 1
  one : ∀ n, cnt s.requests n + cnt s.engine.toList n + cnt (executedOf tr) n ≤ cnt (requestsOf tr) n
  two : ∀ n, cnt s.responses n + cnt s.buffer n + cnt s.worker.toList n + cnt (writtenOf tr) n ≤ cnt (executedOf tr) n
  req : ∀ n m, (n, m) ∈ s.requests ++ s.engine.toList → ∃ c id o, (n, c, o) ∈ requestsOf tr ∧ s.conns c = some id ∧ m = requestMap id o
  exe : ∀ n env r, (n, env, r) ∈ executedOf tr → ∃ c o objs, (n, c, o) ∈ requestsOf tr ∧ asArray o = some objs
  resp : ∀ n m, (n, m) ∈ s.responses ++ s.buffer → ∃ c id o env r, (n, c, o) ∈ requestsOf tr ∧ (n, env, r) ∈ executedOf tr ∧ s.conns c = some id ∧
    m = responseMap id r
  work : ∀ n c b, s.worker = some (n, c, b) → ∃ o env r, (n, c, o) ∈ requestsOf tr ∧ (n, env, r) ∈ executedOf tr ∧ b = r.encode
  wrote : ∀ n c b, (n, c, b) ∈ writtenOf tr → ∃ o env r, (n, c, o) ∈ requestsOf tr ∧ (n, env, r) ∈ executedOf tr ∧ b = r.encode

set_option maxHeartbeats 4000000 in
theorem pipeInv {st : State} {tr : List Pipe.Ev} {s : Pipe.Sys} (h : Exec Pipe.Step (Pipe.new st) tr s) : PipeInv tr s := by
  refine Exec.inv (P := PipeInv) ?_ ?_ h
  · constructor <;> simp [Pipe.new, requestsOf, executedOf, writtenOf, GoMap.get]
  · rintro tr s l s' - ⟨h1, h2, h3, h4, h5, h6, h7, h8, h9, h10⟩ hs
    have hx : ∀ n m, s.engine = some (n, m) → ∃ c id o, (n, c, o) ∈ requestsOf tr ∧ s.conns c = some id ∧ m = requestMap id o :=
      fun n m he => h6 n m (by simp [he])
    cases hs with
    | execute n m id objs env db r hc he hp hh =>
      obtain ⟨c, id', o, g1, g2, rfl⟩ := hx n m he
      obtain ⟨rfl, g3⟩ := parseRequest_some hp
      constructor <;> simp only [requestsOf_append, executedOf_append, writtenOf_append, requestsOf, executedOf, writtenOf, List.append_nil,
        cnt_append, cnt_cons, cnt_nil, Option.toList_none, Option.toList_some]
      case exe =>
        intro n' env' r' hm
        rcases List.mem_append.1 hm with hm | hm
        · exact h7 _ _ _ hm
        · simp only [List.mem_singleton, Prod.mk.injEq] at hm
          obtain ⟨rfl, rfl, rfl⟩ := hm
          exact ⟨c, o, objs, g1, g3⟩
      case resp =>
        intro n' m' hm
        rw [List.cons_append] at hm
        rcases List.mem_cons.1 hm with hm | hm
        · simp only [Prod.mk.injEq] at hm
          obtain ⟨rfl, rfl⟩ := hm
          exact ⟨c, id', o, env, r, g1, by simp, g2, rfl⟩
        · obtain ⟨c, id, o, env, r, k1, k2, k3, k4⟩ := h8 _ _ hm
          exact ⟨c, id, o, env, r, k1, by simp [k2], k3, k4⟩
      all_goals grind [upd, cnt_append, cnt_cons, cnt_nil, Option.toList_none, Option.toList_some]
    | answer n m rest id r c hc hw hb hp hg =>
      obtain ⟨c', id', o, env, r', g1, g2, g3, rfl⟩ := h8 n m (by simp [hb])
      rw [parseResponse_responseMap] at hp
      simp only [Option.some.injEq, Prod.mk.injEq] at hp
      obtain ⟨rfl, rfl⟩ := hp
      have : c = c' := by
        have := (h1 id' c').2 g3
        rw [hg] at this
        exact Option.some.inj this
      subst this
      constructor <;> simp only [requestsOf_append, executedOf_append, writtenOf_append, requestsOf, executedOf, writtenOf, List.append_nil,
        cnt_append, cnt_cons, cnt_nil, Option.toList_none, Option.toList_some]
      case work =>
        intro n' c' b' hm
        simp only [Option.some.injEq, Prod.mk.injEq] at hm
        obtain ⟨rfl, rfl, rfl⟩ := hm
        exact ⟨o, env, r', g1, g2, rfl⟩
      all_goals grind [upd, cnt_append, cnt_cons, cnt_nil, Option.toList_none, Option.toList_some]
    | _ =>
      constructor <;> simp only [requestsOf_append, executedOf_append, writtenOf_append, requestsOf, executedOf, writtenOf, List.append_nil,
        cnt_append, cnt_cons, cnt_nil, Option.toList_none, Option.toList_some] <;>
        grind [upd, cnt_append, cnt_cons, cnt_nil, GoMap.get_set, parseResponse_responseMap, Option.toList_none, Option.toList_some]

end Verif
