import Verif.Lemmas.DataMap

/-! # C41 – data maps -/

namespace Verif.Props

open Spec DataMap
open Fut (upd)

variable {V : Type}

/-- C41: the simple map answers every call of every history exactly: `Get` with the last value set, `Has` whether there is one, `Len` with
the number of keys that have one. -/
theorem C41_simple {h : List (MapOp V × MapRet V)} {m : GoMap V} (hl : Legal (locked V) [] h m) : Exact h := (locked_exact hl).2

example : Legal (locked Nat) [] [(.set b!"a" 1, .unit), (.set b!"a" 2, .unit), (.len, .int 1), (.get b!"a", .val (some 2))] [(b!"a", 2)] :=
  legal_cons (MapOp.set b!"a" 1) (legal_cons (MapOp.set b!"a" 2) (legal_cons MapOp.len (legal_cons (MapOp.get b!"a") .nil)))

theorem locked_writes (o : MapOp V) (h : (locked V).Writes o) : (locked V).reads o = false := by
  obtain ⟨v, h⟩ := h
  cases o <;> simp_all [locked, run]

/-- C41: the locked map, used by any number of goroutines: there is no data race, every call takes effect at one moment between call and
return, and in the order of these moments all answers are exact. -/
theorem C41_locked {tr : List (RW.Ev (MapOp V) (MapRet V))} {s : RW.Sys (GoMap V) (MapOp V) (MapRet V)}
    (h : Exec (RW.Step (locked V)) (RW.new _ _ []) tr s) :
    .crash ∉ tr ∧ (∀ t, Orderly (actsOf t tr)) ∧ Exact (appliedOf tr) :=
  ⟨(lockInv locked_writes h).2, rw_orderly h, (locked_exact (rw_legal h)).2⟩

/-- C41: when the mutex is free, any waiting call gets it, and a call inside always goes on, so nobody is stuck for good. -/
theorem C41_locked_progress {tr : List (RW.Ev (MapOp V) (MapRet V))} {s : RW.Sys (GoMap V) (MapOp V) (MapRet V)}
    (h : Exec (RW.Step (locked V)) (RW.new _ _ []) tr s) (t : Nat) (ht : s.pcs t ≠ .idle) : ∃ e s', RW.Step (locked V) s e s' ∧ ∀ u o, e ≠ .call u o := by
  have inv := (lockInv locked_writes h).1
  have inside : ∀ u o, (s.pcs u).inside = some o → ∃ e s', RW.Step (locked V) s e s' ∧ ∀ u o, e ≠ .call u o := by
    intro u o ho
    cases hu : s.pcs u with
    | idle => simp [hu, RW.Pc.inside] at ho
    | want p => simp [hu, RW.Pc.inside] at ho
    | holds p => exact ⟨_, _, .enter u p inv.fine hu, by simp⟩
    | body p => exact ⟨_, _, .apply u p inv.fine hu, by simp⟩
    | leaving p r =>
      cases hr : (locked V).reads p with
      | true => exact ⟨_, _, .runlock u p r inv.fine hu hr, by simp⟩
      | false => exact ⟨_, _, .unlock u p r inv.fine hu hr, by simp⟩
  cases hp : s.pcs t with
  | idle => exact absurd hp ht
  | want o =>
    cases hw : s.writer with
    | some u =>
      obtain ⟨p, hp, -⟩ := (inv.writer u).1 hw
      exact inside u p hp
    | none =>
      cases hr : (locked V).reads o with
      | true => exact ⟨_, _, .rlock t o inv.fine hp hr hw, by simp⟩
      | false =>
        cases hl : s.readers with
        | nil => exact ⟨_, _, .lock t o inv.fine hp hr hw hl, by simp⟩
        | cons u us =>
          obtain ⟨p, hp, -⟩ := (inv.readers u).1 (by simp [hl])
          exact inside u p hp
  | holds o => exact inside t o (by simp [hp, RW.Pc.inside])
  | body o => exact inside t o (by simp [hp, RW.Pc.inside])
  | leaving o r => exact inside t o (by simp [hp, RW.Pc.inside])

/-- Two goroutines, a write and a read that has to wait. -/
example : ∃ s, Exec (RW.Step (locked Nat)) (RW.new _ _ [])
    [.call 1 (.set b!"a" 7), .call 2 .len, .locked 1, .entered 1, .applied 1 (.set b!"a" 7) .unit, .returned 1 (.set b!"a" 7) .unit,
      .locked 2, .entered 2, .applied 2 .len (.int 1)] s :=
  ⟨_, .cons (.call 1 _ rfl rfl) (.cons (.call 2 _ rfl rfl) (.cons (.lock 1 (MapOp.set b!"a" 7) rfl rfl rfl rfl rfl) (.cons (.enter 1 (MapOp.set b!"a" 7) rfl rfl)
    (.cons (.apply 1 (MapOp.set b!"a" 7) rfl rfl) (.cons (.unlock 1 _ _ rfl rfl rfl) (.cons (.rlock 2 MapOp.len rfl rfl rfl rfl) (.cons (.enter 2 MapOp.len rfl rfl)
      (.one (.apply 2 MapOp.len rfl rfl)))))))))⟩

/-- C41: the sync map used by one goroutine answers every call of every history exactly, as long as there are fewer than 2³¹ keys. -/
theorem C41_sync {h : List (MapOp V × MapRet V)} {m : Sync V} (hl : Legal (Sync.obj V) (Sync.new V) h m)
    (hn : ∀ before after, h = before ++ after → ∀ n, Holding (before.map Prod.fst) n → n < 2147483648) : Exact h := by
  induction hl with
  | nil => exact exact_nil
  | @snoc h w o hl ih =>
    obtain ⟨r, hs⟩ := sync_legal hl
    refine exact_snoc (ih fun b a e n => hn b (a ++ _) (by rw [e, List.append_assoc]) n) ?_
    have hlen := hn h _ rfl _ r.holding
    cases o with
    | set k v => rfl
    | remove k => rfl
    | get k => exact ⟨_, rfl, fun v => r.get k v⟩
    | has k => exact ⟨_, rfl, r.isSome k⟩
    | len => exact ⟨_, by rw [← wrap32_of_lt hlen, ← hs]; rfl, r.holding⟩

example : Legal (Sync.obj Nat) (Sync.new Nat) [(.set b!"a" 1, .unit), (.set b!"a" 2, .unit), (.remove b!"b", .unit), (.len, .int 1)]
    { container := [(b!"a", 2)], size := 1 } :=
  legal_cons (MapOp.set b!"a" 1) (legal_cons (MapOp.set b!"a" 2) (legal_cons (MapOp.remove b!"b") (legal_cons MapOp.len .nil)))

theorem writesOf_append (t u : List (Sync.Ev V)) : writesOf (t ++ u) = writesOf t ++ writesOf u := by
  induction t with
  | nil => rfl
  | cons a t ih => cases a <;> simp [writesOf, ih]

theorem syncRel {tr : List (Sync.Ev V)} {s : Sync.Sys V} (h : Exec Sync.Step (Sync.start V) tr s) : MapRel s.map.container (writesOf tr) := by
  refine h.inv (P := fun tr s => MapRel s.map.container (writesOf tr)) mapRel_nil ?_
  intro tr s l s' _ ih hs
  rw [writesOf_append]
  cases hs with
  | store t k v f _ => exact ih.set k v
  | delete t k _ => exact ih.erase k
  | _ => simpa [writesOf, Sync.add] using ih

/-- C41: in every interleaving, `Get` and `Has` of the sync map answer exactly, in the order in which stores and deletions take effect. -/
theorem C41_sync_get {tr : List (Sync.Ev V)} {s : Sync.Sys V} (h : Exec Sync.Step (Sync.start V) tr s) (t : Nat) (k : Bytes) :
    (∀ x, After tr (.got t k x) fun before => ∀ v, x = some v ↔ Holds (writesOf before) k v) ∧
    (∀ b, After tr (.had t k b) fun before => b = true ↔ ∃ v, Holds (writesOf before) k v) := by
  constructor
  · intro x
    refine .of_step h ?_
    intro tr1 s1 s2 h1 hs v
    cases hs with
    | get _ _ _ => exact (syncRel h1).get k v
  · intro x
    refine .of_step h ?_
    intro tr1 s1 s2 h1 hs
    cases hs with
    | has _ _ _ => exact (syncRel h1).isSome k

/-- C41: no call on the sync map waits for another goroutine. A `Set` can go on to store its value and return; a `Remove` of a key that has
a value can go on to delete it and return, one of a key without does nothing. -/
theorem C41_sync_goes_on {tr : List (Sync.Ev V)} {s s' : Sync.Sys V} {t : Nat} {k : Bytes} (h : Exec Sync.Step (Sync.start V) tr s) :
    (∀ v, Sync.Step s (.set t k v) s' → ∃ s'', s''.pcs t = .idle ∧
      ((∃ w, Holds (writesOf tr) k w) → Exec Sync.Step s' [.stored t k v] s'') ∧
      ((¬ ∃ w, Holds (writesOf tr) k w) → Exec Sync.Step s' [.added t k, .stored t k v] s'')) ∧
    (Sync.Step s (.remove t k) s' →
      ((∃ w, Holds (writesOf tr) k w) → ∃ s'', s''.pcs t = .idle ∧ Exec Sync.Step s' [.deleted t k, .subtracted t k] s'') ∧
      ((¬ ∃ w, Holds (writesOf tr) k w) → s' = s)) := by
  have hh : s.map.has k = true ↔ ∃ w, Holds (writesOf tr) k w := (syncRel h).isSome k
  refine ⟨fun v hs => ?_, fun hs => ?_⟩
  · rw [← hh]
    cases hs with
    | setOld _ _ _ hi hx =>
      exact ⟨_, by simp [upd], fun _ => .one (.store t k v false (by simp [upd])), fun hn => absurd hx hn⟩
    | setNew _ _ _ hi hx =>
      refine ⟨_, ?_, fun hy => ?_, fun _ => .cons (.add t k v (by simp [upd])) (.one (.store t k v true (by simp [upd])))⟩
      · simp [upd]
      · rw [hx] at hy; cases hy
  · rw [← hh]
    cases hs with
    | removeOld _ _ hi hx =>
      exact ⟨fun _ => ⟨_, by simp [upd], .cons (.delete t k (by simp [upd])) (.one (.subtract t k (by simp [upd])))⟩,
        fun hn => absurd hx hn⟩
    | removeNone _ _ hi hx =>
      exact ⟨fun hy => absurd hy (by simp [hx]), fun _ => rfl⟩

/-- A removal of a key that has a value. -/
example : ∃ s s', Exec Sync.Step (Sync.start Nat) [.set 1 b!"a" 5, .added 1 b!"a", .stored 1 b!"a" 5] s ∧ Sync.Step s (.remove 2 b!"a") s' :=
  ⟨_, _, .cons (.setNew 1 b!"a" 5 rfl rfl) (.cons (.add 1 b!"a" 5 rfl) (.one (.store 1 b!"a" 5 true rfl))), .removeOld 2 b!"a" rfl rfl⟩

/-- The full claim for `Len` of the sync map: when no `Set` or `Remove` is under way, `Len` is the number of keys. -/
def SyncLenExact (V : Type) : Prop := ∀ (tr : List (Sync.Ev V)) (s : Sync.Sys V) (t : Nat) (n : Int),
  Exec Sync.Step (Sync.start V) tr s → Quiet s → Sync.Step s (.len t n) s → ∃ m : Nat, n = m ∧ Holding (writesOf tr) m

/-- C41 is false for the sync map: two goroutines that set the same new key at the same time make `Len` answer 2 for one key, for ever. -/
theorem C41_false (v : V) : ¬ SyncLenExact V := by
  intro hc
  have hx : ∃ s, Exec Sync.Step (Sync.start V) [.set 1 b!"a" v, .set 2 b!"a" v, .added 1 b!"a", .added 2 b!"a", .stored 1 b!"a" v, .stored 2 b!"a" v] s ∧
      Quiet s ∧ Sync.Step s (.len 1 2) s :=
    ⟨_, .cons (.setNew 1 _ v rfl rfl) (.cons (.setNew 2 _ v rfl rfl) (.cons (.add 1 _ v rfl) (.cons (.add 2 _ v rfl) (.cons (.store 1 _ v true rfl)
      (.one (.store 2 _ v true rfl)))))), by
        intro t
        by_cases e1 : t = 1
        · simp [e1, upd, busy]
        · by_cases e2 : t = 2 <;> simp [e1, e2, upd, busy, Sync.start], .len 1 rfl⟩
  obtain ⟨s, he, hq, hl⟩ := hx
  obtain ⟨m, hm, hh⟩ := hc _ s 1 2 he hq hl
  have h1 : Holding [MapOp.set b!"a" v, .set b!"a" v] 1 := by
    have r := ((mapRel_nil (V := V)).set b!"a" v).set b!"a" v
    simpa [GoMap.set] using r.holding
  have : m = 1 := holding_unique hh h1
  omega

/-- The pending corrections of the counter: goroutines that have counted but not stored, or deleted but not counted. -/
def pending : Sync.Pc V → Bool
  | .storing _ _ true | .subtracting _ => true
  | _ => false

/-- What holds when no two goroutines set or remove the same key at once. -/
structure SyncInv (s : Sync.Sys V) : Prop where
  wf : s.map.container.WF
  apart : Apart s
  fresh : ∀ t k v, s.pcs t = .adding k v ∨ s.pcs t = .storing k v true → s.map.has k = false
  old : ∀ t k, (∃ v, s.pcs t = .storing k v false) ∨ s.pcs t = .deleting k → s.map.has k = true
  size : ∃ ps : List Nat, ps.Nodup ∧ (∀ t, t ∈ ps ↔ pending (s.pcs t) = true) ∧ s.map.size = Proto.wrap32 (s.map.container.length + ps.length)

theorem syncInv {tr : List (Sync.Ev V)} {s : Sync.Sys V} (h : Exec (fun s e s' => Sync.Step s e s' ∧ Apart s') (Sync.start V) tr s) : SyncInv s := by
  refine h.inv (P := fun _ s => SyncInv s) ?_ ?_
  · refine ⟨by simp [Sync.start, Sync.new], by simp [Apart, Sync.start, busy], by simp [Sync.start], by simp [Sync.start], [], ?_⟩
    simp [Sync.start, pending, Sync.new, Proto.wrap32]
  · intro tr s l s' _ ih hs
    obtain ⟨hs, ha⟩ := hs
    obtain ⟨wf, ap, fr, old, ps, nd, hp, sz⟩ := ih
    cases hs with
    | setOld t k v hi hh =>
      refine ⟨wf, ha, by grind [upd], by grind [upd], ps, nd, by grind [upd, pending], sz⟩
    | setNew t k v hi hh =>
      refine ⟨wf, ha, by grind [upd], by grind [upd], ps, nd, by grind [upd, pending], sz⟩
    | add t k v hi =>
      refine ⟨wf, ha, ?_, ?_, t :: ps, by grind [pending], by grind [upd, pending], ?_⟩
      · simp only [Sync.add, Sync.has] at *; grind [upd]
      · simp only [Sync.add, Sync.has] at *; grind [upd]
      · simp only [Sync.add, sz, wrap32_wrap32_add, List.length_cons]; congr 1
    | store t k v f hi =>
      have hne : ∀ u, u ≠ t → busy (s.pcs u) ≠ some k := fun u hu hb => hu (ap u t k hb (by simp [hi, busy]))
      refine ⟨GoMap.wf_set wf k v, ha, ?_, ?_, ps.erase t, nd.erase t, ?_, ?_⟩
      · simp only [Sync.store, Sync.has, GoMap.get_set] at *; grind [upd, busy]
      · simp only [Sync.store, Sync.has, GoMap.get_set] at *; grind [upd, busy]
      · grind [upd, pending, List.Nodup.mem_erase_iff]
      · cases f with
        | true =>
          have hm : t ∈ ps := (hp t).2 (by simp [hi, pending])
          have h1 := length_set_not_mem (fr t k v (.inr hi)) v
          have h2 := List.length_erase_of_mem hm
          have h3 := List.length_pos_of_mem hm
          simp only [Sync.store, sz, h1, h2]; congr 1; omega
        | false =>
          have hm : t ∉ ps := by rw [hp]; simp [hi, pending]
          simp only [Sync.store, sz, length_set_mem (old t k (.inl ⟨v, hi⟩)) v, List.erase_of_not_mem hm]
    | removeOld t k hi hh =>
      refine ⟨wf, ha, by grind [upd], by grind [upd], ps, nd, by grind [upd, pending], sz⟩
    | removeNone t k hi hh => exact ⟨wf, ap, fr, old, ps, nd, hp, sz⟩
    | delete t k hi =>
      have hne : ∀ u, u ≠ t → busy (s.pcs u) ≠ some k := fun u hu hb => hu (ap u t k hb (by simp [hi, busy]))
      have h1 := length_erase_mem wf (old t k (.inr hi))
      refine ⟨GoMap.wf_erase wf k, ha, ?_, ?_, t :: ps, by grind [pending], by grind [upd, pending], ?_⟩
      · simp only [Sync.delete, Sync.has, GoMap.get_erase] at *; grind [upd, busy]
      · simp only [Sync.delete, Sync.has, GoMap.get_erase] at *; grind [upd, busy]
      · simp only [Sync.delete, sz, List.length_cons]; congr 1; omega
    | subtract t k hi =>
      have hm : t ∈ ps := (hp t).2 (by simp [hi, pending])
      have h2 := List.length_erase_of_mem hm
      have h3 := List.length_pos_of_mem hm
      refine ⟨wf, ha, ?_, ?_, ps.erase t, nd.erase t, ?_, ?_⟩
      · simp only [Sync.add, Sync.has] at *; grind [upd]
      · simp only [Sync.add, Sync.has] at *; grind [upd]
      · grind [upd, pending, List.Nodup.mem_erase_iff]
      · simp only [Sync.add, sz, wrap32_wrap32_add, h2]; congr 1; omega
    | get => exact ⟨wf, ap, fr, old, ps, nd, hp, sz⟩
    | has => exact ⟨wf, ap, fr, old, ps, nd, hp, sz⟩
    | len => exact ⟨wf, ap, fr, old, ps, nd, hp, sz⟩

theorem exec_mono {S L : Type} {step step' : S → L → S → Prop} (hst : ∀ s l s', step s l s' → step' s l s') {s0 : S} {tr : List L} {s : S}
    (h : Exec step s0 tr s) : Exec step' s0 tr s := by
  induction h with
  | nil => exact .nil
  | snoc _ hs ih => exact .snoc ih (hst _ _ _ hs)

/-- C41, partial: `SyncLenExact` when no two goroutines ever set or remove the same key at the same time (other keys may be used freely), and
there are fewer than 2³¹ keys. Missing: overlapping calls for one key, where it is false (`C41_false`). -/
theorem C41_sync_len_partial {tr : List (Sync.Ev V)} {s : Sync.Sys V} {t : Nat} {n : Int}
    (h : Exec (fun s e s' => Sync.Step s e s' ∧ Apart s') (Sync.start V) tr s) (hq : Quiet s) (hl : Sync.Step s (.len t n) s)
    (hn : ∀ m, Holding (writesOf tr) m → m < 2147483648) : ∃ m : Nat, n = m ∧ Holding (writesOf tr) m := by
  obtain ⟨-, -, -, -, ps, -, hp, sz⟩ := syncInv h
  have r := syncRel (exec_mono (fun _ _ _ hx => hx.1) h)
  refine ⟨_, ?_, r.holding⟩
  have : ps = [] := by
    refine List.eq_nil_iff_forall_not_mem.2 fun u hu => ?_
    have h1 := (hp u).1 hu
    have h2 := hq u
    cases hx : s.pcs u <;> simp_all [busy, pending]
  cases hl with
  | len _ _ => rw [sz, this]; simpa using wrap32_of_lt (hn _ r.holding)

/-- Two goroutines setting different keys at the same time. -/
example : ∃ s, Exec (fun s e s' => Sync.Step s e s' ∧ Apart s') (Sync.start Nat)
    [.set 1 b!"a" 5, .set 2 b!"b" 6, .added 2 b!"b", .added 1 b!"a", .stored 1 b!"a" 5, .stored 2 b!"b" 6] s ∧ Quiet s ∧ Sync.Step s (.len 3 2) s := by
  refine ⟨_, .cons ⟨.setNew 1 b!"a" 5 rfl rfl, ?_⟩ (.cons ⟨.setNew 2 b!"b" 6 rfl rfl, ?_⟩ (.cons ⟨.add 2 b!"b" 6 rfl, ?_⟩ (.cons ⟨.add 1 b!"a" 5 rfl, ?_⟩
    (.cons ⟨.store 1 b!"a" 5 true rfl, ?_⟩ (.one ⟨.store 2 b!"b" 6 true rfl, ?_⟩))))), ?_, .len 3 rfl⟩
  all_goals grind [Apart, Quiet, upd, busy, Sync.start]

end Verif.Props
