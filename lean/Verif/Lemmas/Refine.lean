import Verif.Lemmas.Abs

/-! Every command, executed by the server on a state that stores the abstract database `a`, does what `Spec.Step` says. -/

namespace Verif

open Spec

/-! ### Numbers and windows -/

theorem wraps_wrap64 (x : Int) : Wraps x (wrap64 x) := by
  refine ⟨wrap64_in x, -((x + 9223372036854775808) / 18446744073709551616), ?_⟩
  unfold wrap64
  have : (2 : Int) ^ 64 = 18446744073709551616 := by decide
  rw [this]
  omega

theorem isInt_iff {s : Bytes} {v : Int} : IsInt s v ↔ parseInt64 s = some v := parseInt64_eq_some.symm

theorem not_isInt_iff {s : Bytes} : (¬ ∃ v, IsInt s v) ↔ parseInt64 s = none := by
  simp only [isInt_iff]
  cases parseInt64 s <;> simp

theorem fmtNatAux_head (f n : Nat) (h : n < f) (hn : n ≠ 0) : ∃ c ds, fmtNatAux f n = c :: ds ∧ c ≠ 48 := by
  induction f generalizing n with
  | zero => omega
  | succ f ih =>
    unfold fmtNatAux
    split
    · rename_i hlt
      refine ⟨_, _, rfl, ?_⟩
      intro e
      have := congrArg UInt8.toNat e
      simp [UInt8.toNat_ofNat] at this
      omega
    · obtain ⟨c, ds, e, hc⟩ := ih (n / 10) (by omega) (by omega)
      exact ⟨c, ds ++ [UInt8.ofNat (48 + n % 10)], by rw [e]; rfl, hc⟩

theorem fmtNat_head {n : Nat} (hn : n ≠ 0) : ∃ c ds, fmtNat n = c :: ds ∧ c ≠ 48 ∧ c ≠ 43 ∧ c ≠ 45 := by
  obtain ⟨c, ds, e, hc⟩ := fmtNatAux_head (n + 1) n (by omega) hn
  have hd := (fmtNat_spec n).2.1 c (by unfold fmtNat; rw [e]; simp)
  exact ⟨c, ds, e, hc, isDigit_ne_sign hd⟩

theorem decimal_fmtInt (v : Int) : Decimal (fmtInt v) v := by
  refine ⟨numeral_fmtInt v, ?_⟩
  cases v with
  | ofNat k =>
    by_cases hk : k = 0
    · subst hk; left; rfl
    · obtain ⟨c, ds, e, h1, h2, h3⟩ := fmtNat_head hk
      exact .inr ⟨c, ds, h1, h2, .inr ⟨h3, e⟩⟩
  | negSucc k =>
    obtain ⟨c, ds, e, h1, h2, h3⟩ := fmtNat_head (Nat.succ_ne_zero k)
    refine .inr ⟨c, ds, h1, h2, .inl ?_⟩
    show 45 :: fmtNat (k + 1) = _
    rw [show fmtNat (k + 1) = c :: ds from e]

theorem window_nat {l r n : Int} : (∃ a b : Int, Window l r n a b) ↔ ∃ i j : Nat, Window l r n i j := by
  constructor
  · rintro ⟨a, b, h⟩
    have h' := h
    unfold Window Denotes at h'
    refine ⟨a.toNat, b.toNat, ?_⟩
    rw [show ((a.toNat : Nat) : Int) = a by omega, show ((b.toNat : Nat) : Int) = b by omega]
    exact h
  · rintro ⟨i, j, h⟩; exact ⟨i, j, h⟩

theorem listWindow_nat {l r n : Int} : (∃ a b : Int, ListWindow l r n a b) ↔ ∃ i j : Nat, ListWindow l r n i j := window_nat

theorem denotes_nat {i n : Int} : (∃ p : Int, Denotes i n p) ↔ ∃ p : Nat, Denotes i n p := by
  constructor
  · rintro ⟨a, h⟩
    have h' := h
    unfold Denotes at h'
    refine ⟨a.toNat, ?_⟩
    rw [show ((a.toNat : Nat) : Int) = a by omega]
    exact h
  · rintro ⟨i, h⟩; exact ⟨i, h⟩

theorem getRange_new (s : Bytes) (l r : Int) :
    (∀ i j : Nat, Window l r s.length i j → (Str.new s).getRange l r = .ok (some (Str.new (slice s i j)))) ∧
    ((¬ ∃ i j : Nat, Window l r s.length i j) → (Str.new s).getRange l r = .ok none) := by
  have hn : (0 : Int) ≤ s.length := by omega
  constructor
  · intro i j hw
    have hr := (Props.C49_slice l r s.length i j hn).1.2 hw
    have hb := (Props.C49_slice l r s.length i j hn).2.2 hr.1
    unfold Str.getRange
    simp only [Str.new_len, hr.1, Str.new_data]
    rw [if_neg (by omega)]
    unfold goSlice
    rw [if_pos (by omega)]
    simp only [slice]
    rw [show ((j : Int) + 1).toNat - (i : Int).toNat = ((j : Int) + 1 - i).toNat by omega]
  · intro hw
    rw [← window_nat] at hw
    have := (Props.C49_slice l r s.length 0 0 hn).2.1.2 hw
    unfold Str.getRange
    simp only [Str.new_len, this]
    simp

/-! ### The abstraction relation -/

@[simp] theorem setStr_strs (a : DB) (k v : Bytes) : (a.setStr k v).strs = Function.update a.strs k (some v) := rfl
@[simp] theorem setStr_lists (a : DB) (k v : Bytes) : (a.setStr k v).lists = a.lists := rfl
@[simp] theorem setStr_hashes (a : DB) (k v : Bytes) : (a.setStr k v).hashes = a.hashes := rfl
@[simp] theorem setStr_sets (a : DB) (k v : Bytes) : (a.setStr k v).sets = a.sets := rfl

theorem setList_self {a : DB} {k : Bytes} {xs : List Bytes} (h : a.lists k = some xs) : a.setList k xs = a := by
  unfold DB.setList; rw [← h, Function.update_eq_self]
theorem setHash_self {a : DB} {k : Bytes} {m : Hash} (h : a.hashes k = some m) : a.setHash k m = a := by
  unfold DB.setHash; rw [← h, Function.update_eq_self]
theorem setSet_self {a : DB} {k : Bytes} {s : Finset Bytes} (h : a.sets k = some s) : a.setSet k s = a := by
  unfold DB.setSet; rw [← h, Function.update_eq_self]
@[simp] theorem setList_setList (a : DB) (k : Bytes) (xs ys : List Bytes) : (a.setList k xs).setList k ys = a.setList k ys := by
  unfold DB.setList; simp
@[simp] theorem setHash_setHash (a : DB) (k : Bytes) (xs ys : Hash) : (a.setHash k xs).setHash k ys = a.setHash k ys := by
  unfold DB.setHash; simp
@[simp] theorem setSet_setSet (a : DB) (k : Bytes) (xs ys : Finset Bytes) : (a.setSet k xs).setSet k ys = a.setSet k ys := by
  unfold DB.setSet; simp

theorem abs_empty : Abs State.empty DB.empty :=
  ⟨GoMap.wf_nil, fun _ => rfl, fun _ => trivial, fun _ => trivial, fun _ => trivial⟩

theorem OptRel.unique {α β : Type} {R : α → β → Prop} (hR : ∀ a b b', R a b → R a b' → b = b') {x : Option α} {y y' : Option β}
    (h : OptRel R x y) (h' : OptRel R x y') : y = y' := by
  cases x <;> cases y <;> cases y' <;> simp_all [OptRel]
  exact hR _ _ _ h h'

/-- A state stores only one abstract database. -/
theorem abs_unique {st : State} {a b : DB} (h : Abs st a) (h' : Abs st b) : a = b := by
  obtain ⟨s1, l1, h1, t1⟩ := a
  obtain ⟨s2, l2, h2, t2⟩ := b
  congr 1
  · funext k
    have := (h.strs k).symm.trans (h'.strs k)
    exact Option.map_injective (fun _ _ h => Str.new_inj h) this
  · funext k; exact OptRel.unique (R := LList.Rep) (fun _ _ _ => LList.rep_unique) (h.lists k) (h'.lists k)
  · funext k; exact OptRel.unique (R := HashRep) (fun _ _ _ => HashC.rep_unique) (h.hashes k) (h'.hashes k)
  · funext k; exact OptRel.unique (R := SetRep) (fun _ _ _ => SetC.rep_unique) (h.sets k) (h'.sets k)

theorem optRel_update {α β : Type} {R : α → β → Prop} {m : GoMap α} {f : Bytes → Option β} (h : ∀ k, OptRel R (m.get k) (f k)) (k : Bytes)
    {x : α} {y : β} (r : R x y) : ∀ k', OptRel R ((m.set k x).get k') (Function.update f k (some y) k') := by
  intro k'
  rw [GoMap.get_set]
  by_cases e : k = k'
  · subst e; simpa [OptRel] using r
  · rw [if_neg e, Function.update_of_ne (fun h => e h.symm)]; exact h k'

namespace Spec.Abs

variable {st : State} {a : DB}

theorem setGlobal (h : Abs st a) (k v : Bytes) : Abs { st with global := st.global.set k (Str.new v) } (a.setStr k v) := by
  refine ⟨GoMap.wf_set h.wf _ _, fun x => ?_, h.lists, h.hashes, h.sets⟩
  rw [GoMap.get_set]
  by_cases e : k = x
  · subst e; simp
  · rw [if_neg e, h.strs x, setStr_strs, Function.update_of_ne (fun h => e h.symm)]

theorem putList (h : Abs st a) {l : LList} {xs : List Bytes} (r : l.Rep xs) (k : Bytes) : Abs (st.putList k l) (a.setList k xs) :=
  ⟨h.wf, h.strs, optRel_update h.lists k r, h.hashes, h.sets⟩

theorem putHash (h : Abs st a) {c : HashC} {m : Hash} (r : HashRep c m) (k : Bytes) : Abs (st.putHash k c) (a.setHash k m) :=
  ⟨h.wf, h.strs, h.lists, optRel_update h.hashes k r, h.sets⟩

theorem putSet (h : Abs st a) {c : SetC} {s : Finset Bytes} (r : SetRep c s) (k : Bytes) : Abs (st.putSet k c) (a.setSet k s) :=
  ⟨h.wf, h.strs, h.lists, h.hashes, optRel_update h.sets k r⟩

/-- A list key, as the server and as the client sees it. -/
theorem list_cases (h : Abs st a) (k : Bytes) :
    (st.lists.get k = none ∧ a.lists k = none ∧ a.listAt k = []) ∨
    ∃ l xs, st.lists.get k = some l ∧ a.lists k = some xs ∧ a.listAt k = xs ∧ l.Rep xs := by
  have := h.lists k
  unfold DB.listAt
  cases h1 : st.lists.get k <;> cases h2 : a.lists k <;> simp_all [OptRel]

theorem hash_cases (h : Abs st a) (k : Bytes) :
    (st.hashes.get k = none ∧ a.hashes k = none ∧ a.hashAt k = ∅) ∨
    ∃ c m, st.hashes.get k = some c ∧ a.hashes k = some m ∧ a.hashAt k = m ∧ HashRep c m := by
  have := h.hashes k
  unfold DB.hashAt
  cases h1 : st.hashes.get k <;> cases h2 : a.hashes k <;> simp_all [OptRel]

theorem set_cases (h : Abs st a) (k : Bytes) :
    (st.sets.get k = none ∧ a.sets k = none ∧ a.setAt k = ∅) ∨
    ∃ c s, st.sets.get k = some c ∧ a.sets k = some s ∧ a.setAt k = s ∧ SetRep c s := by
  have := h.sets k
  unfold DB.setAt
  cases h1 : st.sets.get k <;> cases h2 : a.sets k <;> simp_all [OptRel]

theorem getOrCreateList (h : Abs st a) {k : Bytes} (hk : k ≠ []) :
    ∃ st1 l, st.getOrCreateList k = (st1, some l) ∧ l.Rep (a.listAt k) ∧ Abs st1 (a.setList k (a.listAt k)) := by
  unfold State.getOrCreateList
  rw [if_neg hk]
  rcases h.list_cases k with ⟨e1, e2, e3⟩ | ⟨l, xs, e1, e2, e3, r⟩
  · rw [e1, e3]; exact ⟨_, _, rfl, LList.rep_new, h.putList LList.rep_new k⟩
  · rw [e1, e3]; refine ⟨_, _, rfl, r, ?_⟩
    rw [setList_self e2]; exact h

theorem getOrCreateHash (h : Abs st a) {k : Bytes} (hk : k ≠ []) :
    ∃ st1 l, st.getOrCreateHash k = (st1, some l) ∧ HashRep l (a.hashAt k) ∧ Abs st1 (a.setHash k (a.hashAt k)) := by
  unfold State.getOrCreateHash
  rw [if_neg hk]
  rcases h.hash_cases k with ⟨e1, e2, e3⟩ | ⟨l, xs, e1, e2, e3, r⟩
  · rw [e1, e3]; exact ⟨_, _, rfl, HashC.rep_new, h.putHash HashC.rep_new k⟩
  · rw [e1, e3]; refine ⟨_, _, rfl, r, ?_⟩
    rw [setHash_self e2]; exact h

theorem getOrCreateSet (h : Abs st a) {k : Bytes} (hk : k ≠ []) :
    ∃ st1 l, st.getOrCreateSet k = (st1, some l) ∧ SetRep l (a.setAt k) ∧ Abs st1 (a.setSet k (a.setAt k)) := by
  unfold State.getOrCreateSet
  rw [if_neg hk]
  rcases h.set_cases k with ⟨e1, e2, e3⟩ | ⟨l, xs, e1, e2, e3, r⟩
  · rw [e1, e3]; exact ⟨_, _, rfl, SetC.rep_new, h.putSet SetC.rep_new k⟩
  · rw [e1, e3]; refine ⟨_, _, rfl, r, ?_⟩
    rw [setSet_self e2]; exact h

end Spec.Abs

/-- The server's result matches an abstract outcome. -/
def Sim (out : Out) (res : ExecRes) : Prop :=
  match out, res with
  | none, .panic => True
  | some (a', v), .ok (st', v') => v' = v ∧ Abs st' a'
  | _, _ => False

/-- The server's result is one of those `Step` allows. -/
def Refines (a : DB) (c : Command) (res : ExecRes) : Prop := ∃ out, Step a c out ∧ Sim out res

theorem refines_ok {a : DB} {c : Command} {st' : State} {a' : DB} {r : Resp} (hs : Step a c (done a' r)) (h : Abs st' a') :
    Refines a c (.ok (st', .ok r)) := ⟨_, hs, rfl, h⟩

theorem refines_err {a : DB} {c : Command} {st' : State} {a' : DB} {e : CmdErr} (hs : Step a c (fails a' e)) (h : Abs st' a') :
    Refines a c (.ok (st', .error e)) := ⟨_, hs, rfl, h⟩

theorem refines_panic {a : DB} {c : Command} (hs : Step a c none) : Refines a c .panic := ⟨_, hs, trivial⟩

section

variable {env : Env} {st : State} {a : DB}

/-! ### Strings -/

theorem exec_set (h : Abs st a) (k v : Bytes) : Refines a (.set k v) (Exec.set st k v) :=
  refines_ok (st' := { st with global := st.global.set k (Str.new v) }) rfl (h.setGlobal k v)

theorem exec_get (h : Abs st a) (k : Bytes) : Refines a (.get k) (Exec.get st k) := by
  unfold Exec.get StrMap.getAll
  simp only [List.map_cons, List.map_nil, Str.new_data, h.strs k]
  cases e : a.strs k with
  | none => exact refines_ok (by simp [Step, e, bulk?]) h
  | some v => exact refines_ok (by simp [Step, e, bulk?]) h

theorem foldl_setStr (ps : List (Bytes × Bytes)) (a : DB) :
    ps.foldl (fun a p => a.setStr p.1 p.2) a =
      { a with strs := ps.foldl (fun (f : Bytes → Option Bytes) p => Function.update f p.1 (some p.2)) a.strs } := by
  induction ps generalizing a with
  | nil => rfl
  | cons p ps ih => simp only [List.foldl_cons]; rw [ih]; rfl

theorem exec_mset (h : Abs st a) {ks vs : List Bytes} (hl : ks.length = vs.length) : Refines a (.mset ks vs) (Exec.mset st ks vs) := by
  unfold Exec.mset
  split
  · rename_i e; exact refines_err (by simp only [Step, e]; exact ⟨_, rfl⟩) h
  · rename_i e
    refine refines_ok (by simp only [Step, e]; exact rfl) ?_
    have := StrMap.setLoop_abs h.wf h.strs ks vs
    rw [foldl_setStr]
    unfold StrMap.setAll
    rw [if_neg (by simp [hl])]
    exact ⟨this.1, this.2, h.lists, h.hashes, h.sets⟩

theorem exec_mget (h : Abs st a) (ks : List Bytes) : Refines a (.mget ks) (Exec.mget st ks) := by
  refine refines_ok ?_ h
  simp only [Step, StrMap.getAll, List.map_map, done]
  congr 4
  apply List.map_congr_left
  intro k _
  simp only [Function.comp_apply, Str.new_data, h.strs k]
  cases a.strs k <;> rfl

theorem exec_exist (h : Abs st a) (ks : List Bytes) : Refines a (.exist ks) (Exec.exist st ks) := by
  refine refines_ok ?_ h
  simp only [Step, StrMap.existsCount, StrMap.existsLoop_eq h.strs, Int.zero_add]

theorem exec_strlen (h : Abs st a) (k : Bytes) : Refines a (.strlen k) (Exec.strlen st k) := by
  refine refines_ok ?_ h
  simp only [Step, StrMap.stringLen, Str.new_data, h.strs k]
  cases a.strs k <;> rfl

theorem exec_append (h : Abs st a) (k v : Bytes) : Refines a (.append k v) (Exec.append st k v) := by
  unfold Exec.append StrMap.append
  simp only [Str.new_data, h.strs k]
  cases e : a.strs k with
  | none => exact refines_ok (by simp [Step, e]) (h.setGlobal k v)
  | some old =>
    simp only [Option.map_some, Str.append_new, Str.new_len]
    exact refines_ok (by simp [Step, e]) (h.setGlobal k (old ++ v))

theorem exec_incr (h : Abs st a) (k arg : Bytes) : Refines a (.incr k arg) (Exec.incr env st k arg) := by
  unfold Exec.incr
  cases hd : parseInt64 arg with
  | none => exact refines_err (.inr (.inl ⟨not_isInt_iff.2 hd, _, rfl⟩)) h
  | some d =>
    have hd' : ∃ d, IsInt arg d := ⟨d, isInt_iff.2 hd⟩
    unfold StrMap.increase
    simp only [Str.new_data, h.strs k]
    cases e : a.strs k with
    | none => exact refines_err (.inr (.inr (.inl ⟨hd', e, rfl⟩))) h
    | some old =>
      simp only [Option.map_some, Str.increase_new]
      cases hv : parseInt64 old with
      | none => exact refines_err (.inr (.inr (.inr ⟨hd', ⟨old, e, not_isInt_iff.2 hv⟩, rfl⟩))) h
      | some v =>
        exact refines_ok (.inl ⟨old, v, d, _, _, e, isInt_iff.2 hv, isInt_iff.2 hd, wraps_wrap64 _, decimal_fmtInt _, rfl⟩)
          (h.setGlobal k _)

theorem exec_decr (h : Abs st a) (k arg : Bytes) : Refines a (.decr k arg) (Exec.decr env st k arg) := by
  unfold Exec.decr
  cases hd : parseInt64 arg with
  | none => exact refines_err (.inr (.inl ⟨not_isInt_iff.2 hd, _, rfl⟩)) h
  | some d =>
    have hd' : ∃ d, IsInt arg d := ⟨d, isInt_iff.2 hd⟩
    unfold StrMap.decrease
    simp only [Str.new_data, h.strs k]
    cases e : a.strs k with
    | none => exact refines_err (.inr (.inr (.inl ⟨hd', e, rfl⟩))) h
    | some old =>
      simp only [Option.map_some, Str.decrease_new]
      cases hv : parseInt64 old with
      | none => exact refines_err (.inr (.inr (.inr ⟨hd', ⟨old, e, not_isInt_iff.2 hv⟩, rfl⟩))) h
      | some v =>
        exact refines_ok (.inl ⟨old, v, d, _, _, e, isInt_iff.2 hv, isInt_iff.2 hd, wraps_wrap64 _, decimal_fmtInt _, rfl⟩)
          (h.setGlobal k _)

theorem exec_getrange (h : Abs st a) (k : Bytes) (l r : Int) : Refines a (.getrange k l r) (Exec.getrange st k l r) := by
  unfold Exec.getrange StrMap.getRange
  simp only [Str.new_data, h.strs k]
  cases e : a.strs k with
  | none =>
    refine refines_ok (.inr ⟨?_, rfl⟩) h
    rintro ⟨i, j, hw⟩
    rw [e] at hw
    unfold Window Denotes at hw
    simp at hw
    omega
  | some s =>
    simp only [Option.map_some]
    by_cases hw : ∃ i j : Nat, Window l r s.length i j
    · obtain ⟨i, j, hw⟩ := hw
      rw [(getRange_new s l r).1 i j hw]
      exact refines_ok (.inl ⟨i, j, by rw [e]; exact hw, by rw [e]; rfl⟩) h
    · rw [(getRange_new s l r).2 hw]
      exact refines_ok (.inr ⟨by rw [e]; exact hw, rfl⟩) h

/-! ### Lists -/

theorem exec_lpop (h : Abs st a) (k : Bytes) : Refines a (.lpop k) (Exec.lpop st k) := by
  unfold Exec.lpop
  rcases h.list_cases k with ⟨e1, e2, e3⟩ | ⟨l, xs, e1, e2, e3, r⟩
  · rw [e1]; exact refines_ok (by simp [Step, e2]) h
  · rw [e1]
    cases xs with
    | nil =>
      simp only [LList.popHead_rep_nil r, Outcome.bind_ok]
      refine refines_ok (by simp [Step, e2]; rfl) ?_
      have := h.putList r k
      rwa [setList_self e2] at this
    | cons x xs =>
      obtain ⟨l', e, r'⟩ := LList.popHead_rep_cons r
      simp only [e, Outcome.bind_ok]
      exact refines_ok (by simp [Step, e2]) (h.putList r' k)

theorem exec_rpop (h : Abs st a) (k : Bytes) : Refines a (.rpop k) (Exec.rpop st k) := by
  unfold Exec.rpop
  rcases h.list_cases k with ⟨e1, e2, e3⟩ | ⟨l, xs, e1, e2, e3, r⟩
  · rw [e1]; exact refines_ok (by simp [Step, e2]) h
  · rw [e1]
    rcases List.eq_nil_or_concat xs with rfl | ⟨ys, y, rfl⟩
    · simp only [LList.popTail_rep_nil r, Outcome.bind_ok]
      refine refines_ok (a' := a) (by simp only [Step, e2]; exact .inl ⟨trivial, trivial⟩) ?_
      have := h.putList r k
      rwa [setList_self e2] at this
    · rw [List.concat_eq_append] at r e2
      obtain ⟨l', e, r'⟩ := LList.popTail_rep_snoc r
      simp only [e, Outcome.bind_ok]
      exact refines_ok (by simp only [Step, e2]; exact .inr ⟨ys, y, rfl, rfl⟩) (h.putList r' k)

theorem exec_lpush (h : Abs st a) (k : Bytes) (vs : List Bytes) : Refines a (.lpush k vs) (Exec.lpush st k vs) := by
  unfold Exec.lpush
  by_cases hk : k = []
  · subst hk
    exact refines_err (by simp only [Step, if_pos]; exact ⟨_, rfl⟩) h
  · obtain ⟨st1, l, e, r, h1⟩ := h.getOrCreateList hk
    obtain ⟨l', e', r'⟩ := LList.pushHead_rep r vs
    simp only [e, e', Outcome.bind_ok]
    refine refines_ok (a' := a.setList k (vs.reverse ++ a.listAt k)) (by simp [Step, hk]) ?_
    have := h1.putList r' k
    rwa [setList_setList] at this

theorem exec_rpush (h : Abs st a) (k : Bytes) (vs : List Bytes) : Refines a (.rpush k vs) (Exec.rpush st k vs) := by
  unfold Exec.rpush
  by_cases hk : k = []
  · subst hk
    exact refines_err (by simp only [Step, if_pos]; exact ⟨_, rfl⟩) h
  · obtain ⟨st1, l, e, r, h1⟩ := h.getOrCreateList hk
    obtain ⟨l', e', r'⟩ := LList.pushTail_rep r vs
    simp only [e, e', Outcome.bind_ok]
    refine refines_ok (a' := a.setList k (a.listAt k ++ vs)) (by simp [Step, hk, Int.add_comm]) ?_
    have := h1.putList r' k
    rwa [setList_setList] at this

theorem not_listWindow_zero {l r : Int} : ¬ ∃ i j : Nat, ListWindow l r ([] : List Bytes).length i j := by
  rintro ⟨i, j, h⟩
  unfold ListWindow Window Denotes at h
  simp at h
  omega

theorem exec_lrange (h : Abs st a) (k : Bytes) (l r : Int) : Refines a (.lrange k l r) (Exec.lrange st k l r) := by
  unfold Exec.lrange
  rcases h.list_cases k with ⟨e1, e2, e3⟩ | ⟨c, xs, e1, e2, e3, rep⟩
  · rw [e1]; exact refines_ok (.inr ⟨by rw [e3]; exact not_listWindow_zero, rfl⟩) h
  · rw [e1]
    by_cases hw : ∃ i j : Nat, ListWindow l r xs.length i j
    · obtain ⟨i, j, hw⟩ := hw
      simp only [(LList.range_rep rep l r).1 i j hw, Outcome.bind_ok]
      refine refines_ok (.inl ⟨i, j, by rw [e3]; exact hw, ?_⟩) h
      rw [e3]; simp [bulks, Function.comp_def]
    · simp only [(LList.range_rep rep l r).2 (by rw [listWindow_nat]; exact hw), Outcome.bind_ok]
      exact refines_ok (.inr ⟨by rw [e3]; exact hw, rfl⟩) h

theorem exec_ltrim (h : Abs st a) (k : Bytes) (l r : Int) : Refines a (.ltrim k l r) (Exec.ltrim st k l r) := by
  unfold Exec.ltrim
  rcases h.list_cases k with ⟨e1, e2, e3⟩ | ⟨c, xs, e1, e2, e3, rep⟩
  · rw [e1]; exact refines_ok (.inr ⟨by rw [e3]; exact not_listWindow_zero, rfl⟩) h
  · rw [e1]
    by_cases hw : ∃ i j : Nat, ListWindow l r xs.length i j
    · obtain ⟨i, j, hw⟩ := hw
      obtain ⟨c', e, rep'⟩ := (LList.trim_rep rep l r).1 i j hw
      simp only [e, Outcome.bind_ok]
      exact refines_ok (.inl ⟨i, j, by rw [e3]; exact hw, by rw [e3]; rfl⟩) (h.putList rep' k)
    · simp only [(LList.trim_rep rep l r).2 (by rw [listWindow_nat]; exact hw), Outcome.bind_ok]
      have key : ∃ c' w, c.trim 0 (-1) = .ok (c', w) ∧ c'.Rep xs := by
        rcases hn : xs.length with _ | n
        · have hx : xs = [] := List.length_eq_zero_iff.1 hn
          refine ⟨c, _, (LList.trim_rep rep 0 (-1)).2 ?_, rep⟩
          rw [listWindow_nat, hx]; exact not_listWindow_zero
        · have hw : ListWindow 0 (-1) xs.length (0 : Nat) (n : Nat) := by
            rw [hn]; unfold ListWindow Window Denotes; rw [if_neg (by omega)]; omega
          obtain ⟨c', e, rep'⟩ := (LList.trim_rep rep 0 (-1)).1 _ _ hw
          refine ⟨c', _, e, ?_⟩
          have : slice xs (0 : Nat) (n : Nat) = xs := by
            unfold slice; rw [show ((n:Int) + 1 - (0:Nat)).toNat = xs.length by omega]; simp
          rwa [this] at rep'
      obtain ⟨c', w, e, rep'⟩ := key
      simp only [e, Outcome.bind_ok]
      refine refines_ok (a' := a) (.inr ⟨by rw [e3]; exact hw, rfl⟩) ?_
      have := h.putList rep' k
      rwa [setList_self e2] at this

theorem not_denotes_zero {i : Int} : ¬ ∃ p : Nat, Denotes i ([] : List Bytes).length p := by
  rintro ⟨p, h⟩
  unfold Denotes at h
  simp at h
  omega

theorem exec_lindex (h : Abs st a) (k : Bytes) (i : Int) : Refines a (.lindex k i) (Exec.lindex st k i) := by
  unfold Exec.lindex
  rcases h.list_cases k with ⟨e1, e2, e3⟩ | ⟨c, xs, e1, e2, e3, rep⟩
  · rw [e1]; exact refines_ok (.inr ⟨by rw [e3]; exact not_denotes_zero, rfl⟩) h
  · rw [e1]
    by_cases hw : ∃ p : Nat, Denotes i xs.length p
    · obtain ⟨p, hw⟩ := hw
      obtain ⟨hp, e⟩ := (LList.index_rep rep i).1 p hw
      simp only [e, Outcome.bind_ok]
      exact refines_ok (.inl ⟨p, xs[p], by rw [e3]; exact hw, by rw [e3]; exact List.getElem?_eq_getElem hp, rfl⟩) h
    · simp only [(LList.index_rep rep i).2 (by rw [denotes_nat]; exact hw), Outcome.bind_ok]
      exact refines_ok (.inr ⟨by rw [e3]; exact hw, rfl⟩) h

theorem exec_llen (h : Abs st a) (k : Bytes) : Refines a (.llen k) (Exec.llen st k) := by
  unfold Exec.llen
  rcases h.list_cases k with ⟨e1, e2, e3⟩ | ⟨c, xs, e1, e2, e3, as, rep⟩
  · rw [e1]; exact refines_ok (by simp [Step, e3]) h
  · rw [e1]; exact refines_ok (by simp [Step, e3, LList.len, rep.size]) h

theorem exec_lset (h : Abs st a) (k : Bytes) (i : Int) (v : Bytes) : Refines a (.lset k i v) (Exec.lset st k i v) := by
  unfold Exec.lset
  rcases h.list_cases k with ⟨e1, e2, e3⟩ | ⟨c, xs, e1, e2, e3, rep⟩
  · rw [e1]; exact refines_err (by simp [Step, e2]) h
  · rw [e1]
    by_cases hw : ∃ p : Nat, Denotes i xs.length p
    · obtain ⟨p, hw⟩ := hw
      obtain ⟨c', e, rep'⟩ := (LList.set_rep rep i v).1 p hw
      simp only [e, Outcome.bind_ok]
      exact refines_ok (by simp only [Step, e2]; exact .inl ⟨p, hw, rfl⟩) (h.putList rep' k)
    · simp only [(LList.set_rep rep i v).2 (by rw [denotes_nat]; exact hw), Outcome.bind_ok]
      refine refines_err (a' := a) (by simp only [Step, e2]; exact .inr ⟨hw, rfl⟩) ?_
      have := h.putList rep k
      rwa [setList_self e2] at this

theorem exec_lrem (h : Abs st a) (k : Bytes) {n : Int} (hn : InInt64 n) (v : Bytes) : Refines a (.lrem k n v) (Exec.lrem st k n v) := by
  unfold Exec.lrem
  rcases h.list_cases k with ⟨e1, e2, e3⟩ | ⟨c, xs, e1, e2, e3, rep⟩
  · rw [e1]; exact refines_ok (by simp [Step, e2]) h
  · rw [e1]
    obtain ⟨p1, p2⟩ := LList.remove_rep rep n hn v
    by_cases hc : v = b!"dummy string" ∧ ¬ (n = 0 ∧ xs = []) ∧ n ≠ minInt64
    · simp only [p1 hc.1 hc.2.1 hc.2.2, Outcome.bind_panic]
      exact refines_panic (by simp only [Step, e2]; rw [if_pos hc]; trivial)
    · obtain ⟨c', e, rep'⟩ := p2 (by tauto)
      simp only [e, Outcome.bind_ok]
      exact refines_ok (by simp only [Step, e2]; rw [if_neg hc]; trivial) (h.putList rep' k)

theorem exec_linsert (h : Abs st a) (k : Bytes) (after : Bool) (p v : Bytes) :
    Refines a (.linsert k after p v) (Exec.linsert st k after p v) := by
  unfold Exec.linsert
  rcases h.list_cases k with ⟨e1, e2, e3⟩ | ⟨c, xs, e1, e2, e3, rep⟩
  · rw [e1]; exact refines_ok (by simp [Step, e2]) h
  · rw [e1]
    obtain ⟨p1, p2, p3, p4⟩ := LList.insert_rep rep p v after
    by_cases hp : p = b!"dummy string"
    · cases after with
      | false =>
        simp only [p3 hp rfl, Outcome.bind_panic]
        exact refines_panic (by simp only [Step, e2]; rw [if_pos hp]; simp)
      | true =>
        obtain ⟨c', e, rep'⟩ := p4 hp rfl
        simp only [e, Outcome.bind_ok]
        exact refines_ok (by simp only [Step, e2]; rw [if_pos hp]; simp) (h.putList rep' k)
    · by_cases hm : p ∈ xs
      · obtain ⟨pre, post, hf⟩ : ∃ pre post, FirstAt p pre post xs := by
          obtain ⟨pre, post, e, hpre⟩ := List.eq_append_cons_of_mem hm
          exact ⟨pre, post, e, hpre⟩
        obtain ⟨c', e, rep'⟩ := p2 hp pre post hf
        simp only [e, Outcome.bind_ok]
        exact refines_ok (by simp only [Step, e2]; rw [if_neg hp]; exact .inr ⟨pre, post, hf, rfl⟩) (h.putList rep' k)
      · simp only [p1 hp hm, Outcome.bind_ok]
        refine refines_ok (a' := a) (by simp only [Step, e2]; rw [if_neg hp]; exact .inl ⟨hm, trivial⟩) ?_
        have := h.putList rep k
        rwa [setList_self e2] at this

/-! ### Hashes -/

theorem exec_hset (h : Abs st a) (k : Bytes) {fs vs : List Bytes} (hl : fs.length = vs.length) :
    Refines a (.hset k fs vs) (Exec.hset st k fs vs) := by
  unfold Exec.hset
  by_cases hk : k = []
  · subst hk; exact refines_panic (by simp [Step])
  · obtain ⟨st1, c, e, r, h1⟩ := h.getOrCreateHash hk
    simp only [e]
    by_cases hf : fs = []
    · rw [if_pos (.inl hf)]
      exact refines_err (by simp [Step, hk, hf]) h1
    · have hv : vs ≠ [] := by rintro rfl; exact hf (List.length_eq_zero_iff.1 (by simpa using hl))
      rw [if_neg (by tauto)]
      obtain ⟨c', e', r'⟩ := HashC.setAll_rep r fs vs hl
      simp only [e']
      refine refines_ok (by simp only [Step]; rw [if_neg hk, if_neg hf]) ?_
      have := h1.putHash r' k
      rwa [setHash_setHash] at this

theorem exec_hget (h : Abs st a) (k f : Bytes) : Refines a (.hget k f) (Exec.hget st k f) := by
  unfold Exec.hget
  rcases h.hash_cases k with ⟨e1, e2, e3⟩ | ⟨c, m, e1, e2, e3, r⟩
  · rw [e1]; exact refines_ok (by simp [Step, e2]) h
  · rw [e1]
    by_cases hf : f = []
    · simp only [if_pos hf]; exact refines_err (by simp [Step, e2, hf]) h
    · simp only [if_neg hf]
      have := HashC.getAll_rep r [f]
      simp only [List.map_cons, List.map_nil] at this
      rw [this]
      cases hv : m.lookup f with
      | none => exact refines_ok (by simp [Step, e2, hf, hv, bulk?]) h
      | some v => exact refines_ok (by simp [Step, e2, hf, hv, bulk?]) h

theorem exec_hexists (h : Abs st a) (k f : Bytes) : Refines a (.hexists k f) (Exec.hexists st k f) := by
  unfold Exec.hexists
  rcases h.hash_cases k with ⟨e1, e2, e3⟩ | ⟨c, m, e1, e2, e3, r⟩
  · rw [e1]; exact refines_ok (by simp [Step, e2]) h
  · rw [e1]
    by_cases hf : f = []
    · simp only [if_pos hf]; exact refines_err (by simp [Step, e2, hf]) h
    · simp only [if_neg hf, HashC.existsKey_rep r]
      exact refines_ok (by simp [Step, e2, hf]) h

theorem exec_hdel (h : Abs st a) (k : Bytes) {fs : List Bytes} (hf : fs ≠ []) : Refines a (.hdel k fs) (Exec.hdel st k fs) := by
  unfold Exec.hdel
  rcases h.hash_cases k with ⟨e1, e2, e3⟩ | ⟨c, m, e1, e2, e3, r⟩
  · rw [e1]; exact refines_ok (by simp [Step, e2]) h
  · rw [e1]
    simp only [List.length_eq_zero_iff, if_neg hf, HashC.del]
    obtain ⟨c', e, r'⟩ := HashC.delLoop_rep r 0 fs
    simp only [e, Int.zero_add]
    exact refines_ok (by simp [Step, e2]) (h.putHash r' k)

theorem exec_hmget (h : Abs st a) (k : Bytes) (fs : List Bytes) : Refines a (.hmget k fs) (Exec.hmget st k fs) := by
  unfold Exec.hmget
  rcases h.hash_cases k with ⟨e1, e2, e3⟩ | ⟨c, m, e1, e2, e3, r⟩
  · rw [e1]; exact refines_ok (by simp [Step, e3, bulk?]) h
  · rw [e1]
    simp only [HashC.getAll_rep r, List.map_map]
    refine refines_ok ?_ h
    simp only [Step, e3, done]
    congr 4
    apply List.map_congr_left
    intro f _
    simp only [Function.comp_apply]
    cases m.lookup f <;> rfl

theorem exec_hlen (h : Abs st a) (k : Bytes) : Refines a (.hlen k) (Exec.hlen st k) := by
  unfold Exec.hlen
  rcases h.hash_cases k with ⟨e1, e2, e3⟩ | ⟨c, m, e1, e2, e3, r⟩
  · rw [e1]; exact refines_ok (by simp [Step, e3]) h
  · rw [e1]; exact refines_ok (by simp [Step, e3, HashC.len_rep r]) h

theorem exec_hstrlen (h : Abs st a) (k f : Bytes) : Refines a (.hstrlen k f) (Exec.hstrlen st k f) := by
  unfold Exec.hstrlen
  rcases h.hash_cases k with ⟨e1, e2, e3⟩ | ⟨c, m, e1, e2, e3, r⟩
  · rw [e1]; exact refines_ok (by simp [Step, e2]) h
  · rw [e1]
    by_cases hf : f = []
    · simp only [if_pos hf]; exact refines_err (by simp [Step, e2, hf]) h
    · simp only [if_neg hf]
      have := HashC.getAll_rep r [f]
      simp only [List.map_cons, List.map_nil] at this
      rw [this]
      cases hv : m.lookup f with
      | none => exact refines_ok (by simp [Step, e2, hf, hv]) h
      | some v => exact refines_ok (by simp [Step, e2, hf, hv]) h

theorem interleave_map (ps : List (Bytes × Bytes)) :
    Exec.interleave (ps.map fun p => Str.new p.1) (ps.map fun p => Str.new p.2) = ps.flatMap fun p => [.bulk p.1, .bulk p.2] := by
  induction ps with
  | nil => rfl
  | cons p ps ih => simp [Exec.interleave, ih]

theorem exec_hkeys (h : Abs st a) (ho : env.ord.Fair) (k : Bytes) : Refines a (.hkeys k) (Exec.hkeys env st k) := by
  unfold Exec.hkeys
  rcases h.hash_cases k with ⟨e1, e2, e3⟩ | ⟨c, m, e1, e2, e3, r⟩
  · rw [e1]; exact refines_ok (by simp [Step, e2]) h
  · rw [e1]
    obtain ⟨ps, hp, e⟩ := HashC.entries_rep r (ho 0 (GoMap.keys c))
    refine refines_ok ?_ h
    simp only [Step, e2]
    refine ⟨ps, hp, ?_⟩
    simp [HashC.keysIn, e, bulks, Function.comp_def]

theorem exec_hvals (h : Abs st a) (ho : env.ord.Fair) (k : Bytes) : Refines a (.hvals k) (Exec.hvals env st k) := by
  unfold Exec.hvals
  rcases h.hash_cases k with ⟨e1, e2, e3⟩ | ⟨c, m, e1, e2, e3, r⟩
  · rw [e1]; exact refines_ok (by simp [Step, e2]) h
  · rw [e1]
    obtain ⟨ps, hp, e⟩ := HashC.entries_rep r (ho 0 (GoMap.keys c))
    refine refines_ok ?_ h
    simp only [Step, e2]
    refine ⟨ps, hp, ?_⟩
    simp [HashC.valuesIn, e, bulks, Function.comp_def]

theorem exec_hgetall (h : Abs st a) (ho : env.ord.Fair) (k : Bytes) : Refines a (.hgetall k) (Exec.hgetall env st k) := by
  unfold Exec.hgetall
  rcases h.hash_cases k with ⟨e1, e2, e3⟩ | ⟨c, m, e1, e2, e3, r⟩
  · rw [e1]; exact refines_ok (by simp [Step, e2]) h
  · rw [e1]
    obtain ⟨ps, hp, e⟩ := HashC.entries_rep r (ho 0 (GoMap.keys c))
    refine refines_ok ?_ h
    simp only [Step, e2]
    refine ⟨ps, hp, ?_⟩
    simp [HashC.entriesIn, e, Function.comp_def, interleave_map]

/-! ### Sets -/

theorem exec_scard (h : Abs st a) (k : Bytes) : Refines a (.scard k) (Exec.scard st k) := by
  unfold Exec.scard
  rcases h.set_cases k with ⟨e1, e2, e3⟩ | ⟨c, m, e1, e2, e3, r⟩
  · rw [e1]; exact refines_ok (by simp [Step, e3]) h
  · rw [e1]; exact refines_ok (by simp [Step, e3, SetC.len_rep r]) h

theorem exec_sadd (h : Abs st a) (k : Bytes) {ms : List Bytes} (hm : ms ≠ []) : Refines a (.sadd k ms) (Exec.sadd st k ms) := by
  unfold Exec.sadd
  by_cases hk : k = []
  · subst hk; exact refines_panic (by simp [Step])
  · obtain ⟨st1, c, e, r, h1⟩ := h.getOrCreateSet hk
    simp only [e, List.length_eq_zero_iff, if_neg hm]
    obtain ⟨c', e', r'⟩ := SetC.add_rep r ms
    simp only [e']
    refine refines_ok (by simp only [Step]; rw [if_neg hk]) ?_
    have := h1.putSet r' k
    rwa [setSet_setSet] at this

theorem exec_srem (h : Abs st a) (k : Bytes) {ms : List Bytes} (hm : ms ≠ []) : Refines a (.srem k ms) (Exec.srem st k ms) := by
  unfold Exec.srem
  by_cases hk : k = []
  · subst hk; exact refines_panic (by simp [Step])
  · obtain ⟨st1, c, e, r, h1⟩ := h.getOrCreateSet hk
    simp only [e, List.length_eq_zero_iff, if_neg hm]
    obtain ⟨c', e', r'⟩ := SetC.delete_rep r ms
    simp only [e']
    refine refines_ok (by simp only [Step]; rw [if_neg hk]) ?_
    have := h1.putSet r' k
    rwa [setSet_setSet] at this

theorem exec_sismember (h : Abs st a) (k m : Bytes) : Refines a (.sismember k m) (Exec.sismember st k m) := by
  unfold Exec.sismember
  rcases h.set_cases k with ⟨e1, e2, e3⟩ | ⟨c, s, e1, e2, e3, r⟩
  · rw [e1]; exact refines_ok (by simp [Step, e2]) h
  · rw [e1]
    by_cases hf : m = []
    · simp only [if_pos hf]; exact refines_err (by simp [Step, e2, hf]) h
    · simp only [if_neg hf, SetC.isMember_rep r]
      exact refines_ok (by simp [Step, e2, hf]) h

theorem bulks_map (ms : List Bytes) : bulks (ms.map Str.new) = ms.map .bulk := by simp [bulks, Function.comp_def]

theorem exec_smembers (h : Abs st a) (ho : env.ord.Fair) (k : Bytes) : Refines a (.smembers k) (Exec.smembers env st k) := by
  unfold Exec.smembers
  rcases h.set_cases k with ⟨e1, e2, e3⟩ | ⟨c, s, e1, e2, e3, r⟩
  · rw [e1]; exact refines_ok (by simp [Step, e2]) h
  · rw [e1]
    obtain ⟨ms, e, en⟩ := SetC.members_rep r ho 0
    simp only [e, bulks_map]
    exact refines_ok (by simp only [Step, e2]; exact ⟨ms, en, rfl⟩) h

theorem count_in {count : Option Int} (hc : ∀ n, count = some n → InInt64 n) : InInt64 (count.getD 1) := by
  cases count with
  | none => unfold InInt64 minInt64 maxInt64; simp
  | some n => exact hc n rfl

theorem countReply_some (ms : List Bytes) : Exec.countReply true (ms.map Str.new) = .ok (bulksOrNull ms) := by
  unfold Exec.countReply bulksOrNull
  cases ms with
  | nil => simp
  | cons m ms => simp [bulks, Function.comp_def]

theorem exec_srandmember (h : Abs st a) (ho : env.ord.Fair) (k : Bytes) {count : Option Int} (hc : ∀ n, count = some n → InInt64 n) :
    Refines a (.srandmember k count) (Exec.srandmember env st k count) := by
  unfold Exec.srandmember
  rcases h.set_cases k with ⟨e1, e2, e3⟩ | ⟨c, s, e1, e2, e3, r⟩
  · rw [e1]; exact refines_ok (by simp [Step, e2]) h
  · rw [e1]
    obtain ⟨ms, e, nd, hsub, hl⟩ := SetC.randomMember_rep r ho 0 (count_in hc)
    simp only [e]
    cases count with
    | some n =>
      simp only [Option.isSome_some, countReply_some, Outcome.bind_ok]
      exact refines_ok (by simp only [Step, e2]; exact ⟨ms, nd, hsub, hl, rfl⟩) h
    | none =>
      cases ms with
      | nil => exact refines_panic (by simp only [Step, e2]; exact ⟨[], nd, hsub, hl, trivial⟩)
      | cons m ms =>
        exact refines_ok (by simp only [Step, e2]; exact ⟨m :: ms, nd, hsub, hl, rfl⟩) h

theorem exec_spop (h : Abs st a) (ho : env.ord.Fair) (k : Bytes) {count : Option Int} (hc : ∀ n, count = some n → InInt64 n) :
    Refines a (.spop k count) (Exec.spop env st k count) := by
  unfold Exec.spop
  rcases h.set_cases k with ⟨e1, e2, e3⟩ | ⟨c, s, e1, e2, e3, r⟩
  · rw [e1]; exact refines_ok (by simp [Step, e2]) h
  · rw [e1]
    obtain ⟨ms, e, nd, hsub, hl⟩ := SetC.randomMember_rep r ho 0 (count_in hc)
    obtain ⟨c', e', r'⟩ := SetC.delete_rep r ms
    simp only [SetC.pop, e, e']
    cases count with
    | some n =>
      simp only [Option.isSome_some, countReply_some, Outcome.bind_ok]
      exact refines_ok (by simp only [Step, e2]; exact ⟨ms, nd, hsub, hl, rfl⟩) (h.putSet r' k)
    | none =>
      cases ms with
      | nil => exact refines_panic (by simp only [Step, e2]; exact ⟨[], nd, hsub, hl, trivial⟩)
      | cons m ms =>
        exact refines_ok (by simp only [Step, e2]; exact ⟨m :: ms, nd, hsub, hl, rfl⟩) (h.putSet r' k)

theorem operands_rep (h : Abs st a) (ks : List Bytes) : List.Forall₂ SetRep (Exec.operands st ks) (ks.map a.setAt) := by
  unfold Exec.operands
  induction ks with
  | nil => exact .nil
  | cons k ks ih =>
    refine .cons ?_ ih
    rcases h.set_cases k with ⟨e1, e2, e3⟩ | ⟨c, s, e1, e2, e3, r⟩
    · rw [e3]; simp only [e1]; exact SetC.rep_new
    · rw [e3]; simp only [e1]; exact r

theorem algebra_reply {t : Finset Bytes} {c : SetC} (r : SetRep c t) (ho : env.ord.Fair) :
    ∃ ms, Enumerates ms (· ∈ t) ∧
      (if SetC.len c = 0 then Resp.nullArray else .array (bulks (SetC.members env.ord 0 c))) = bulksOrNull ms := by
  obtain ⟨ms, e, en⟩ := SetC.members_rep r ho 0
  refine ⟨ms, en, ?_⟩
  have hl := SetC.enumerates_length en
  rw [SetC.len_rep r, ← hl, e, bulks_map]
  unfold bulksOrNull
  cases ms <;> simp
  omega

theorem exec_algebra (h : Abs st a) (ho : env.ord.Fair) {op : IterOrder → SetC → List SetC → SetC} {P : Bytes → List Bytes → Bytes → Prop}
    (hop : ∀ (k : Bytes) (ks : List Bytes) {c : SetC} {cs : List SetC}, SetRep c (a.setAt k) → List.Forall₂ SetRep cs (ks.map a.setAt) →
      ∃ t, SetRep (op env.ord c cs) t ∧ ∀ x, x ∈ t ↔ P k ks x) {ks : List Bytes} (hk : ks ≠ []) :
    ∃ ms, Enumerates ms (P (ks.headD []) ks.tail) ∧ Exec.algebra op env st ks = .ok (st, .ok (bulksOrNull ms)) := by
  cases ks with
  | nil => exact absurd rfl hk
  | cons k ks =>
    have hr := operands_rep h (k :: ks)
    unfold Exec.algebra
    generalize Exec.operands st (k :: ks) = l at hr
    simp only [List.map_cons] at hr
    cases hr with
    | cons h1 h2 =>
      obtain ⟨t, rt, ht⟩ := hop k ks h1 h2
      obtain ⟨ms, en, e⟩ := algebra_reply rt ho
      refine ⟨ms, ⟨en.1, fun x => by rw [en.2 x]; exact ht x⟩, ?_⟩
      simp only
      rw [← e]
      split <;> rfl

theorem exec_sdiff (h : Abs st a) (ho : env.ord.Fair) {ks : List Bytes} (hk : ks ≠ []) :
    Refines a (.sdiff ks) (Exec.algebra SetC.diff env st ks) := by
  obtain ⟨ms, en, e⟩ := exec_algebra (P := fun k ks x => x ∈ a.setAt k ∧ ∀ k' ∈ ks, x ∉ a.setAt k') (op := SetC.diff) h ho
    (by
      intro k ks c cs h1 h2
      obtain ⟨t, rt, ht⟩ := SetC.diff_rep ho h1 h2
      exact ⟨t, rt, fun x => by rw [ht x]; simp⟩) hk
  rw [e]
  exact refines_ok ⟨ms, en, rfl⟩ h

theorem exec_sinter (h : Abs st a) (ho : env.ord.Fair) {ks : List Bytes} (hk : ks ≠ []) :
    Refines a (.sinter ks) (Exec.algebra SetC.intersect env st ks) := by
  obtain ⟨ms, en, e⟩ := exec_algebra (P := fun k ks x => ∀ k' ∈ k :: ks, x ∈ a.setAt k') (op := SetC.intersect) h ho
    (by
      intro k ks c cs h1 h2
      obtain ⟨t, rt, ht⟩ := SetC.intersect_rep ho h1 h2
      exact ⟨t, rt, fun x => by rw [ht x]; simp⟩) hk
  rw [e]
  refine refines_ok ⟨ms, ?_, rfl⟩ h
  cases ks with
  | nil => exact absurd rfl hk
  | cons k ks => exact en

theorem exec_sunion (h : Abs st a) (ho : env.ord.Fair) {ks : List Bytes} (hk : ks ≠ []) :
    Refines a (.sunion ks) (Exec.algebra SetC.union env st ks) := by
  obtain ⟨ms, en, e⟩ := exec_algebra (P := fun k ks x => ∃ k' ∈ k :: ks, x ∈ a.setAt k') (op := SetC.union) h ho
    (by
      intro k ks c cs h1 h2
      obtain ⟨t, rt, ht⟩ := SetC.union_rep ho h1 h2
      exact ⟨t, rt, fun x => by rw [ht x]; simp⟩) hk
  rw [e]
  refine refines_ok ⟨ms, ?_, rfl⟩ h
  cases ks with
  | nil => exact absurd rfl hk
  | cons k ks => exact en

/-- Refinement of every command. -/
theorem exec_refines (h : Abs st a) (ho : env.ord.Fair) {c : Command} (hv : Valid c) : Refines a c (execute env st c) := by
  cases c with
  | set k v => exact exec_set h k v
  | get k => exact exec_get h k
  | mset ks vs => exact exec_mset h hv
  | mget ks => exact exec_mget h ks
  | exist ks => exact exec_exist h ks
  | strlen k => exact exec_strlen h k
  | append k v => exact exec_append h k v
  | incr k arg => exact exec_incr h k arg
  | decr k arg => exact exec_decr h k arg
  | getrange k l r => exact exec_getrange h k l r
  | lpop k => exact exec_lpop h k
  | rpop k => exact exec_rpop h k
  | lindex k i => exact exec_lindex h k i
  | linsert k w p v => exact exec_linsert h k w p v
  | llen k => exact exec_llen h k
  | lpush k vs => exact exec_lpush h k vs
  | rpush k vs => exact exec_rpush h k vs
  | lrange k l r => exact exec_lrange h k l r
  | ltrim k l r => exact exec_ltrim h k l r
  | lrem k n v => exact exec_lrem h k hv v
  | lset k i v => exact exec_lset h k i v
  | hset k fs vs => exact exec_hset h k hv
  | hget k f => exact exec_hget h k f
  | hexists k f => exact exec_hexists h k f
  | hdel k fs => exact exec_hdel h k hv
  | hmget k fs => exact exec_hmget h k fs
  | hkeys k => exact exec_hkeys h ho k
  | hvals k => exact exec_hvals h ho k
  | hgetall k => exact exec_hgetall h ho k
  | hstrlen k f => exact exec_hstrlen h k f
  | hlen k => exact exec_hlen h k
  | sadd k ms => exact exec_sadd h k hv
  | srem k ms => exact exec_srem h k hv
  | sismember k m => exact exec_sismember h k m
  | smembers k => exact exec_smembers h ho k
  | srandmember k n => exact exec_srandmember h ho k hv
  | spop k n => exact exec_spop h ho k hv
  | sdiff ks => exact exec_sdiff h ho hv
  | sinter ks => exact exec_sinter h ho hv
  | sunion ks => exact exec_sunion h ho hv
  | scard k => exact exec_scard h k

end

end Verif
