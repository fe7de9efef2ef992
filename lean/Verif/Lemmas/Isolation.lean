import Verif.Spec.Isolation
import Verif.Lemmas.Frame
import Verif.Lemmas.Determined

/-! A command reads and writes only the keys it names. -/

namespace Verif

open Spec

/-- The keys a command is about. -/
def cmdNames : Command → Space → Bytes → Prop
  | .set k _, .str, x | .get k, .str, x | .strlen k, .str, x | .append k _, .str, x | .incr k _, .str, x | .decr k _, .str, x
  | .getrange k _ _, .str, x => x = k
  | .mset ks _, .str, x | .mget ks, .str, x | .exist ks, .str, x => x ∈ ks
  | .lpop k, .list, x | .rpop k, .list, x | .lindex k _, .list, x | .linsert k _ _ _, .list, x | .llen k, .list, x | .lpush k _, .list, x
  | .rpush k _, .list, x | .lrange k _ _, .list, x | .ltrim k _ _, .list, x | .lrem k _ _, .list, x | .lset k _ _, .list, x => x = k
  | .hset k _ _, .hash, x | .hget k _, .hash, x | .hexists k _, .hash, x | .hdel k _, .hash, x | .hmget k _, .hash, x | .hkeys k, .hash, x
  | .hvals k, .hash, x | .hgetall k, .hash, x | .hstrlen k _, .hash, x | .hlen k, .hash, x => x = k
  | .sadd k _, .set, x | .srem k _, .set, x | .sismember k _, .set, x | .smembers k, .set, x | .srandmember k _, .set, x | .spop k _, .set, x
  | .scard k, .set, x => x = k
  | .sdiff ks, .set, x | .sinter ks, .set, x | .sunion ks, .set, x => x ∈ ks
  | _, _, _ => False

open Classical in
/-- `a` under the keys with property `P`, `b` elsewhere. -/
noncomputable def patch (P : Space → Bytes → Prop) (b a : DB) : DB where
  strs k := if P .str k then a.strs k else b.strs k
  lists k := if P .list k then a.lists k else b.lists k
  hashes k := if P .hash k then a.hashes k else b.hashes k
  sets k := if P .set k then a.sets k else b.sets k

section
variable {P : Space → Bytes → Prop} {a b : DB} {k : Bytes}

theorem patch_eq (h : AgreeOn P a b) : patch P b a = b := by
  obtain ⟨x1, x2, x3, x4⟩ := b
  unfold patch
  congr 1 <;> funext k <;> split
  · exact h.strs k ‹_›
  · rfl
  · exact h.lists k ‹_›
  · rfl
  · exact h.hashes k ‹_›
  · rfl
  · exact h.sets k ‹_›
  · rfl

theorem agree_patch : AgreeOn P a (patch P b a) :=
  ⟨fun _ h => (if_pos h).symm, fun _ h => (if_pos h).symm, fun _ h => (if_pos h).symm, fun _ h => (if_pos h).symm⟩

theorem patch_strs (h : P .str k) : (patch P b a).strs k = a.strs k := if_pos h
theorem patch_lists (h : P .list k) : (patch P b a).lists k = a.lists k := if_pos h
theorem patch_hashes (h : P .hash k) : (patch P b a).hashes k = a.hashes k := if_pos h
theorem patch_sets (h : P .set k) : (patch P b a).sets k = a.sets k := if_pos h

theorem patch_setStr {v} (h : P .str k) : patch P b (a.setStr k v) = (patch P b a).setStr k v := by
  simp only [patch, DB.setStr, DB.mk.injEq, and_true]
  funext x; by_cases hx : x = k
  · subst hx; simp [h]
  · simp [Function.update_of_ne hx]
theorem patch_setList {v} (h : P .list k) : patch P b (a.setList k v) = (patch P b a).setList k v := by
  simp only [patch, DB.setList, DB.mk.injEq, and_true, true_and]
  funext x; by_cases hx : x = k
  · subst hx; simp [h]
  · simp [Function.update_of_ne hx]
theorem patch_setHash {v} (h : P .hash k) : patch P b (a.setHash k v) = (patch P b a).setHash k v := by
  simp only [patch, DB.setHash, DB.mk.injEq, and_true, true_and]
  funext x; by_cases hx : x = k
  · subst hx; simp [h]
  · simp [Function.update_of_ne hx]
theorem patch_setSet {v} (h : P .set k) : patch P b (a.setSet k v) = (patch P b a).setSet k v := by
  simp only [patch, DB.setSet, DB.mk.injEq, true_and]
  funext x; by_cases hx : x = k
  · subst hx; simp [h]
  · simp [Function.update_of_ne hx]

theorem patch_mset {ps : List (Bytes × Bytes)} (h : ∀ p ∈ ps, P .str p.1) :
    patch P b (ps.foldl (fun a p => a.setStr p.1 p.2) a) = ps.foldl (fun a p => a.setStr p.1 p.2) (patch P b a) := by
  induction ps generalizing a with
  | nil => rfl
  | cons p ps ih =>
    rw [List.foldl_cons, ih (fun q hq => h q (List.mem_cons_of_mem _ hq)), patch_setStr (h p List.mem_cons_self), List.foldl_cons]

theorem patch_listAt (h : P .list k) : (patch P b a).listAt k = a.listAt k := by simp only [DB.listAt, patch_lists h]
theorem patch_hashAt (h : P .hash k) : (patch P b a).hashAt k = a.hashAt k := by simp only [DB.hashAt, patch_hashes h]
theorem patch_setAt (h : P .set k) : (patch P b a).setAt k = a.setAt k := by simp only [DB.setAt, patch_sets h]

/-- The same outcome on patched databases. -/
noncomputable def patchOut (P : Space → Bytes → Prop) (b : DB) (out : Out) : Out := out.map fun x => (patch P b x.1, x.2)

@[simp] theorem patchOut_none : patchOut P b none = none := rfl
@[simp] theorem patchOut_done {r : Resp} : patchOut P b (done a r) = done (patch P b a) r := rfl
@[simp] theorem patchOut_fails {e : CmdErr} : patchOut P b (fails a e) = fails (patch P b a) e := rfl

theorem step_patch {c : Command} {out : Out} (hv : Valid c) (hP : ∀ sp x, cmdNames c sp x → P sp x) (h : Step a c out) :
    Step (patch P b a) c (patchOut P b out) := by
  cases c
  case set k v =>
    have hk := hP .str k rfl
    simp only [Step] at h ⊢; subst h; simp [patch_setStr hk]
  case get k =>
    have hk := hP .str k rfl
    simp only [Step] at h ⊢; subst h; simp [patch_strs hk]
  case mset ks vs =>
    simp only [Step] at h ⊢
    split at h
    · obtain ⟨m, rfl⟩ := h; rw [if_pos ‹_›]; exact ⟨m, by simp⟩
    · subst h; rw [if_neg ‹_›]; simp [patch_mset (fun p hp => hP .str p.1 (List.of_mem_zip (a := p.1) (b := p.2) hp).1)]
  case mget ks =>
    simp only [Step] at h ⊢; subst h
    have : (ks.map fun k => bulk? ((patch P b a).strs k)) = ks.map fun k => bulk? (a.strs k) :=
      List.map_congr_left fun k hk => by rw [patch_strs (hP .str k hk)]
    simp [this]
  case exist ks =>
    simp only [Step] at h ⊢; subst h
    have : (ks.countP fun k => ((patch P b a).strs k).isSome) = ks.countP fun k => (a.strs k).isSome :=
      List.countP_congr fun k hk => by rw [patch_strs (hP .str k hk)]
    simp [this]
  case strlen k =>
    have hk := hP .str k rfl
    simp only [Step] at h ⊢; subst h; simp [patch_strs hk]
  case append k v =>
    have hk := hP .str k rfl
    simp only [Step] at h ⊢; subst h; simp [patch_strs hk, patch_setStr hk]
  case incr k d | decr k d =>
    have hk := hP .str k rfl
    simp only [Step, AddStep, patch_strs hk] at h ⊢
    rcases h with ⟨old, v, d, r, s, h1, h2, h3, h4, h5, rfl⟩ | ⟨h1, m, rfl⟩ | ⟨h1, h2, rfl⟩ | ⟨h1, h2, rfl⟩
    · exact .inl ⟨old, v, d, r, s, h1, h2, h3, h4, h5, by simp [patch_setStr hk]⟩
    · exact .inr (.inl ⟨h1, m, by simp⟩)
    · exact .inr (.inr (.inl ⟨h1, h2, by simp⟩))
    · exact .inr (.inr (.inr ⟨h1, h2, by simp⟩))
  case getrange k l r =>
    have hk := hP .str k rfl
    simp only [Step, patch_strs hk] at h ⊢
    rcases h with ⟨i, j, h1, rfl⟩ | ⟨h1, rfl⟩
    · exact .inl ⟨i, j, h1, by simp⟩
    · exact .inr ⟨h1, by simp⟩
  case lpop k =>
    have hk := hP .list k rfl
    simp only [Step, patch_lists hk] at h ⊢
    split at h
    · subst h; simp_all [patch_setList hk]
    · subst h; simp
  case rpop k =>
    have hk := hP .list k rfl
    simp only [Step, patch_lists hk] at h ⊢
    split at h
    · subst h; simp_all
    · rcases h with ⟨h1, rfl⟩ | ⟨ys, y, h1, rfl⟩
      · exact .inl ⟨h1, by simp⟩
      · exact .inr ⟨ys, y, h1, by simp [patch_setList hk]⟩
  case lindex k i =>
    have hk := hP .list k rfl
    simp only [Step, patch_listAt hk] at h ⊢
    rcases h with ⟨i, j, h1, h2, rfl⟩ | ⟨h1, rfl⟩
    · exact .inl ⟨i, j, h1, h2, by simp⟩
    · exact .inr ⟨h1, by simp⟩
  case linsert k af p v =>
    have hk := hP .list k rfl
    simp only [Step, patch_lists hk] at h ⊢
    split at h
    · subst h; simp_all
    · split at h
      · rename_i hp; simp only [if_pos hp]
        split at h <;> subst h <;> simp_all [patch_setList hk]
      · rename_i hp; simp only [if_neg hp]
        rcases h with ⟨h1, rfl⟩ | ⟨pre, post, h1, rfl⟩
        · exact .inl ⟨h1, by simp⟩
        · exact .inr ⟨pre, post, h1, by simp [patch_setList hk]⟩
  case llen k =>
    have hk := hP .list k rfl
    simp only [Step, patch_listAt hk] at h ⊢; subst h; simp
  case lpush k vs | rpush k vs =>
    have hk := hP .list k rfl
    simp only [Step, patch_listAt hk] at h ⊢
    split at h
    · obtain ⟨m, rfl⟩ := h; rw [if_pos ‹_›]; exact ⟨m, by simp⟩
    · subst h; rw [if_neg ‹_›]; simp [patch_setList hk]
  case lrange k l r =>
    have hk := hP .list k rfl
    simp only [Step, patch_listAt hk] at h ⊢
    rcases h with ⟨i, j, h1, rfl⟩ | ⟨h1, rfl⟩
    · exact .inl ⟨i, j, h1, by simp⟩
    · exact .inr ⟨h1, by simp⟩
  case ltrim k l r =>
    have hk := hP .list k rfl
    simp only [Step, patch_listAt hk] at h ⊢
    rcases h with ⟨i, j, h1, rfl⟩ | ⟨h1, rfl⟩
    · exact .inl ⟨i, j, h1, by simp [patch_setList hk]⟩
    · exact .inr ⟨h1, by simp⟩
  case lrem k n v =>
    have hk := hP .list k rfl
    simp only [Step, patch_lists hk] at h ⊢
    split at h
    · subst h; simp_all
    · split at h
      · rename_i hp; rw [if_pos hp]; subst h; simp
      · rename_i hp; rw [if_neg hp]; subst h; simp [patch_setList hk]
  case lset k i v =>
    have hk := hP .list k rfl
    simp only [Step, patch_lists hk] at h ⊢
    split at h
    · subst h; simp_all
    · rcases h with ⟨p, h1, rfl⟩ | ⟨h1, rfl⟩
      · exact .inl ⟨p, h1, by simp [patch_setList hk]⟩
      · exact .inr ⟨h1, by simp⟩
  case hset k fs vs =>
    have hk := hP .hash k rfl
    simp only [Step, patch_hashAt hk] at h ⊢
    split at h
    · subst h; rw [if_pos ‹_›]; simp
    · rw [if_neg ‹_›]
      split at h
      · subst h; rw [if_pos ‹_›]; simp [patch_setHash hk]
      · subst h; rw [if_neg ‹_›]; simp [patch_setHash hk]
  case hget k f | hexists k f | hstrlen k f =>
    have hk := hP .hash k rfl
    simp only [Step, patch_hashes hk] at h ⊢
    split at h
    · subst h; simp_all
    · split at h
      · rename_i hp; rw [if_pos hp]; subst h; simp
      · rename_i hp; rw [if_neg hp]; subst h; simp
  case hdel k fs =>
    have hk := hP .hash k rfl
    simp only [Step, patch_hashes hk] at h ⊢
    split at h
    · subst h; simp_all
    · subst h; simp [patch_setHash hk]
  case hmget k fs | hlen k =>
    have hk := hP .hash k rfl
    simp only [Step, patch_hashAt hk] at h ⊢; subst h; simp
  case hkeys k | hvals k | hgetall k =>
    have hk := hP .hash k rfl
    simp only [Step, patch_hashes hk] at h ⊢
    split at h
    · subst h; simp_all
    · obtain ⟨ps, h1, rfl⟩ := h
      exact ⟨ps, h1, by simp⟩
  case sadd k ms | srem k ms =>
    have hk := hP .set k rfl
    simp only [Step, patch_setAt hk] at h ⊢
    split at h
    · subst h; rw [if_pos ‹_›]; simp
    · subst h; rw [if_neg ‹_›]; simp [patch_setSet hk]
  case sismember k m =>
    have hk := hP .set k rfl
    simp only [Step, patch_sets hk] at h ⊢
    split at h
    · subst h; simp_all
    · split at h
      · rename_i hp; rw [if_pos hp]; subst h; simp
      · rename_i hp; rw [if_neg hp]; subst h; simp
  case smembers k =>
    have hk := hP .set k rfl
    simp only [Step, patch_sets hk] at h ⊢
    split at h
    · subst h; simp_all
    · obtain ⟨ps, h1, rfl⟩ := h
      exact ⟨ps, h1, by simp⟩
  case srandmember k n | spop k n =>
    have hk := hP .set k rfl
    simp only [Step, patch_sets hk] at h ⊢
    split at h
    · subst h; simp_all
    · obtain ⟨ms, h1, h2, h3, h⟩ := h
      refine ⟨ms, h1, h2, h3, ?_⟩
      split at h <;> subst h <;> simp [patch_setSet hk]
  case sdiff ks =>
    simp only [Step] at h ⊢
    obtain ⟨ms, h1, rfl⟩ := h
    refine ⟨ms, ⟨h1.1, fun x => ?_⟩, by simp⟩
    rw [h1.2 x]
    cases ks with
    | nil => exact absurd rfl hv
    | cons k ks =>
      simp only [List.headD_cons, List.tail_cons]
      rw [patch_setAt (hP .set k List.mem_cons_self)]
      refine and_congr_right fun _ => forall₂_congr fun y hy => ?_
      rw [patch_setAt (hP .set y (List.mem_cons_of_mem _ hy))]
  case sinter ks =>
    simp only [Step] at h ⊢
    obtain ⟨ms, h1, rfl⟩ := h
    refine ⟨ms, ⟨h1.1, fun x => ?_⟩, by simp⟩
    rw [h1.2 x]
    refine forall₂_congr fun y hy => ?_
    rw [patch_setAt (hP .set y hy)]
  case sunion ks =>
    simp only [Step] at h ⊢
    obtain ⟨ms, h1, rfl⟩ := h
    refine ⟨ms, ⟨h1.1, fun x => ?_⟩, by simp⟩
    rw [h1.2 x]
    refine exists_congr fun y => and_congr_right fun hy => ?_
    rw [patch_setAt (hP .set y hy)]
  case scard k =>
    have hk := hP .set k rfl
    simp only [Step, patch_setAt hk] at h ⊢; subst h; simp

end

theorem names_one {sp : Space} {objs : List Resp} {name k : Bytes} {args : List Bytes} (hn : name ∈ oneKey sp)
    (h : Request objs name (k :: args)) : Names sp objs k := by
  obtain ⟨o, os, h1, h2⟩ := request_head h
  exact .inl ⟨name, hn, o, os, h1, h2⟩

theorem names_many {sp : Space} {objs : List Resp} {name k : Bytes} {args : List Bytes} (hn : name ∈ manyKeys sp)
    (h : Request objs name args) (hk : k ∈ args) : Names sp objs k := by
  obtain ⟨os, h1, h2⟩ := h
  obtain ⟨i, hi, rfl⟩ := List.getElem_of_mem hk
  have hl : i < os.length := by rw [h2.length_eq]; exact hi
  refine .inr (.inl ⟨name, hn, os[i], os, h1, List.getElem_mem hl, ?_⟩)
  simpa using List.Forall₂.get h2 hl hi

theorem cmdNames_names {objs : List Resp} {c : Command} {sp : Space} {k : Bytes} (h : Means objs c) (hk : cmdNames c sp k) :
    Names sp objs k := by
  cases c <;> cases sp <;> simp only [cmdNames] at hk
  case mset.str ks vs =>
    obtain ⟨hl, os, h1, h2⟩ := h
    obtain ⟨i, hi⟩ := mem_weave_pos hl hk
    obtain ⟨hlt, hi⟩ := List.getElem?_eq_some_iff.1 hi
    have hlt' : 2 * i < os.length := by rw [h2.length_eq]; exact hlt
    refine .inr (.inr ⟨rfl, os, i, os[2 * i], h1, List.getElem?_eq_getElem hlt', ?_⟩)
    have := List.Forall₂.get h2 hlt' hlt
    simp only [List.get_eq_getElem] at this
    rwa [hi] at this
  case mget.str | exist.str | sdiff.set | sinter.set | sunion.set => exact names_many (by decide) h.2 hk
  all_goals subst hk
  case incr.str | decr.str =>
    rcases h with h | ⟨rfl, h | ⟨o, os, h, h'⟩⟩
    · exact names_one (by decide) h
    · exact names_one (by decide) h
    · exact .inl ⟨_, by decide, o, os, h, h'⟩
  case getrange.str | lrange.list | ltrim.list => obtain ⟨_, _, h, -⟩ := h; exact names_one (by decide) h
  case lindex.list | linsert.list | lrem.list | lset.list => obtain ⟨_, h, -⟩ := h; exact names_one (by decide) h
  case lpush.list | rpush.list | hset.hash | hdel.hash | hmget.hash | sadd.set | srem.set => exact names_one (by decide) h.2
  case srandmember.set n | spop.set n =>
    cases n with
    | none => exact names_one (by decide) h
    | some n => obtain ⟨_, h, -⟩ := h; exact names_one (by decide) h
  all_goals exact names_one (by decide) h

theorem writers_oneKey (sp : Space) : ∀ n ∈ writers sp, n ∈ oneKey sp := by cases sp <;> decide

theorem writes_names {objs : List Resp} {sp : Space} {k : Bytes} (h : Writes sp objs k) : Names sp objs k := by
  rcases h with ⟨name, hn, h⟩ | h
  · exact .inl ⟨name, writers_oneKey sp name hn, h⟩
  · exact .inr (.inr h)

theorem Spec.AgreeOn.trans {P : Space → Bytes → Prop} {a b c : DB} (h : AgreeOn P a b) (h' : AgreeOn P b c) : AgreeOn P a c :=
  ⟨fun k hk => (h.strs k hk).trans (h'.strs k hk), fun k hk => (h.lists k hk).trans (h'.lists k hk),
    fun k hk => (h.hashes k hk).trans (h'.hashes k hk), fun k hk => (h.sets k hk).trans (h'.sets k hk)⟩

theorem Spec.AgreeOn.symm {P : Space → Bytes → Prop} {a b : DB} (h : AgreeOn P a b) : AgreeOn P b a :=
  ⟨fun k hk => (h.strs k hk).symm, fun k hk => (h.lists k hk).symm, fun k hk => (h.hashes k hk).symm, fun k hk => (h.sets k hk).symm⟩

theorem Spec.AgreeOn.refl {P : Space → Bytes → Prop} {a : DB} : AgreeOn P a a := ⟨fun _ _ => rfl, fun _ _ => rfl, fun _ _ => rfl, fun _ _ => rfl⟩

theorem Spec.AgreeOn.mono {P Q : Space → Bytes → Prop} {a b : DB} (h : AgreeOn P a b) (hQ : ∀ sp k, Q sp k → P sp k) : AgreeOn Q a b :=
  ⟨fun k hk => h.strs k (hQ _ k hk), fun k hk => h.lists k (hQ _ k hk), fun k hk => h.hashes k (hQ _ k hk), fun k hk => h.sets k (hQ _ k hk)⟩

/-- A request whose keys are all in `P` does the same on databases that agree on `P`. -/
theorem step_agree {P : Space → Bytes → Prop} {a b : DB} {objs : List Resp} {c : Command} {out : Out} (hm : Means objs c)
    (hP : ∀ sp k, Names sp objs k → P sp k) (hab : AgreeOn P a b) (h : Step a c out) : Step b c (patchOut P b out) := by
  have := step_patch (b := b) (requestCommand_valid (means_command hm)) (fun sp x hx => hP sp x (cmdNames_names hm hx)) h
  rwa [patch_eq hab] at this

/-- A request that writes no key in `P` leaves the contents under `P` alone. -/
theorem handle_agree {P : Space → Bytes → Prop} {env : Env} {st st' : State} {a : DB} {objs : List Resp} {r : Resp} (h : Abs st a)
    (ho : env.ord.Fair) (hP : ∀ sp k, Writes sp objs k → ¬ P sp k) (hh : handle env st objs = .ok (st', r)) :
    ∃ a', Abs st' a' ∧ AgreeOn P a' a := by
  rcases handle_outline objs h ho with ⟨-, e⟩ | ⟨-, st1, a', r', e, ha, h1, h2, h3, h4, -⟩
  · rw [e] at hh; cases hh
  · rw [e] at hh; cases hh
    exact ⟨a', ha, fun k hk => h1 k fun hw => hP _ k hw hk, fun k hk => h2 k fun hw => hP _ k hw hk, fun k hk => h3 k fun hw => hP _ k hw hk,
      fun k hk => h4 k fun hw => hP _ k hw hk⟩

/-- One client among others: what it is told is a run of its own requests. -/
theorem serve_client {P : Space → Bytes → Prop} {i : Nat} {st st' : State} {a b : DB} {qs : List Sent} {rs : List Resp} (h : Abs st a)
    (hab : AgreeOn P a b) (hf : ∀ q ∈ qs, q.2.1.ord.Fair) (hn : ∀ q ∈ qs, q.1 = i → ∀ sp k, Names sp q.2.2 k → P sp k)
    (hw : ∀ q ∈ qs, q.1 ≠ i → ∀ sp k, Writes sp q.2.2 k → ¬ P sp k) (hs : serve st (qs.map Prod.snd) = .ok (st', rs)) :
    ∃ a' b', Abs st' a' ∧ Trace b ((sentBy i qs).map Prod.snd) (toldTo i qs rs) b' ∧ AgreeOn P a' b' := by
  induction qs generalizing st a b rs with
  | nil => cases hs; exact ⟨a, b, h, .nil b, hab⟩
  | cons q qs ih =>
    obtain ⟨j, env, objs⟩ := q
    have hfq := hf _ List.mem_cons_self
    have hf' := fun p hp => hf p (List.mem_cons_of_mem _ hp)
    have hn' := fun p hp => hn p (List.mem_cons_of_mem _ hp)
    have hw' := fun p hp => hw p (List.mem_cons_of_mem _ hp)
    simp only [List.map_cons, serve] at hs
    split at hs <;> try cases hs
    rename_i st1 r he
    split at hs <;> try cases hs
    rename_i rs' hs'
    by_cases hj : j = i
    · subst hj
      have hP := hn _ List.mem_cons_self rfl
      have e1 : (sentBy j ((j, env, objs) :: qs)).map Prod.snd = objs :: (sentBy j qs).map Prod.snd := by simp [sentBy]
      have e2 : toldTo j ((j, env, objs) :: qs) (r :: rs') = r :: toldTo j qs rs' := by simp [toldTo]
      rw [e1, e2]
      rcases handle_cases objs h hfq with ⟨c, hm, hc⟩ | ⟨hb, t, e⟩
      · rcases hc with ⟨-, e⟩ | ⟨a1, r', st1', hst, e, ha⟩ | ⟨a1, e', r', st1', hst, her, e, ha⟩
        · rw [he] at e; cases e
        · rw [he] at e; cases e
          obtain ⟨a', b', g1, g2, g3⟩ := ih ha agree_patch hf' hn' hw' hs'
          exact ⟨a', b', g1, .ok hm (step_agree hm hP hab hst) g2, g3⟩
        · rw [he] at e; cases e
          obtain ⟨a', b', g1, g2, g3⟩ := ih ha agree_patch hf' hn' hw' hs'
          exact ⟨a', b', g1, .err hm (step_agree hm hP hab hst) her g2, g3⟩
      · rw [he] at e; cases e
        obtain ⟨a', b', g1, g2, g3⟩ := ih h hab hf' hn' hw' hs'
        exact ⟨a', b', g1, .bad hb g2, g3⟩
    · have e1 : sentBy i ((j, env, objs) :: qs) = sentBy i qs := by simp [sentBy, hj]
      have e2 : toldTo i ((j, env, objs) :: qs) (r :: rs') = toldTo i qs rs' := by simp [toldTo, hj]
      rw [e1, e2]
      obtain ⟨a1, ha, hag⟩ := handle_agree h hfq (hw _ List.mem_cons_self hj) he
      exact ih ha (hag.trans hab) hf' hn' hw' hs'

end Verif
