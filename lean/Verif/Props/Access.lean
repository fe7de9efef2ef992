import Verif.Spec.Access
import Verif.Lemmas.Isolation

/-! C72: commands do what they declare. -/

namespace Verif.Props

open Verif Verif.Spec

/-- C72: a command of access type other than LTRIM leaves the database as it is. Missing: LTRIM (`C72_false`). -/
theorem C72_access_partial {env : Env} {st st' : State} {c : Command} {r : Except CmdErr Resp} (h : execute env st c = .ok (st', r))
    (hc : c.isModify = false) (hl : ∀ k a b, c ≠ .ltrim k a b) : st' = st := by
  cases c <;> simp only [Command.isModify, Bool.true_eq_false] at hc
  case ltrim k a b => exact absurd rfl (hl k a b)
  all_goals
    simp only [execute, Exec.get, Exec.mget, Exec.exist, Exec.strlen, Exec.getrange, Exec.lrange, Exec.lindex, Exec.llen, Exec.hget, Exec.hmget,
      Exec.hexists, Exec.hlen, Exec.hgetall, Exec.hkeys, Exec.hvals, Exec.hstrlen, Exec.scard, Exec.smembers, Exec.sismember, Exec.srandmember,
      Exec.algebra, Exec.countReply, bind, Outcome.bind] at h
  all_goals grind

theorem setLoop_other (ks vs : List Bytes) (m : StrMap) (k : Bytes) (h : k ∉ ks) :
    GoMap.get (StrMap.setLoop m (ks.map Str.new) (vs.map Str.new)) k = GoMap.get m k := by
  induction ks generalizing vs m with
  | nil => simp [StrMap.setLoop]
  | cons x ks ih =>
    cases vs with
    | nil => simp [StrMap.setLoop]
    | cons v vs =>
      simp only [List.mem_cons, not_or] at h
      simp only [List.map_cons, StrMap.setLoop]
      rw [ih _ _ h.2, GoMap.get_set_ne _ _ (by simpa [Str.new, Str.update] using Ne.symm h.1)]

theorem new_data (b : Bytes) : (Str.new b).data = b := by simp [Str.new, Str.update]

/-- C72: a command changes nothing but the containers of its type under its keys. -/
theorem C72_only {env : Env} {st st' : State} {c : Command} {r : Except CmdErr Resp} (h : execute env st c = .ok (st', r)) {t : Target} {k : Bytes}
    (hk : t ≠ c.target ∨ k ∉ c.keys) : stored st' t k = stored st t k := by
  by_cases hc : c.isModify = false ∧ ∀ k a b, c ≠ .ltrim k a b
  · rw [C72_access_partial h hc.1 hc.2]
  cases c <;> simp only [Command.isModify, Command.target, Command.keys, List.mem_singleton] at hc hk
  all_goals first | (refine absurd ⟨trivial, ?_⟩ hc; simp; done) | skip
  case mset ks vs =>
    simp only [execute, Exec.mset, StrMap.setAll] at h
    have := setLoop_other ks vs st.global k
    cases t <;> grind [stored]
  case set k' v =>
    simp only [execute, Exec.set, StrMap.setAll] at h
    have := setLoop_other [k'] [v] st.global k
    cases t <;> grind [stored]
  all_goals
    simp only [execute, Exec.append, Exec.incr, Exec.decr, Exec.lpop, Exec.rpop, Exec.lpush, Exec.rpush, Exec.lset, Exec.lrem, Exec.ltrim,
      Exec.linsert, Exec.hset, Exec.hdel, Exec.sadd, Exec.srem, Exec.spop, Exec.countReply, StrMap.append, StrMap.increase, StrMap.decrease,
      State.getOrCreateList, State.getOrCreateHash, State.getOrCreateSet, State.putList, State.putHash, State.putSet, bind, Outcome.bind, new_data] at h
    cases t <;> grind [stored, GoMap.get_set]

/-- C72: afterwards a list, hash or set exists under a name exactly if it existed before or the command declares that it creates containers of
this type under this name, which must not be empty. In particular no command removes a container, and SREM creates one. -/
theorem C72_exists {env : Env} {st st' : State} {c : Command} {r : Except CmdErr Resp} (h : execute env st c = .ok (st', r)) {t : Target} (k : Bytes)
    (ht : t ≠ .global) :
    (stored st' t k).present = true ↔
      (stored st t k).present = true ∨ (c.shouldCreate = true ∧ t = c.target ∧ k ∈ c.keys ∧ k ≠ []) := by
  by_cases hk : t ≠ c.target ∨ k ∉ c.keys
  · rw [C72_only h hk]; grind
  simp only [not_or, Decidable.not_not] at hk
  obtain ⟨rfl, hk⟩ := hk
  by_cases hc : c.isModify = false ∧ ∀ k a b, c ≠ .ltrim k a b
  · rw [C72_access_partial h hc.1 hc.2]
    have : c.shouldCreate = false := by
      have := hc.1
      cases c <;> simp_all [Command.isModify, Command.shouldCreate]
    simp [this]
  cases c <;> simp only [Command.isModify, Command.target, Command.keys, List.mem_singleton, ne_eq, not_true_eq_false] at hc hk ht
  all_goals first | (refine absurd ⟨trivial, ?_⟩ hc; simp; done) | skip
  case ltrim k' a b =>
    subst hk
    clear hc
    simp only [execute, Exec.ltrim, State.putList] at h
    cases hg : st.lists.get k with
    | none =>
      simp only [hg] at h
      cases h
      simp [Command.shouldCreate]
    | some l =>
      simp only [hg] at h
      have hp : (st'.lists.get k).isSome = true := by
        cases ht : l.trim a b with
        | panic => simp [ht] at h
        | diverge => simp [ht] at h
        | ok x =>
          obtain ⟨l', e⟩ := x
          simp only [ht, Outcome.bind_ok] at h
          split at h
          · cases h; simp
          · next l2 heq =>
            cases h2 : l2.trim 0 (-1) with
            | panic => simp [h2] at h
            | diverge => simp [h2] at h
            | ok y => simp only [h2, Outcome.bind_ok] at h; cases h; simp
          · cases h; simp
      simp [Command.target, stored, Stored.present, hp, hg]
  all_goals
    subst hk
    simp only [execute, Exec.lpop, Exec.rpop, Exec.lpush, Exec.rpush, Exec.lset, Exec.lrem,
      Exec.linsert, Exec.hset, Exec.hdel, Exec.sadd, Exec.srem, Exec.spop, Exec.countReply,
      State.getOrCreateList, State.getOrCreateHash, State.getOrCreateSet, State.putList, State.putHash, State.putSet, bind, Outcome.bind] at h
    grind [stored, Stored.present, Command.shouldCreate, Command.target, Command.keys, GoMap.get_set]

theorem foldl_same {α β : Type} (l : List α) (b : β) : l.foldl (fun b _ => b) b = b := by
  induction l with
  | nil => rfl
  | cons _ _ ih => exact ih

/-- C72: the containers that exist afterwards are those that resolving the keys has left. -/
theorem C72_resolve {env : Env} {st st' : State} {c : Command} {r : Except CmdErr Resp} (h : execute env st c = .ok (st', r)) {t : Target} (k : Bytes)
    (ht : t ≠ .global) : (stored st' t k).present = (stored (st.resolve c) t k).present := by
  rw [Bool.eq_iff_iff, C72_exists h k ht]
  by_cases hc : c.shouldCreate = true
  · cases c <;> simp only [Command.shouldCreate, Bool.false_eq_true] at hc
    all_goals
      cases t <;> simp only [State.resolve, Command.keys, Command.target, Command.shouldCreate, State.resolveName, List.foldl_cons, List.foldl_nil,
        State.getOrCreateList, State.getOrCreateHash, State.getOrCreateSet, foldl_same] <;>
      grind [stored, Stored.present, GoMap.get_set]
  · have hr : ∀ ks : List Bytes, ks.foldl (fun st k => st.resolveName k c.target c.shouldCreate) st = st := by
      intro ks
      induction ks with
      | nil => rfl
      | cons k ks ih =>
        have : st.resolveName k c.target c.shouldCreate = st := by cases hx : c.target <;> simp [State.resolveName, hc]
        rw [List.foldl_cons, this, ih]
    rw [State.resolve, hr]
    simp [hc]

theorem existsLoop_congr {m1 m2 : StrMap} (ks : List Bytes) (n : Int) (h : ∀ k ∈ ks, GoMap.get m1 k = GoMap.get m2 k) :
    StrMap.existsLoop m1 n (ks.map Str.new) = StrMap.existsLoop m2 n (ks.map Str.new) := by
  induction ks generalizing n with
  | nil => rfl
  | cons k ks ih =>
    simp only [List.mem_cons, forall_eq_or_imp] at h
    simp only [List.map_cons, StrMap.existsLoop, new_data, h.1, ih _ h.2]

theorem getAll_congr {m1 m2 : StrMap} (ks : List Bytes) (h : ∀ k ∈ ks, GoMap.get m1 k = GoMap.get m2 k) :
    StrMap.getAll m1 (ks.map Str.new) = StrMap.getAll m2 (ks.map Str.new) := by
  simp only [StrMap.getAll, List.map_map, List.map_inj_left, Function.comp_apply, new_data]
  exact h

theorem operands_congr {st1 st2 : State} (ks : List Bytes) (h : ∀ k ∈ ks, st1.sets.get k = st2.sets.get k) :
    Exec.operands st1 ks = Exec.operands st2 ks := by
  simp only [Exec.operands, List.map_inj_left]
  intro k hk; rw [h k hk]

theorem bind_snd {α β γ : Type} (x : Outcome α) {f g : α → Outcome (β × γ)} (h : ∀ a, (f a).map Prod.snd = (g a).map Prod.snd) :
    (x >>= f).map Prod.snd = (x >>= g).map Prod.snd := by
  cases x with
  | ok a => exact h a
  | panic => rfl
  | diverge => rfl

/-- C72: the reply to a command (or the crash) depends on nothing but the containers of its type under its keys. -/
theorem C72_reads (env : Env) {st1 st2 : State} (c : Command) (h : ∀ k ∈ c.keys, stored st1 c.target k = stored st2 c.target k) :
    (execute env st1 c).map Prod.snd = (execute env st2 c).map Prod.snd := by
  cases c <;> simp only [Command.keys, Command.target, stored, List.mem_singleton, forall_eq, Stored.str.injEq, Stored.list.injEq, Stored.hash.injEq,
    Stored.set.injEq] at h
  case mget ks => simp only [execute, Exec.mget, getAll_congr ks h, Outcome.map]
  case exist ks => simp only [execute, Exec.exist, StrMap.existsCount, existsLoop_congr ks 0 h, Outcome.map]
  case mset ks vs => simp only [execute, Exec.mset]; split <;> rfl
  case set k v => simp only [execute, Exec.set, StrMap.setAll]; rfl
  case incr k a =>
    simp only [execute, Exec.incr, StrMap.increase, new_data, h]
    cases parseInt64 a with
    | none => rfl
    | some d =>
      cases hg : GoMap.get st2.global k with
      | none => rfl
      | some e => cases hi : e.increase d <;> simp [hi, Outcome.map]
  case decr k a =>
    simp only [execute, Exec.decr, StrMap.decrease, new_data, h]
    cases parseInt64 a with
    | none => rfl
    | some d =>
      cases hg : GoMap.get st2.global k with
      | none => rfl
      | some e => cases hi : e.decrease d <;> simp [hi, Outcome.map]
  case sdiff ks => simp only [execute, Exec.algebra, operands_congr ks h]; grind [Outcome.map]
  case sinter ks => simp only [execute, Exec.algebra, operands_congr ks h]; grind [Outcome.map]
  case sunion ks => simp only [execute, Exec.algebra, operands_congr ks h]; grind [Outcome.map]
  case lpush k vs =>
    simp only [execute, Exec.lpush, State.getOrCreateList, h]
    by_cases hk : k = []
    · simp [hk, Outcome.map]
    · cases hg : st2.lists.get k <;> simp only [hk, if_false, hg] <;> exact bind_snd _ fun _ => rfl
  case rpush k vs =>
    simp only [execute, Exec.rpush, State.getOrCreateList, h]
    by_cases hk : k = []
    · simp [hk, Outcome.map]
    · cases hg : st2.lists.get k <;> simp only [hk, if_false, hg] <;> exact bind_snd _ fun _ => rfl
  case ltrim k a b =>
    simp only [execute, Exec.ltrim, h]
    cases hg : st2.lists.get k with
    | none => rfl
    | some l =>
      refine bind_snd _ fun x => ?_
      rcases x with ⟨l', _ | _ | _ | _⟩
      · rfl
      · rfl
      · exact bind_snd _ fun _ => rfl
      · rfl
  case spop k n =>
    simp only [execute, Exec.spop, h]
    cases hg : st2.sets.get k with
    | none => rfl
    | some l => exact bind_snd _ fun _ => rfl
  case srandmember k n =>
    simp only [execute, Exec.srandmember, h]
    cases hg : st2.sets.get k with
    | none => rfl
    | some l => exact bind_snd _ fun _ => rfl
  case lrem k n v =>
    simp only [execute, Exec.lrem, h]
    cases hg : st2.lists.get k with
    | none => rfl
    | some l => exact bind_snd _ fun _ => rfl
  case lpop k =>
    simp only [execute, Exec.lpop, h]
    cases hg : st2.lists.get k with
    | none => rfl
    | some l => exact bind_snd _ fun x => by rcases x with ⟨_, _ | _⟩ <;> rfl
  case rpop k =>
    simp only [execute, Exec.rpop, h]
    cases hg : st2.lists.get k with
    | none => rfl
    | some l => exact bind_snd _ fun x => by rcases x with ⟨_, _ | _⟩ <;> rfl
  case lset k i v =>
    simp only [execute, Exec.lset, h]
    cases hg : st2.lists.get k with
    | none => rfl
    | some l => exact bind_snd _ fun x => by rcases x with ⟨_, _ | _⟩ <;> rfl
  case linsert k w pv v =>
    simp only [execute, Exec.linsert, h]
    cases hg : st2.lists.get k with
    | none => rfl
    | some l => exact bind_snd _ fun x => by rcases x with ⟨_, _ | _⟩ <;> rfl
  case lrange k a b =>
    simp only [execute, Exec.lrange, h]
    cases hg : st2.lists.get k with
    | none => rfl
    | some l => exact bind_snd _ fun x => by rcases x with _ | _ <;> rfl
  case lindex k i =>
    simp only [execute, Exec.lindex, h]
    cases hg : st2.lists.get k with
    | none => rfl
    | some l => exact bind_snd _ fun x => by rcases x with _ | _ <;> rfl
  all_goals
    simp only [execute, Exec.get, Exec.strlen, Exec.getrange, Exec.llen, Exec.hget, Exec.hmget,
      Exec.hexists, Exec.hlen, Exec.hgetall, Exec.hkeys, Exec.hvals, Exec.hstrlen, Exec.scard, Exec.smembers, Exec.sismember,
      Exec.append, Exec.hset, Exec.hdel, Exec.sadd, Exec.srem, StrMap.append,
      StrMap.getRange, StrMap.stringLen, StrMap.getAll, List.map_cons, List.map_nil,
      State.getOrCreateHash, State.getOrCreateSet, State.putHash, State.putSet, new_data, h]
  all_goals grind [Outcome.map]

/-- The namespace the containers of a type belong to. -/
def spaceOf : Target → Space
  | .global => .str
  | .list => .list
  | .hash => .hash
  | .set => .set

theorem calls_unique {objs os os' : List Resp} {n n' : Bytes} (h : Calls objs n os) (h' : Calls objs n' os') : n = n' ∧ os = os' := by
  obtain ⟨o, t, rfl, h1, h2⟩ := h
  obtain ⟨o', t', e, h1', h2'⟩ := h'
  simp only [List.cons.injEq] at e
  obtain ⟨rfl, rfl⟩ := e
  have e : t = t' := by have := text_of h1; rw [text_of h1'] at this; simpa using this.symm
  subst e
  exact ⟨by rw [← folds_toLower h2, folds_toLower h2'], rfl⟩

theorem isText_unique {o : Resp} {a b : Bytes} (h : IsText o a) (h' : IsText o b) : a = b := by
  have := text_of h; rw [text_of h'] at this; simpa using this.symm

theorem forall₂_getElem? {os : List Resp} {args : List Bytes} (h : List.Forall₂ IsText os args) {i : Nat} {o : Resp} {k : Bytes}
    (ho : os[i]? = some o) (hk : IsText o k) : args[i]? = some k := by
  induction h generalizing i with
  | nil => simp at ho
  | cons h1 _ ih =>
    cases i with
    | zero => simp at ho ⊢; subst ho; exact isText_unique h1 hk
    | succ i => simpa using ih (by simpa using ho)

theorem names_args {sp : Space} {objs : List Resp} {N k : Bytes} {args : List Bytes} (h : Request objs N args) (hn : Names sp objs k) :
    (N ∈ oneKey sp ∧ args[0]? = some k) ∨ (N ∈ manyKeys sp ∧ k ∈ args) ∨ (sp = .str ∧ N = b!"mset" ∧ ∃ i : Nat, args[2 * i]? = some k) := by
  obtain ⟨os, hc, ha⟩ := h
  rcases hn with ⟨n, hn, o, os', h1, h2⟩ | ⟨n, hn, o, os', h1, ho, h2⟩ | ⟨rfl, os', i, o, h1, ho, h2⟩
  · obtain ⟨rfl, rfl⟩ := calls_unique hc h1
    exact .inl ⟨hn, forall₂_getElem? ha (i := 0) rfl h2⟩
  · obtain ⟨rfl, rfl⟩ := calls_unique hc h1
    obtain ⟨i, hi⟩ := List.getElem?_of_mem ho
    exact .inr (.inl ⟨hn, List.mem_of_getElem? (forall₂_getElem? ha hi h2)⟩)
  · obtain ⟨rfl, rfl⟩ := calls_unique hc h1
    exact .inr (.inr ⟨rfl, rfl, i, forall₂_getElem? ha ho h2⟩)

/-- C72: the declared keys and type are those the request mentions according to the documented syntax. -/
theorem C72_keys {objs : List Resp} {c : Command} (h : requestCommand objs = .ok c) (sp : Space) (k : Bytes) :
    Names sp objs k ↔ sp = spaceOf c.target ∧ k ∈ c.keys := by
  have hm := command_means h
  constructor
  · intro hn
    have one : ∀ {N k' : Bytes} {args : List Bytes}, Request objs N (k' :: args) →
        (N ∈ oneKey sp ∧ k' = k) ∨ (N ∈ manyKeys sp ∧ k ∈ k' :: args) ∨ (sp = .str ∧ N = b!"mset") := by
      intro N k' args hr
      rcases names_args hr hn with h | h | h
      · exact .inl ⟨h.1, by simpa using h.2⟩
      · exact .inr (.inl h)
      · exact .inr (.inr ⟨h.1, h.2.1⟩)
    have fin : ∀ {N k' : Bytes} {Q : Prop} (S : Space), (N ∈ oneKey sp ∧ k' = k) ∨ (N ∈ manyKeys sp ∧ Q) ∨ (sp = .str ∧ N = b!"mset") →
        (∀ sp, (N ∈ oneKey sp → sp = S) ∧ N ∉ manyKeys sp) → N ≠ b!"mset" → sp = S ∧ k = k' := by
      intro N k' Q S h h1 h2
      rcases h with h | h | h
      · exact ⟨(h1 sp).1 h.1, h.2.symm⟩
      · exact absurd h.1 (h1 sp).2
      · exact absurd h.2 h2
    have call : ∀ {N : Bytes} {o : Resp} {os : List Resp} {k' : Bytes}, Calls objs N (o :: os) → IsText o k' →
        (N ∈ oneKey sp ∧ k' = k) ∨ (N ∈ manyKeys sp ∧ True) ∨ (sp = .str ∧ N = b!"mset") := by
      intro N o os k' hc ht
      rcases hn with ⟨n, hn, o, os', h1, h2⟩ | ⟨n, hn, o, os', h1, ho, h2⟩ | ⟨rfl, os', i, o, h1, ho, h2⟩
      · obtain ⟨rfl, e⟩ := calls_unique hc h1
        simp only [List.cons.injEq] at e
        rw [e.1] at ht
        exact .inl ⟨hn, isText_unique ht h2⟩
      · exact .inr (.inl ⟨(calls_unique hc h1).1 ▸ hn, trivial⟩)
      · exact .inr (.inr ⟨rfl, (calls_unique hc h1).1⟩)
    cases c <;> simp only [Means] at hm <;> simp only [Command.target, Command.keys, spaceOf, List.mem_singleton]
    case mset ks vs =>
      rcases names_args hm.2 hn with h | h | ⟨rfl, -, i, h⟩
      · exact absurd h.1 (by cases sp <;> decide)
      · exact absurd h.1 (by cases sp <;> decide)
      · exact ⟨rfl, weave_pos hm.1 h⟩
    case mget ks | exist ks | sdiff ks | sinter ks | sunion ks =>
      rcases names_args hm.2 hn with h | h | ⟨rfl, h, -⟩
      · exact absurd h.1 (by cases sp <;> decide)
      · refine ⟨?_, h.2⟩
        have := h.1
        revert this
        cases sp <;> decide
      · exact absurd h (by decide)
    case incr k' d | decr k' d =>
      rcases hm with hm | ⟨-, hm | ⟨o, os, hm, ht⟩⟩
      · exact fin _ (one hm) (by intro sp; cases sp <;> decide) (by decide)
      · exact fin _ (one hm) (by intro sp; cases sp <;> decide) (by decide)
      · exact fin _ (call hm ht) (by intro sp; cases sp <;> decide) (by decide)
    case srandmember k' n | spop k' n =>
      cases n with
      | none =>
        simp only at hm
        exact fin _ (one hm) (by intro sp; cases sp <;> decide) (by decide)
      | some n =>
        simp only at hm
        obtain ⟨_, hm, -⟩ := hm
        exact fin _ (one hm) (by intro sp; cases sp <;> decide) (by decide)
    case getrange | lrange | ltrim =>
      obtain ⟨_, _, hm, -⟩ := hm
      exact fin _ (one hm) (by intro sp; cases sp <;> decide) (by decide)
    case lindex | linsert | lrem | lset =>
      obtain ⟨_, hm, -⟩ := hm
      exact fin _ (one hm) (by intro sp; cases sp <;> decide) (by decide)
    case lpush | rpush | hset | hdel | hmget | sadd | srem =>
      exact fin _ (one hm.2) (by intro sp; cases sp <;> decide) (by decide)
    all_goals
      exact fin _ (one hm) (by intro sp; cases sp <;> decide) (by decide)
  · rintro ⟨rfl, hk⟩
    refine cmdNames_names hm ?_
    cases c <;> simpa [cmdNames, Command.target, Command.keys, spaceOf] using hk
example : requestCommand [.bulk b!"mset", .bulk b!"a", .bulk b!"b"] = .ok (.mset [b!"a"] [b!"b"]) ∧ b!"b" ∉ (Command.mset [b!"a"] [b!"b"]).keys := by
  refine ⟨by rfl, by decide⟩

/-- A database with the list `a b` under the name `l`. -/
def accessSample (env : Env) : Outcome (State × Except CmdErr Resp) := execute env State.empty (.rpush b!"l" [b!"a", b!"b"])

theorem accessSample_trim (env : Env) : ∃ st st' r r' x y, accessSample env = .ok (st, r) ∧ execute env st (.ltrim b!"l" 0 0) = .ok (st', r') ∧
    st.lists.get b!"l" = some x ∧ st'.lists.get b!"l" = some y ∧ x.size = 2 ∧ y.size = 1 :=
  ⟨_, _, _, _, _, _, rfl, rfl, rfl, rfl, rfl, rfl⟩

/-- C72 is false: LTRIM declares that it only reads (so it is not logged either), and changes the list. -/
theorem C72_false (env : Env) : ∃ st st' r, execute env st (.ltrim b!"l" 0 0) = .ok (st', r) ∧ (Command.ltrim b!"l" 0 0).isModify = false ∧
    stored st' .list b!"l" ≠ stored st .list b!"l" := by
  obtain ⟨st, st', -, r', x, y, -, h, hx, hy, h2, h1⟩ := accessSample_trim env
  refine ⟨st, st', r', h, rfl, ?_⟩
  simp only [stored, hx, hy, ne_eq, Stored.list.injEq, Option.some.injEq]
  intro e; rw [e, h2] at h1; exact absurd h1 (by decide)

/-- SREM of a missing set creates it, a missing list is not created by LPOP; both meet the hypothesis of `C72_exists`. -/
example (env : Env) : ∃ st st' r r', execute env State.empty (.srem b!"s" [b!"a"]) = .ok (st, r) ∧ execute env st (.lpop b!"l") = .ok (st', r') ∧
    (stored st' .set b!"s").present = true ∧ (stored st' .list b!"l").present = false ∧ (stored st' .set []).present = false :=
  ⟨_, _, _, _, rfl, rfl, rfl, rfl, rfl⟩

/-- Two databases that differ, though not in what LLEN declares. -/
example (env : Env) : ∃ st st' r r', accessSample env = .ok (st, r) ∧ execute env st (.set b!"l" b!"x") = .ok (st', r') ∧
    (∀ k ∈ (Command.llen b!"l").keys, stored st (Command.llen b!"l").target k = stored st' (Command.llen b!"l").target k) ∧
    (stored st .global b!"l").present ≠ (stored st' .global b!"l").present :=
  ⟨_, _, _, _, rfl, rfl, fun _ _ => rfl, by decide⟩

end Verif.Props
