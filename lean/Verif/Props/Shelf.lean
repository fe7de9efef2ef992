import Verif.Spec.Shelf
import Verif.Props.Sheet
import Verif.Props.Roll
import Verif.Props.Row

/-! # C107 – what many users see of a list, of a string and of the sets -/

namespace Verif.Props

open Spec
open Fut (upd)

variable {ω : Nat → Nat} {U : Nat → Bool} {d : Bytes} {st : State}

/-! ### Lists -/

theorem list_written {a a1 : DB} {k : Bytes} {x : Command} {r : Resp} {P : Option (List Bytes) → Option (List Bytes) → Resp → Prop} (h : WritesList k x P) (hs : Replies a x a1 r) :
    P (a.lists k) (a1.lists k) r := by
  have put : ∀ xs, (a.setList k xs).lists k = some xs := fun xs => by simp [DB.setList]
  cases h with
  | lpush hk | rpush hk =>
    simp only [Replies, Step, if_neg hk] at hs
    rcases hs with g | ⟨e, g, -⟩ <;> cases g
    exact ⟨put _, rfl⟩
  | lpop =>
    simp only [Replies, Step] at hs
    cases e : a.lists k with
    | none =>
      rw [e] at hs
      rcases hs with g | ⟨e', g, -⟩ <;> cases g
      exact .inl ⟨rfl, e, rfl⟩
    | some xs =>
      rw [e] at hs
      cases xs with
      | nil =>
        rcases hs with g | ⟨e', g, -⟩ <;> cases g
        exact .inl ⟨rfl, e, rfl⟩
      | cons x xs =>
        rcases hs with g | ⟨e', g, -⟩ <;> cases g
        exact .inr ⟨x, xs, rfl, put _, rfl⟩
  | rpop =>
    simp only [Replies, Step] at hs
    cases e : a.lists k with
    | none =>
      rw [e] at hs
      rcases hs with g | ⟨e', g, -⟩ <;> cases g
      exact .inl ⟨rfl, e, rfl⟩
    | some xs =>
      rw [e] at hs
      rcases hs with (⟨rfl, g⟩ | ⟨ys, y, rfl, g⟩) | ⟨e', ⟨rfl, g⟩ | ⟨ys, y, rfl, g⟩, -⟩ <;> cases g
      · exact .inl ⟨rfl, e, rfl⟩
      · exact .inr ⟨y, ys, rfl, put _, rfl⟩
  | lset =>
    simp only [Replies, Step] at hs
    cases e : a.lists k with
    | none =>
      rw [e] at hs
      rcases hs with g | ⟨e', g, g'⟩ <;> cases g
      exact .inl ⟨rfl, e, g'⟩
    | some xs =>
      rw [e] at hs
      rcases hs with (⟨p, h1, g⟩ | ⟨h1, g⟩) | ⟨e', ⟨p, h1, g⟩ | ⟨h1, g⟩, g'⟩ <;> cases g
      · exact .inr ⟨xs, rfl, .inl ⟨p, h1, put _, rfl⟩⟩
      · exact .inr ⟨xs, rfl, .inr ⟨h1, e, g'⟩⟩
  | lrem =>
    simp only [Replies, Step] at hs
    cases e : a.lists k with
    | none =>
      rw [e] at hs
      rcases hs with g | ⟨e', g, g'⟩ <;> cases g
      exact .inl ⟨rfl, e, rfl⟩
    | some xs =>
      simp only [e] at hs
      rcases hs with g | ⟨e', g, g'⟩ <;> split at g <;> cases g
      exact .inr ⟨xs, rfl, put _, rfl⟩
  | ltrim =>
    rcases hs with (⟨i, j, h1, g⟩ | ⟨h1, g⟩) | ⟨e', ⟨i, j, h1, g⟩ | ⟨h1, g⟩, g'⟩ <;> cases g
    · exact ⟨rfl, .inl ⟨i, j, h1, put _⟩⟩
    · exact ⟨rfl, .inr ⟨h1, rfl⟩⟩
  | @linsert after pivot v =>
    simp only [Replies, Step] at hs
    cases e : a.lists k with
    | none =>
      rw [e] at hs
      rcases hs with g | ⟨e', g, g'⟩ <;> cases g
      exact .inl ⟨rfl, e, rfl⟩
    | some xs =>
      simp only [e] at hs
      by_cases hp : pivot = b!"dummy string"
      · simp only [if_pos hp] at hs
        rcases hs with g | ⟨e', g, g'⟩ <;> split at g <;> rename_i ha <;> cases g
        exact .inr (.inl ⟨xs, rfl, hp, ha, put _, rfl⟩)
      · simp only [if_neg hp] at hs
        rcases hs with (⟨h1, g⟩ | ⟨pre, post, h1, g⟩) | ⟨e', ⟨h1, g⟩ | ⟨pre, post, h1, g⟩, g'⟩ <;> cases g
        · exact .inr (.inr ⟨hp, xs, rfl, .inl ⟨h1, e, rfl⟩⟩)
        · exact .inr (.inr ⟨hp, xs, rfl, .inr ⟨pre, post, h1, put _, rfl⟩⟩)

theorem list_read {a a1 : DB} {k : Bytes} {x : Command} {r : Resp} {P : Option (List Bytes) → Resp → Prop} (h : ReadsList k x P) (hs : Replies a x a1 r) : P (a.lists k) r := by
  cases h with
  | llen => rcases hs with g | ⟨e', g, -⟩ <;> cases g; rfl
  | lindex =>
    rcases hs with (⟨p, x, h1, h2, g⟩ | ⟨h1, g⟩) | ⟨e', ⟨p, x, h1, h2, g⟩ | ⟨h1, g⟩, -⟩ <;> cases g
    · exact .inl ⟨p, x, h1, h2, rfl⟩
    · exact .inr ⟨h1, rfl⟩
  | lrange =>
    rcases hs with (⟨i, j, h1, g⟩ | ⟨h1, g⟩) | ⟨e', ⟨i, j, h1, g⟩ | ⟨h1, g⟩, -⟩ <;> cases g
    · exact .inl ⟨i, j, h1, rfl⟩
    · exact .inr ⟨h1, rfl⟩

theorem list_kept {a a1 : DB} {k : Bytes} {x : Command} {o : Except CmdErr Resp} (hv : Valid x) (hn : ¬ ∃ P, WritesList k x P) (hs : Step a x (some (a1, o))) :
    a1.lists k = a.lists k := by
  by_cases hk : k ∈ listKeys x
  · cases x <;> simp only [listKeys, List.mem_singleton, List.not_mem_nil] at hk <;> subst hk
    case lpush vs =>
      by_cases e : k = []
      · simp only [Step, if_pos e] at hs
        obtain ⟨_, g⟩ := hs
        cases g
        rfl
      · exact absurd ⟨_, .lpush e⟩ hn
    case rpush vs =>
      by_cases e : k = []
      · simp only [Step, if_pos e] at hs
        obtain ⟨_, g⟩ := hs
        cases g
        rfl
      · exact absurd ⟨_, .rpush e⟩ hn
    case lpop => exact absurd ⟨_, .lpop⟩ hn
    case rpop => exact absurd ⟨_, .rpop⟩ hn
    case lset => exact absurd ⟨_, .lset⟩ hn
    case lrem => exact absurd ⟨_, .lrem⟩ hn
    case ltrim => exact absurd ⟨_, .ltrim⟩ hn
    case linsert => exact absurd ⟨_, .linsert⟩ hn
  · have ho := step_outline hv hs
    generalize hy : (some (a1, o) : Out) = y at ho
    cases ho with
    | done _ hsb _ => cases hy; exact hsb.2.1 k hk
    | fails _ => cases hy; rfl
    | bare e _ => cases hy; rfl
    | crash _ => cases hy

theorem list_passes {a a' : DB} {qs : List (List Resp)} {rs : List Resp} (k : Bytes) (ht : Trace a qs rs a') :
    ∃ ms ver, Passes (ReadsList k) (WritesList k) qs rs (a.lists k) (a'.lists k) ms ver :=
  passes (f := fun a => a.lists k) list_written list_read (fun h h' => by cases h <;> cases h') list_kept ht

/-! ### Strings -/

theorem strs_puts {ps : List (Bytes × Bytes)} {a : DB} {k : Bytes} : (ps.foldl (fun a p => a.setStr p.1 p.2) a).strs k = (lastGiven ps k).or (a.strs k) := by
  induction ps generalizing a with
  | nil => simp [lastGiven]
  | cons p ps ih =>
    rw [List.foldl_cons, ih]
    simp only [lastGiven, List.reverse_cons, List.find?_append, List.find?_singleton]
    by_cases h : p.1 = k
    · subst h
      simp only [DB.setStr, Function.update_self, decide_true, if_true]
      cases (ps.reverse.find? fun q => q.1 = p.1) <;> simp
    · simp [h, DB.setStr, Function.update_of_ne (Ne.symm h)]

theorem added {a a1 : DB} {k arg : Bytes} {f : Int → Int → Int} {r : Resp} (hs : AddStep a k arg f (done a1 r) ∨ ∃ e, AddStep a k arg f (fails a1 e) ∧ ErrorReply e r) :
    AddedTo (a.strs k) (a1.strs k) arg f r := by
  rcases hs with (⟨old, v, d, n, t, h1, h2, h3, h4, h5, g⟩ | ⟨h1, _, g⟩ | ⟨h1, h2, g⟩ | ⟨h1, h2, g⟩) |
    ⟨e, (⟨old, v, d, n, t, h1, h2, h3, h4, h5, g⟩ | ⟨h1, _, g⟩ | ⟨h1, h2, g⟩ | ⟨h1, h2, g⟩), g'⟩ <;> cases g
  · exact .inl ⟨old, v, d, n, t, h1, h2, h3, h4, h5, by simp [DB.setStr], rfl⟩
  · exact .inr ⟨rfl, .inl ⟨h1, g'⟩⟩
  · exact .inr ⟨rfl, .inr (.inl ⟨h1, h2, g'⟩)⟩
  · exact .inr ⟨rfl, .inr (.inr ⟨h1, h2, g'⟩)⟩

theorem text_written {a a1 : DB} {k : Bytes} {x : Command} {r : Resp} {P : Option Bytes → Option Bytes → Resp → Prop} (h : WritesText k x P) (hs : Replies a x a1 r) :
    P (a.strs k) (a1.strs k) r := by
  cases h with
  | set => rcases hs with g | ⟨e', g, -⟩ <;> cases g; exact ⟨by simp [DB.setStr], rfl⟩
  | append => rcases hs with g | ⟨e', g, -⟩ <;> cases g; exact ⟨by simp [DB.setStr], rfl⟩
  | @mset ks vs hk =>
    have : ks ≠ [] := List.ne_nil_of_mem hk
    simp only [Replies, Step, if_neg this] at hs
    rcases hs with g | ⟨e', g, -⟩ <;> cases g
    exact ⟨strs_puts, rfl⟩
  | incr => exact added hs
  | decr => exact added hs

theorem text_read {a a1 : DB} {k : Bytes} {x : Command} {r : Resp} {P : Option Bytes → Resp → Prop} (h : ReadsText k x P) (hs : Replies a x a1 r) : P (a.strs k) r := by
  cases h with
  | get => rcases hs with g | ⟨e', g, -⟩ <;> cases g; rfl
  | strlen => rcases hs with g | ⟨e', g, -⟩ <;> cases g; rfl
  | exist =>
    rcases hs with g | ⟨e', g, -⟩ <;> cases g
    cases e : a.strs k <;> simp [e]
  | getrange =>
    rcases hs with (⟨i, j, h1, g⟩ | ⟨h1, g⟩) | ⟨e', ⟨i, j, h1, g⟩ | ⟨h1, g⟩, -⟩ <;> cases g
    · exact .inl ⟨i, j, h1, rfl⟩
    · exact .inr ⟨h1, rfl⟩
  | mget =>
    rcases hs with g | ⟨e', g, -⟩ <;> cases g
    exact ⟨_, rfl, by simp, fun p hp => by simp [hp]⟩

theorem text_kept {a a1 : DB} {k : Bytes} {x : Command} {o : Except CmdErr Resp} (hv : Valid x) (hn : ¬ ∃ P, WritesText k x P) (hs : Step a x (some (a1, o))) :
    a1.strs k = a.strs k := by
  by_cases hk : k ∈ strKeys x
  · cases x <;> simp only [strKeys, List.mem_singleton, List.not_mem_nil] at hk
    case mset => exact absurd ⟨_, .mset hk⟩ hn
    all_goals subst hk
    case set => exact absurd ⟨_, .set⟩ hn
    case append => exact absurd ⟨_, .append⟩ hn
    case incr => exact absurd ⟨_, .incr⟩ hn
    case decr => exact absurd ⟨_, .decr⟩ hn
  · have ho := step_outline hv hs
    generalize hy : (some (a1, o) : Out) = y at ho
    cases ho with
    | done _ hsb _ => cases hy; exact hsb.1 k hk
    | fails _ => cases hy; rfl
    | bare e _ => cases hy; rfl
    | crash _ => cases hy

theorem text_passes {a a' : DB} {qs : List (List Resp)} {rs : List Resp} (k : Bytes) (ht : Trace a qs rs a') :
    ∃ ms ver, Passes (ReadsText k) (WritesText k) qs rs (a.strs k) (a'.strs k) ms ver :=
  passes (f := fun a => a.strs k) text_written text_read (fun h h' => by cases h <;> cases h') text_kept ht

/-! ### Sets -/

theorem sets_written {a a1 : DB} {x : Command} {r : Resp} {P : (Bytes → Option (Finset Bytes)) → (Bytes → Option (Finset Bytes)) → Resp → Prop} (h : WritesSets x P)
    (hs : Replies a x a1 r) : P a.sets a1.sets r := by
  have put : ∀ k s, (a.setSet k s).sets k = some s := fun k s => by simp [DB.setSet]
  have rest : ∀ k s j, j ≠ k → (a.setSet k s).sets j = a.sets j := fun k s j hj => by simp [DB.setSet, Function.update_of_ne hj]
  cases h with
  | sadd | srem =>
    simp only [Replies, Step] at hs
    rcases hs with g | ⟨e, g, -⟩ <;> split at g <;> cases g
    exact ⟨put _ _, rest _ _, rfl⟩
  | @spop k n =>
    simp only [Replies, Step] at hs
    cases e : a.sets k with
    | none =>
      simp only [e] at hs
      rcases hs with g | ⟨e', g, -⟩ <;> cases g
      exact ⟨[], by simp, by simp, by simp [elements, e], by simp, fun _ _ => rfl, rfl⟩
    | some s =>
      simp only [e] at hs
      rcases hs with ⟨xs, h1, h2, h3, g⟩ | ⟨e', ⟨xs, h1, h2, h3, g⟩, -⟩ <;> cases g
      exact ⟨xs, h1, by simpa [elements, e] using h2, by simpa [elements, e] using h3, by simp [elements, e, put], rest _ _, rfl⟩
  | @spopone k =>
    simp only [Replies, Step] at hs
    cases e : a.sets k with
    | none =>
      simp only [e] at hs
      rcases hs with g | ⟨e', g, -⟩ <;> cases g
      exact .inl ⟨e, rfl, rfl⟩
    | some s =>
      simp only [e] at hs
      rcases hs with ⟨xs, h1, h2, h3, g⟩ | ⟨e', ⟨xs, h1, h2, h3, g⟩, -⟩ <;> cases xs <;> cases g
      rename_i x xs
      have : xs = [] := List.eq_nil_of_length_eq_zero (by simp at h3; omega)
      subst this
      exact .inr ⟨x, by simpa [elements, e] using h2, by rw [put]; simp [elements, e, Finset.sdiff_singleton_eq_erase], rest _ _, rfl⟩

theorem sets_read {a a1 : DB} {x : Command} {r : Resp} {P : (Bytes → Option (Finset Bytes)) → Resp → Prop} (h : ReadsSets x P) (hs : Replies a x a1 r) : P a.sets r := by
  cases h with
  | scard => rcases hs with g | ⟨e', g, -⟩ <;> cases g; rfl
  | @sismember k x hx =>
    simp only [Replies, Step] at hs
    cases e : a.sets k with
    | none =>
      simp only [e] at hs
      rcases hs with g | ⟨e', g, -⟩ <;> cases g
      simp [elements, e]
    | some s =>
      simp only [e, if_neg hx] at hs
      rcases hs with g | ⟨e', g, -⟩ <;> cases g
      simp [elements, e]
  | @smembers k =>
    simp only [Replies, Step] at hs
    cases e : a.sets k with
    | none =>
      simp only [e] at hs
      rcases hs with g | ⟨e', g, -⟩ <;> cases g
      exact .inl ⟨rfl, rfl⟩
    | some s =>
      simp only [e] at hs
      rcases hs with ⟨xs, h1, g⟩ | ⟨e', ⟨xs, h1, g⟩, -⟩ <;> cases g
      exact .inr ⟨by simp, xs, by simpa [elements, e] using h1, rfl⟩
  | @srandmember k n =>
    simp only [Replies, Step] at hs
    cases e : a.sets k with
    | none =>
      simp only [e] at hs
      rcases hs with g | ⟨e', g, -⟩ <;> cases g
      exact ⟨[], by simp, by simp, by simp [elements, e], rfl⟩
    | some s =>
      simp only [e] at hs
      rcases hs with ⟨xs, h1, h2, h3, g⟩ | ⟨e', ⟨xs, h1, h2, h3, g⟩, -⟩ <;> cases g
      exact ⟨xs, h1, by simpa [elements, e] using h2, by simpa [elements, e] using h3, rfl⟩
  | @srandone k =>
    simp only [Replies, Step] at hs
    cases e : a.sets k with
    | none =>
      simp only [e] at hs
      rcases hs with g | ⟨e', g, -⟩ <;> cases g
      exact .inl ⟨rfl, rfl⟩
    | some s =>
      simp only [e] at hs
      rcases hs with ⟨xs, h1, h2, h3, g⟩ | ⟨e', ⟨xs, h1, h2, h3, g⟩, -⟩ <;> cases xs <;> cases g
      rename_i x xs
      exact .inr ⟨x, by simpa [elements, e] using h2 (by simp : x ∈ (x :: xs).toFinset), rfl⟩
  | sdiff | sinter | sunion =>
    rcases hs with ⟨xs, h1, g⟩ | ⟨e', ⟨xs, h1, g⟩, -⟩ <;> cases g
    exact ⟨xs, h1, rfl⟩

theorem sets_kept {a a1 : DB} {x : Command} {o : Except CmdErr Resp} (hv : Valid x) (hn : ¬ ∃ P, WritesSets x P) (hs : Step a x (some (a1, o))) : a1.sets = a.sets := by
  funext k
  by_cases hk : k ∈ setKeys x
  · cases x <;> simp only [setKeys, List.mem_singleton, List.not_mem_nil] at hk
    case sadd => exact absurd ⟨_, .sadd⟩ hn
    case srem => exact absurd ⟨_, .srem⟩ hn
    case spop k' c =>
      cases c with
      | none => exact absurd ⟨_, .spopone⟩ hn
      | some n => exact absurd ⟨_, .spop⟩ hn
  · have ho := step_outline hv hs
    generalize hy : (some (a1, o) : Out) = y at ho
    cases ho with
    | done _ hsb _ => cases hy; exact hsb.2.2.2 k hk
    | fails _ => cases hy; rfl
    | bare e _ => cases hy; rfl
    | crash _ => cases hy

theorem sets_passes {a a' : DB} {qs : List (List Resp)} {rs : List Resp} (ht : Trace a qs rs a') : ∃ ms ver, Passes ReadsSets WritesSets qs rs a.sets a'.sets ms ver :=
  passes (f := DB.sets) sets_written sets_read (fun h h' => by cases h <;> cases h') sets_kept ht

/-! ### What the users see -/

/-- C107: whatever users and other clients do, with all the commands there are, a list has one content after the other, one more for every command that writes it; every LLEN, LINDEX and
LRANGE shows one of them; every LPUSH, RPUSH, LPOP, RPOP, LSET, LREM, LTRIM and LINSERT makes the next one, as a whole, of the one before and is answered from it; and they follow the order
in which the users see replies and type lines. -/
theorem C107_list {a0 : DB} (h0 : Abs st a0) {tr : List Desk.Ev} {s : Desk.Sys} (h : Exec (Desk.Step ω U) (Desk.new d st) tr s)
    (ho : ∀ x ∈ doneIn (seenIn (serverOf tr)), x.2.1.ord.Fair ∧ Sized x.2.2) (k : Bytes) :
    ∃ ms ver a, Contents U tr (ReadsList k) (WritesList k) ms ver ∧ ms[0]? = some (a0.lists k) ∧
      (∀ n m m', ms[n]? = some m → ms[n + 1]? = some m' → ∃ objs x P r, Ran tr objs ∧ Means objs x ∧ WritesList k x P ∧ P m m' r) ∧
      Abs s.full.whole.hub.db a ∧ ms.getLast? = some (a.lists k) ∧ ms.length = (timesRan tr fun objs _ => ∃ x P, Means objs x ∧ WritesList k x P) + 1 :=
  contents (f := fun a => a.lists k) (list_passes k) h0 h ho

/-- C107: and so has a string: every GET, STRLEN, GETRANGE, EXISTS and MGET shows one of the texts, every SET, MSET, APPEND, INCR, INCRBY, DECR and DECRBY makes the next one. -/
theorem C107_text {a0 : DB} (h0 : Abs st a0) {tr : List Desk.Ev} {s : Desk.Sys} (h : Exec (Desk.Step ω U) (Desk.new d st) tr s)
    (ho : ∀ x ∈ doneIn (seenIn (serverOf tr)), x.2.1.ord.Fair ∧ Sized x.2.2) (k : Bytes) :
    ∃ ms ver a, Contents U tr (ReadsText k) (WritesText k) ms ver ∧ ms[0]? = some (a0.strs k) ∧
      (∀ n m m', ms[n]? = some m → ms[n + 1]? = some m' → ∃ objs x P r, Ran tr objs ∧ Means objs x ∧ WritesText k x P ∧ P m m' r) ∧
      Abs s.full.whole.hub.db a ∧ ms.getLast? = some (a.strs k) ∧ ms.length = (timesRan tr fun objs _ => ∃ x P, Means objs x ∧ WritesText k x P) + 1 :=
  contents (f := fun a => a.strs k) (text_passes k) h0 h ho

/-- C107: and so have all the sets together: every SCARD, SISMEMBER, SMEMBERS and SRANDMEMBER shows one of them as it was, every SDIFF, SINTER and SUNION is that of all its sets as they
were at one moment; every SADD, SREM and SPOP changes one set and no other. -/
theorem C107_sets {a0 : DB} (h0 : Abs st a0) {tr : List Desk.Ev} {s : Desk.Sys} (h : Exec (Desk.Step ω U) (Desk.new d st) tr s)
    (ho : ∀ x ∈ doneIn (seenIn (serverOf tr)), x.2.1.ord.Fair ∧ Sized x.2.2) :
    ∃ ms ver a, Contents U tr ReadsSets WritesSets ms ver ∧ ms[0]? = some a0.sets ∧
      (∀ n m m', ms[n]? = some m → ms[n + 1]? = some m' → ∃ objs x P r, Ran tr objs ∧ Means objs x ∧ WritesSets x P ∧ P m m' r) ∧
      Abs s.full.whole.hub.db a ∧ ms.getLast? = some a.sets ∧ ms.length = (timesRan tr fun objs _ => ∃ x P, Means objs x ∧ WritesSets x P) + 1 :=
  contents (f := DB.sets) sets_passes h0 h ho

/-! ### Examples -/

/-- The hypotheses of `C107_list` can be met. -/
example : ∃ (tr : List Desk.Ev) (s : Desk.Sys) (P : Option (List Bytes) → Resp → Prop) (P' : Option (List Bytes) → Option (List Bytes) → Resp → Prop),
    Exec (Desk.Step ω Script.isUser) (Desk.new d State.empty) tr s ∧ (∀ x ∈ doneIn (seenIn (serverOf tr)), x.2.1.ord.Fair ∧ Sized x.2.2) ∧
    Got tr 7 0 (.rpush b!"q" [b!"x"]) (.int 1) ∧ WritesList b!"q" (.rpush b!"q" [b!"x"]) P' ∧
    Got tr 8 0 (.lrange b!"q" 0 (-1)) (.array [.bulk b!"x"]) ∧ ReadsList b!"q" (.lrange b!"q" 0 (-1)) P := by
  obtain ⟨tr, s, h1, h2, h3, h4⟩ := Script.played (ω := ω) (d := d) noting_plays abs_empty
  exact ⟨tr, s, _, _, h1, h3, got_play (h4 7 rfl).1 (h4 7 rfl).2 (xs := noting) rfl (command_means rfl), .rpush (by simp),
    got_play (h4 8 rfl).1 (h4 8 rfl).2 (xs := noting) rfl lrange_means, .lrange⟩

/-- The hypotheses of `C107_text` can be met. -/
example : ∃ (tr : List Desk.Ev) (s : Desk.Sys) (P : Option Bytes → Resp → Prop) (P' : Option Bytes → Option Bytes → Resp → Prop),
    Exec (Desk.Step ω Script.isUser) (Desk.new d State.empty) tr s ∧ (∀ x ∈ doneIn (seenIn (serverOf tr)), x.2.1.ord.Fair ∧ Sized x.2.2) ∧
    Got tr 7 0 (.mset [b!"a", b!"b"] [b!"1", b!"1"]) okReply ∧ WritesText b!"b" (.mset [b!"a", b!"b"] [b!"1", b!"1"]) P' ∧
    Got tr 8 1 (.mget [b!"a", b!"b"]) (.array [.bulk b!"1", .bulk b!"1"]) ∧ ReadsText b!"b" (.mget [b!"a", b!"b"]) P := by
  obtain ⟨tr, s, h1, h2, h3, h4⟩ := Script.played (ω := ω) (d := d) pairing_plays abs_empty
  exact ⟨tr, s, _, _, h1, h3, got_play (h4 7 rfl).1 (h4 7 rfl).2 (xs := pairing) (ws := [b!"mset", b!"a", b!"1", b!"b", b!"1"]) rfl (command_means rfl), .mset (by simp),
    got_play (h4 8 rfl).1 (h4 8 rfl).2 (xs := pairing) (ws := [b!"mget", b!"a", b!"b"]) rfl (command_means rfl), .mget⟩

/-- The hypotheses of `C107_sets` can be met. -/
example : ∃ (tr : List Desk.Ev) (s : Desk.Sys) (P : (Bytes → Option (Finset Bytes)) → Resp → Prop) (P' : (Bytes → Option (Finset Bytes)) → (Bytes → Option (Finset Bytes)) → Resp → Prop),
    Exec (Desk.Step ω Script.isUser) (Desk.new d State.empty) tr s ∧ (∀ x ∈ doneIn (seenIn (serverOf tr)), x.2.1.ord.Fair ∧ Sized x.2.2) ∧
    Got tr 7 0 (.sadd b!"l" [b!"m"]) (.int 1) ∧ WritesSets (.sadd b!"l" [b!"m"]) P' ∧ Got tr 8 1 (.smembers b!"l") (.array [.bulk b!"m"]) ∧ ReadsSets (.smembers b!"l") P := by
  obtain ⟨tr, s, h1, h2, h3, h4⟩ := Script.played (ω := ω) (d := d) signing_plays abs_empty
  exact ⟨tr, s, _, _, h1, h3, got_play (h4 7 rfl).1 (h4 7 rfl).2 (xs := signing) (ws := [b!"sadd", b!"l", b!"m"]) rfl (command_means rfl), .sadd,
    got_play (h4 8 rfl).1 (h4 8 rfl).2 (xs := signing) (ws := [b!"smembers", b!"l"]) rfl (command_means rfl), .smembers⟩

end Verif.Props
