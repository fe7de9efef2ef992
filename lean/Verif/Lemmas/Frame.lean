import Verif.Spec.Frame
import Verif.Lemmas.Request

/-! Consequences of `Spec.Step`, command by command. -/

namespace Verif

open Spec

theorem request_length {objs : List Resp} {name : Bytes} {args : List Bytes} (h : Request objs name args) :
    ∃ os, Calls objs name os ∧ os.length = args.length := by
  obtain ⟨os, h1, h2⟩ := h; exact ⟨os, h1, h2.length_eq⟩

theorem request_head {objs : List Resp} {name k : Bytes} {args : List Bytes} (h : Request objs name (k :: args)) :
    ∃ o os, Calls objs name (o :: os) ∧ IsText o k := by
  obtain ⟨os, h1, h2⟩ := h
  cases h2 with
  | cons h3 h4 => exact ⟨_, _, h1, h3⟩

/-- The string keys a command may change. -/
def strKeys : Command → List Bytes
  | .set k _ | .append k _ | .incr k _ | .decr k _ => [k]
  | .mset ks _ => ks
  | _ => []

/-- The list keys a command may change. -/
def listKeys : Command → List Bytes
  | .lpush k _ | .rpush k _ | .lpop k | .rpop k | .linsert k _ _ _ | .lset k _ _ | .lrem k _ _ | .ltrim k _ _ => [k]
  | _ => []

/-- The hash keys a command may change. -/
def hashKeys : Command → List Bytes
  | .hset k _ _ | .hdel k _ => [k]
  | _ => []

/-- The set keys a command may change. -/
def setKeys : Command → List Bytes
  | .sadd k _ | .srem k _ | .spop k _ => [k]
  | _ => []

/-- Everything but the named keys is the same. -/
def SameBut (c : Command) (a a' : DB) : Prop :=
  (∀ k, k ∉ strKeys c → a'.strs k = a.strs k) ∧ (∀ k, k ∉ listKeys c → a'.lists k = a.lists k) ∧
  (∀ k, k ∉ hashKeys c → a'.hashes k = a.hashes k) ∧ (∀ k, k ∉ setKeys c → a'.sets k = a.sets k)

theorem sameBut_refl (c : Command) (a : DB) : SameBut c a a := ⟨fun _ _ => rfl, fun _ _ => rfl, fun _ _ => rfl, fun _ _ => rfl⟩

theorem sameBut_setStr {c : Command} {a : DB} {k v : Bytes} (h : k ∈ strKeys c) : SameBut c a (a.setStr k v) := by
  refine ⟨fun x hx => ?_, fun _ _ => rfl, fun _ _ => rfl, fun _ _ => rfl⟩
  exact Function.update_of_ne (by rintro rfl; exact hx h) _ _

theorem sameBut_setList {c : Command} {a : DB} {k : Bytes} {v} (h : k ∈ listKeys c) : SameBut c a (a.setList k v) := by
  refine ⟨fun _ _ => rfl, fun x hx => ?_, fun _ _ => rfl, fun _ _ => rfl⟩
  exact Function.update_of_ne (by rintro rfl; exact hx h) _ _

theorem sameBut_setHash {c : Command} {a : DB} {k : Bytes} {v} (h : k ∈ hashKeys c) : SameBut c a (a.setHash k v) := by
  refine ⟨fun _ _ => rfl, fun _ _ => rfl, fun x hx => ?_, fun _ _ => rfl⟩
  exact Function.update_of_ne (by rintro rfl; exact hx h) _ _

theorem sameBut_setSet {c : Command} {a : DB} {k : Bytes} {v} (h : k ∈ setKeys c) : SameBut c a (a.setSet k v) := by
  refine ⟨fun _ _ => rfl, fun _ _ => rfl, fun _ _ => rfl, fun x hx => ?_⟩
  exact Function.update_of_ne (by rintro rfl; exact hx h) _ _

theorem foldl_setStr_strs (a : DB) (ps : List (Bytes × Bytes)) (k : Bytes) (h : k ∉ ps.map Prod.fst) :
    (ps.foldl (fun a p => a.setStr p.1 p.2) a).strs k = a.strs k := by
  induction ps generalizing a with
  | nil => rfl
  | cons p ps ih =>
    simp only [List.map_cons, List.mem_cons, not_or] at h
    rw [List.foldl_cons, ih _ h.2]
    exact Function.update_of_ne h.1 _ _

theorem foldl_setStr_rest (a : DB) (ps : List (Bytes × Bytes)) :
    (ps.foldl (fun a p => a.setStr p.1 p.2) a).lists = a.lists ∧ (ps.foldl (fun a p => a.setStr p.1 p.2) a).hashes = a.hashes ∧
    (ps.foldl (fun a p => a.setStr p.1 p.2) a).sets = a.sets := by
  induction ps generalizing a with
  | nil => exact ⟨rfl, rfl, rfl⟩
  | cons p ps ih => exact ih _

theorem sameBut_mset {ks vs : List Bytes} {a : DB} :
    SameBut (.mset ks vs) a ((ks.zip vs).foldl (fun a p => a.setStr p.1 p.2) a) := by
  obtain ⟨h1, h2, h3⟩ := foldl_setStr_rest a (ks.zip vs)
  refine ⟨fun k hk => foldl_setStr_strs _ _ _ ?_, fun _ _ => by rw [h1], fun _ _ => by rw [h2], fun _ _ => by rw [h3]⟩
  intro hm
  obtain ⟨⟨x, y⟩, hp, rfl⟩ := List.mem_map.1 hm
  exact hk (List.of_mem_zip hp).1

macro "sameBut" : tactic => `(tactic| first
  | exact sameBut_refl _ _
  | exact sameBut_setStr (by simp [strKeys])
  | exact sameBut_setList (by simp [listKeys])
  | exact sameBut_setHash (by simp [hashKeys])
  | exact sameBut_setSet (by simp [setKeys])
  | exact sameBut_mset)

/-- The reply type of each command. -/
inductive ShapeC : Command → Resp → Prop where
  | ok {c} : (match c with | .set .. | .mset .. | .lset .. | .ltrim .. => True | _ => False) → ShapeC c okReply
  | int {c} (n : Int) : (match c with
      | .exist .. | .strlen .. | .append .. | .incr .. | .decr .. | .llen .. | .lpush .. | .rpush .. | .linsert .. | .lrem .. | .hset ..
      | .hdel .. | .hexists .. | .hlen .. | .hstrlen .. | .sadd .. | .srem .. | .sismember .. | .scard .. => True
      | _ => False) → ShapeC c (.int n)
  | bulk {c} (d : Bytes) : (match c with
      | .get .. | .lpop .. | .rpop .. | .lindex .. | .hget .. | .getrange .. | .spop _ none | .srandmember _ none => True
      | _ => False) → ShapeC c (.bulk d)
  | nullBulk {c} : (match c with
      | .get .. | .lpop .. | .rpop .. | .lindex .. | .hget .. | .spop _ none | .srandmember _ none => True
      | _ => False) → ShapeC c .nullBulk
  | mget {ks} (xs : List (Option Bytes)) : xs.length = ks.length → ShapeC (.mget ks) (.array (xs.map bulk?))
  | hmget {k fs} (xs : List (Option Bytes)) : xs.length = fs.length → ShapeC (.hmget k fs) (.array (xs.map bulk?))
  | array {c} (xs : List Bytes) : (match c with
      | .lrange .. | .hkeys .. | .hvals .. | .hgetall .. | .smembers .. | .sdiff .. | .sinter .. | .sunion .. | .spop _ (some _)
      | .srandmember _ (some _) => True
      | _ => False) → ShapeC c (.array (xs.map .bulk))
  | nullArray {c} : (match c with
      | .lrange .. | .hkeys .. | .hvals .. | .hgetall .. | .smembers .. | .sdiff .. | .sinter .. | .sunion .. | .spop _ (some _)
      | .srandmember _ (some _) => True
      | _ => False) → ShapeC c .nullArray

/-- When a command kills the server. -/
def FatalC (a : DB) : Command → Prop
  | .hset k _ _ | .sadd k _ | .srem k _ => k = []
  | .spop k none | .srandmember k none => a.sets k = some ∅
  | .lrem k n v => v = b!"dummy string" ∧ ∃ xs, a.lists k = some xs ∧ ¬ (n = 0 ∧ xs = []) ∧ n ≠ minInt64
  | .linsert k false p _ => p = b!"dummy string" ∧ ∃ xs, a.lists k = some xs
  | _ => False

/-- The possible outcomes of a command, in outline. -/
inductive Outline (a : DB) (c : Command) : Out → Prop where
  | done {a' : DB} {r : Resp} : ¬ FatalC a c → SameBut c a a' → ShapeC c r → Outline a c (done a' r)
  | fails {e : CmdErr} : ¬ FatalC a c → Outline a c (fails a e)
  | bare {k : Bytes} : c = .hset k [] [] → k ≠ [] → Outline a c (fails (a.setHash k (a.hashAt k)) .argumentInvalid)
  | crash : FatalC a c → Outline a c none

macro "outline" : tactic => `(tactic| first
  | exact .done (by simp [FatalC]) (by sameBut) (.int _ trivial)
  | exact .done (by simp [FatalC]) (by sameBut) (.ok trivial)
  | exact .done (by simp [FatalC]) (by sameBut) (.bulk _ trivial)
  | exact .done (by simp [FatalC]) (by sameBut) (.nullBulk trivial)
  | exact .done (by simp [FatalC]) (by sameBut) (.array _ trivial)
  | exact .done (by simp [FatalC]) (by sameBut) (.nullArray trivial)
  | exact .fails (by simp [FatalC]))

theorem shape_bulk? {c : Command} (x : Option Bytes) (h : match c with
      | .get .. | .lpop .. | .rpop .. | .lindex .. | .hget .. => True
      | _ => False) : ShapeC c (bulk? x) := by
  cases x with
  | none => cases c <;> first | exact .nullBulk trivial | exact h.elim
  | some d => cases c <;> first | exact .bulk d trivial | exact h.elim

theorem shape_bulksOrNull {c : Command} (x : List Bytes) (h : match c with
      | .lrange .. | .hkeys .. | .hvals .. | .hgetall .. | .smembers .. | .sdiff .. | .sinter .. | .sunion .. | .spop _ (some _)
      | .srandmember _ (some _) => True
      | _ => False) : ShapeC c (bulksOrNull x) := by
  unfold bulksOrNull
  split
  · exact .nullArray h
  · exact .array _ h

/-- Every step is of one of the outlined forms. -/
theorem step_outline {a : DB} {c : Command} {out : Out} (hv : Valid c) (h : Step a c out) : Outline a c out := by
  cases c with
  | get k => simp only [Step] at h; subst h; exact .done (by simp [FatalC]) (by sameBut) (shape_bulk? _ trivial)
  | mget ks =>
    simp only [Step] at h; subst h
    have : (ks.map fun k => bulk? (a.strs k)) = (ks.map a.strs).map bulk? := by rw [List.map_map]; rfl
    rw [this]
    exact .done (by simp [FatalC]) (by sameBut) (.mget _ (by simp))
  | hmget k fs =>
    simp only [Step] at h; subst h
    have : (fs.map fun f => bulk? ((a.hashAt k).lookup f)) = (fs.map fun f => (a.hashAt k).lookup f).map bulk? := by
      rw [List.map_map]; rfl
    rw [this]
    exact .done (by simp [FatalC]) (by sameBut) (.hmget _ (by simp))
  | hget k f =>
    simp only [Step] at h
    split at h
    · subst h; outline
    · split at h
      · subst h; outline
      · subst h; exact .done (by simp [FatalC]) (by sameBut) (shape_bulk? _ trivial)
  | hkeys k =>
    simp only [Step] at h
    split at h
    · subst h; outline
    · obtain ⟨ps, -, rfl⟩ := h
      have : (ps.map fun p => Resp.bulk p.1) = (ps.map Prod.fst).map .bulk := by rw [List.map_map]; rfl
      rw [this]; outline
  | hvals k =>
    simp only [Step] at h
    split at h
    · subst h; outline
    · obtain ⟨ps, -, rfl⟩ := h
      have : (ps.map fun p => Resp.bulk p.2) = (ps.map Prod.snd).map .bulk := by rw [List.map_map]; rfl
      rw [this]; outline
  | hgetall k =>
    simp only [Step] at h
    split at h
    · subst h; outline
    · obtain ⟨ps, -, rfl⟩ := h
      have : (ps.flatMap fun p => [Resp.bulk p.1, .bulk p.2]) = (ps.flatMap fun p => [p.1, p.2]).map .bulk := by
        rw [List.map_flatMap]; rfl
      rw [this]; outline
  | sdiff ks => obtain ⟨ms, -, rfl⟩ := h; exact .done (by simp [FatalC]) (by sameBut) (shape_bulksOrNull _ trivial)
  | sinter ks => obtain ⟨ms, -, rfl⟩ := h; exact .done (by simp [FatalC]) (by sameBut) (shape_bulksOrNull _ trivial)
  | sunion ks => obtain ⟨ms, -, rfl⟩ := h; exact .done (by simp [FatalC]) (by sameBut) (shape_bulksOrNull _ trivial)
  | linsert k after p v =>
    simp only [Step] at h
    split at h
    · rename_i hk
      subst h
      exact .done (by cases after <;> simp [FatalC, hk]) (by sameBut) (.int _ trivial)
    · rename_i xs hk
      split at h
      · rename_i hp
        cases after with
        | true => simp at h; subst h; outline
        | false => simp at h; subst h; exact .crash ⟨hp, xs, hk⟩
      · rename_i hp
        rcases h with ⟨-, rfl⟩ | ⟨pre, post, -, rfl⟩
        · exact .done (by cases after <;> simp [FatalC, hp]) (by sameBut) (.int _ trivial)
        · exact .done (by cases after <;> simp [FatalC, hp]) (by sameBut) (.int _ trivial)
  | lrem k n v =>
    simp only [Step] at h
    split at h
    · rename_i hk; subst h; exact .done (by simp [FatalC, hk]) (by sameBut) (.int _ trivial)
    · rename_i xs hk
      split at h
      · rename_i hc
        subst h
        exact .crash ⟨hc.1, xs, hk, hc.2⟩
      · rename_i hc
        subst h
        refine .done ?_ (by sameBut) (.int _ trivial)
        rintro ⟨h1, ys, h2, h3⟩
        rw [hk] at h2; cases h2
        exact hc ⟨h1, h3⟩
  | hset k fs vs =>
    simp only [Step] at h
    split at h
    · subst h; rename_i hk; exact .crash hk
    · rename_i hk
      split at h
      · rename_i hf
        subst hf h
        have : vs = [] := List.length_eq_zero_iff.1 (Eq.symm hv)
        subst this
        exact .bare rfl hk
      · subst h; exact .done hk (by sameBut) (.int _ trivial)
  | sadd k ms =>
    simp only [Step] at h
    split at h
    · subst h; rename_i hk; exact .crash hk
    · subst h; rename_i hk; exact .done hk (by sameBut) (.int _ trivial)
  | srem k ms =>
    simp only [Step] at h
    split at h
    · subst h; rename_i hk; exact .crash hk
    · subst h; rename_i hk; exact .done hk (by sameBut) (.int _ trivial)
  | spop k n =>
    simp only [Step] at h
    split at h
    · rename_i hk
      subst h
      cases n with
      | none => exact .done (by simp [FatalC, hk]) (by sameBut) (.nullBulk trivial)
      | some n => exact .done (by simp [FatalC]) (by sameBut) (.nullArray trivial)
    · rename_i s hk
      obtain ⟨ms, h1, h2, h3, h⟩ := h
      cases n with
      | some n => simp at h; subst h; exact .done (by simp [FatalC]) (by sameBut) (shape_bulksOrNull _ trivial)
      | none =>
        cases ms with
        | nil =>
          simp at h h3; subst h
          refine .crash ?_
          have : s = ∅ := Finset.card_eq_zero.1 (by omega)
          simp [FatalC, hk, this]
        | cons m ms =>
          simp at h h3; subst h
          refine .done ?_ (by sameBut) (.bulk _ trivial)
          simp only [FatalC, hk]
          rintro h; cases h; simp at h3
  | srandmember k n =>
    simp only [Step] at h
    split at h
    · rename_i hk
      subst h
      cases n with
      | none => exact .done (by simp [FatalC, hk]) (by sameBut) (.nullBulk trivial)
      | some n => exact .done (by simp [FatalC]) (by sameBut) (.nullArray trivial)
    · rename_i s hk
      obtain ⟨ms, h1, h2, h3, h⟩ := h
      cases n with
      | some n => simp at h; subst h; exact .done (by simp [FatalC]) (by sameBut) (shape_bulksOrNull _ trivial)
      | none =>
        cases ms with
        | nil =>
          simp at h h3; subst h
          refine .crash ?_
          have : s = ∅ := Finset.card_eq_zero.1 (by omega)
          simp [FatalC, hk, this]
        | cons m ms =>
          simp at h h3; subst h
          refine .done ?_ (by sameBut) (.bulk _ trivial)
          simp only [FatalC, hk]
          rintro h; cases h; simp at h3
  | _ =>
    simp only [Step, AddStep] at h
    repeat' first
      | (subst h; outline)
      | (rcases (h : _ ∨ _) with h | h)
      | (obtain ⟨_, h⟩ := (h : ∃ _, _))
      | (obtain ⟨_, h⟩ := (h : _ ∧ _))
      | (split at h)

/-! ### In terms of requests -/

theorem writes_of {sp : Space} {objs : List Resp} {name k : Bytes} {args : List Bytes} (hn : name ∈ writers sp)
    (h : Request objs name (k :: args)) : Writes sp objs k := by
  obtain ⟨o, os, h1, h2⟩ := request_head h
  exact .inl ⟨name, hn, o, os, h1, h2⟩

theorem mem_weave_pos {ks vs : List Bytes} (hl : ks.length = vs.length) {k : Bytes} (h : k ∈ ks) :
    ∃ i, (weave ks vs)[2 * i]? = some k := by
  induction ks generalizing vs with
  | nil => simp at h
  | cons x ks ih =>
    cases vs with
    | nil => simp at hl
    | cons v vs =>
      rcases List.mem_cons.1 h with rfl | h
      · exact ⟨0, rfl⟩
      · obtain ⟨i, hi⟩ := ih (vs := vs) (by simpa using hl) h
        exact ⟨i + 1, hi⟩

theorem weave_pos {ks vs : List Bytes} (hl : ks.length = vs.length) {i : Nat} {k : Bytes} (h : (weave ks vs)[2 * i]? = some k) : k ∈ ks := by
  induction ks generalizing vs i with
  | nil => simp [weave] at h
  | cons x ks ih =>
    cases vs with
    | nil => simp at hl
    | cons v vs =>
      cases i with
      | zero => simp [weave] at h; simp [h]
      | succ i =>
        have : (weave ks vs)[2 * i]? = some k := h
        exact List.mem_cons_of_mem _ (ih (by simpa using hl) this)

theorem strKeys_writes {objs : List Resp} {c : Command} {k : Bytes} (h : Means objs c) (hk : k ∈ strKeys c) : Writes .str objs k := by
  cases c <;> simp only [strKeys, List.mem_singleton, List.not_mem_nil] at hk
  case set => subst hk; exact writes_of (by decide) h
  case append => subst hk; exact writes_of (by decide) h
  case incr =>
    subst hk
    rcases h with h | ⟨rfl, h | ⟨o, os, h, h'⟩⟩
    · exact writes_of (by decide) h
    · exact writes_of (by decide) h
    · exact .inl ⟨_, by decide, o, os, h, h'⟩
  case decr =>
    subst hk
    rcases h with h | ⟨rfl, h | ⟨o, os, h, h'⟩⟩
    · exact writes_of (by decide) h
    · exact writes_of (by decide) h
    · exact .inl ⟨_, by decide, o, os, h, h'⟩
  case mset ks vs =>
    obtain ⟨hl, os, h1, h2⟩ := h
    obtain ⟨i, hi⟩ := mem_weave_pos hl hk
    obtain ⟨hlt, hi⟩ := List.getElem?_eq_some_iff.1 hi
    have hlt' : 2 * i < os.length := by rw [h2.length_eq]; exact hlt
    refine .inr ⟨rfl, os, i, os[2 * i], h1, List.getElem?_eq_getElem hlt', ?_⟩
    have := List.Forall₂.get h2 hlt' hlt
    simp only [List.get_eq_getElem] at this
    rwa [hi] at this

theorem listKeys_writes {objs : List Resp} {c : Command} {k : Bytes} (h : Means objs c) (hk : k ∈ listKeys c) : Writes .list objs k := by
  cases c <;> simp only [listKeys, List.mem_singleton, List.not_mem_nil] at hk
  all_goals subst hk
  case lpop => exact writes_of (by decide) h
  case rpop => exact writes_of (by decide) h
  case linsert => obtain ⟨w, h, -⟩ := h; exact writes_of (by decide) h
  case lpush => exact writes_of (by decide) h.2
  case rpush => exact writes_of (by decide) h.2
  case ltrim => obtain ⟨_, _, h, -⟩ := h; exact writes_of (by decide) h
  case lrem => obtain ⟨w, h, -⟩ := h; exact writes_of (by decide) h
  case lset => obtain ⟨w, h, -⟩ := h; exact writes_of (by decide) h

theorem hashKeys_writes {objs : List Resp} {c : Command} {k : Bytes} (h : Means objs c) (hk : k ∈ hashKeys c) : Writes .hash objs k := by
  cases c <;> simp only [hashKeys, List.mem_singleton, List.not_mem_nil] at hk
  all_goals subst hk
  case hset => exact writes_of (by decide) h.2
  case hdel => exact writes_of (by decide) h.2

theorem setKeys_writes {objs : List Resp} {c : Command} {k : Bytes} (h : Means objs c) (hk : k ∈ setKeys c) : Writes .set objs k := by
  cases c <;> simp only [setKeys, List.mem_singleton, List.not_mem_nil] at hk
  all_goals subst hk
  case sadd => exact writes_of (by decide) h.2
  case srem => exact writes_of (by decide) h.2
  case spop n => cases n with
    | none => exact writes_of (by decide) h
    | some n => obtain ⟨w, h, -⟩ := h; exact writes_of (by decide) h

/-- Requests have one meaning. -/
theorem means_unique {objs : List Resp} {c d : Command} (h : Means objs c) (h' : Means objs d) : c = d := by
  have := (means_command h).symm.trans (means_command h')
  simpa using this

theorem fatal_iff {a : DB} {objs : List Resp} : Fatal a objs ↔ ∃ c, Means objs c ∧ FatalC a c := by
  constructor
  · rintro (⟨fs, vs, hl, h⟩ | ⟨ms, hm, h | h⟩ | ⟨k, h | h, hs⟩ | ⟨k, l, n, xs, h, hn, hx, h1, h2⟩ | ⟨k, w, v, xs, h, hw, hx⟩)
    · exact ⟨.hset [] fs vs, ⟨hl, h⟩, rfl⟩
    · exact ⟨.sadd [] ms, ⟨hm, h⟩, rfl⟩
    · exact ⟨.srem [] ms, ⟨hm, h⟩, rfl⟩
    · exact ⟨.spop k none, h, hs⟩
    · exact ⟨.srandmember k none, h, hs⟩
    · exact ⟨.lrem k n b!"dummy string", ⟨l, h, hn⟩, rfl, xs, hx, h1, h2⟩
    · exact ⟨.linsert k false b!"dummy string" v, ⟨w, h, hw⟩, rfl, xs, hx⟩
  · rintro ⟨c, hm, hf⟩
    cases c <;> simp only [FatalC] at hf
    case hset k fs vs => subst hf; exact .inl ⟨fs, vs, hm⟩
    case sadd k ms => subst hf; exact .inr (.inl ⟨ms, hm.1, .inl hm.2⟩)
    case srem k ms => subst hf; exact .inr (.inl ⟨ms, hm.1, .inr hm.2⟩)
    case spop k n => cases n with
      | none => exact .inr (.inr (.inl ⟨k, .inl hm, hf⟩))
      | some n => exact hf.elim
    case srandmember k n => cases n with
      | none => exact .inr (.inr (.inl ⟨k, .inr hm, hf⟩))
      | some n => exact hf.elim
    case lrem k n v =>
      obtain ⟨rfl, xs, h1, h2, h3⟩ := hf
      obtain ⟨l, hr, hi⟩ := hm
      exact .inr (.inr (.inr (.inl ⟨k, l, n, xs, hr, hi, h1, h2, h3⟩)))
    case linsert k af p v =>
      cases af with
      | true => exact hf.elim
      | false =>
        obtain ⟨rfl, xs, h1⟩ := hf
        obtain ⟨l, hr, hi⟩ := hm
        exact .inr (.inr (.inr (.inr ⟨k, l, v, xs, hr, hi, h1⟩)))

theorem shape_of {objs : List Resp} {c : Command} {r : Resp} (hm : Means objs c) (h : ShapeC c r) :
    ∃ name os, Calls objs name os ∧ Shape name os.length r := by
  have g : ∀ {name args}, Request objs name args → Shape name args.length r → ∃ name os, Calls objs name os ∧ Shape name os.length r := by
    intro name args hr hs
    obtain ⟨os, h1, h2⟩ := request_length hr
    exact ⟨name, os, h1, h2 ▸ hs⟩
  have s1 : ∀ {name n}, name ∈ [b!"set", b!"mset", b!"lset", b!"ltrim"] → Shape name n okReply := fun h => .inl ⟨h, rfl⟩
  have s2 : ∀ {name n i}, name ∈ [b!"exists", b!"strlen", b!"append", b!"incr", b!"incrby", b!"decr", b!"decrby", b!"llen", b!"lpush",
      b!"rpush", b!"linsert", b!"lrem", b!"hset", b!"hdel", b!"hexists", b!"hlen", b!"hstrlen", b!"sadd", b!"srem", b!"sismember",
      b!"scard"] → Shape name n (.int i) := fun h => .inr (.inl ⟨h, _, rfl⟩)
  have s3 : ∀ {name n d}, name ∈ [b!"get", b!"lpop", b!"rpop", b!"lindex", b!"hget"] → Shape name n (.bulk d) :=
    fun h => .inr (.inr (.inl ⟨h, .inl ⟨_, rfl⟩⟩))
  have s4 : ∀ {name n}, name ∈ [b!"get", b!"lpop", b!"rpop", b!"lindex", b!"hget"] → Shape name n .nullBulk :=
    fun h => .inr (.inr (.inl ⟨h, .inr rfl⟩))
  have s5 : ∀ {name n xs}, name ∈ [b!"lrange", b!"hkeys", b!"hvals", b!"hgetall", b!"smembers", b!"sdiff", b!"sinter", b!"sunion"] →
      Shape name n (.array (List.map .bulk xs)) := fun h => .inr (.inr (.inr (.inr (.inr (.inr (.inl ⟨h, .inl ⟨_, rfl⟩⟩))))))
  have s6 : ∀ {name n}, name ∈ [b!"lrange", b!"hkeys", b!"hvals", b!"hgetall", b!"smembers", b!"sdiff", b!"sinter", b!"sunion"] →
      Shape name n .nullArray := fun h => .inr (.inr (.inr (.inr (.inr (.inr (.inl ⟨h, .inr rfl⟩))))))
  have s7 : ∀ {name}, name ∈ [b!"spop", b!"srandmember"] → (∃ d, r = .bulk d) ∨ r = .nullBulk → Shape name 1 r :=
    fun h h' => .inr (.inr (.inr (.inr (.inr (.inr (.inr (.inl ⟨h, rfl, h'⟩)))))))
  have s8 : ∀ {name}, name ∈ [b!"spop", b!"srandmember"] → (∃ xs : List Bytes, r = .array (xs.map .bulk)) ∨ r = .nullArray →
      Shape name 2 r := fun h h' => .inr (.inr (.inr (.inr (.inr (.inr (.inr (.inr ⟨h, rfl, h'⟩)))))))
  cases h with
  | ok hc =>
    cases c <;> simp only at hc
    case set => exact g hm (s1 (by decide))
    case mset => exact g hm.2 (s1 (by decide))
    case lset => obtain ⟨_, hm, -⟩ := hm; exact g hm (s1 (by decide))
    case ltrim => obtain ⟨_, _, hm, -⟩ := hm; exact g hm (s1 (by decide))
  | int n hc =>
    cases c <;> simp only at hc
    case incr =>
      rcases hm with h | ⟨rfl, h | ⟨o, os, h, h'⟩⟩
      · exact g h (s2 (by decide))
      · exact g h (s2 (by decide))
      · exact ⟨_, _, h, s2 (by decide)⟩
    case decr =>
      rcases hm with h | ⟨rfl, h | ⟨o, os, h, h'⟩⟩
      · exact g h (s2 (by decide))
      · exact g h (s2 (by decide))
      · exact ⟨_, _, h, s2 (by decide)⟩
    case linsert => obtain ⟨_, hm, -⟩ := hm; exact g hm (s2 (by decide))
    case lrem => obtain ⟨_, hm, -⟩ := hm; exact g hm (s2 (by decide))
    all_goals first
      | exact g hm (s2 (by decide))
      | exact g hm.2 (s2 (by decide))
  | bulk d hc =>
    cases c <;> simp only at hc
    case getrange => obtain ⟨_, _, hm, -⟩ := hm; exact g hm (.inr (.inr (.inr (.inl ⟨rfl, _, rfl⟩))))
    case lindex => obtain ⟨_, hm, -⟩ := hm; exact g hm (s3 (by decide))
    case spop k n => cases n with
      | none => exact g hm (s7 (by decide) (.inl ⟨_, rfl⟩))
      | some n => exact hc.elim
    case srandmember k n => cases n with
      | none => exact g hm (s7 (by decide) (.inl ⟨_, rfl⟩))
      | some n => exact hc.elim
    all_goals exact g hm (s3 (by decide))
  | nullBulk hc =>
    cases c <;> simp only at hc
    case lindex => obtain ⟨_, hm, -⟩ := hm; exact g hm (s4 (by decide))
    case spop k n => cases n with
      | none => exact g hm (s7 (by decide) (.inr rfl))
      | some n => exact hc.elim
    case srandmember k n => cases n with
      | none => exact g hm (s7 (by decide) (.inr rfl))
      | some n => exact hc.elim
    all_goals exact g hm (s4 (by decide))
  | mget xs hl => exact g hm.2 (.inr (.inr (.inr (.inr (.inl ⟨rfl, xs, hl, rfl⟩)))))
  | hmget xs hl => exact g hm.2 (.inr (.inr (.inr (.inr (.inr (.inl ⟨rfl, xs, by simp [hl], rfl⟩))))))
  | array xs hc =>
    cases c <;> simp only at hc
    case lrange => obtain ⟨_, _, hm, -⟩ := hm; exact g hm (s5 (by decide))
    case spop k n => cases n with
      | none => exact hc.elim
      | some n => obtain ⟨_, hm, -⟩ := hm; exact g hm (s8 (by decide) (.inl ⟨_, rfl⟩))
    case srandmember k n => cases n with
      | none => exact hc.elim
      | some n => obtain ⟨_, hm, -⟩ := hm; exact g hm (s8 (by decide) (.inl ⟨_, rfl⟩))
    all_goals first
      | exact g hm (s5 (by decide))
      | exact g hm.2 (s5 (by decide))
  | nullArray hc =>
    cases c <;> simp only at hc
    case lrange => obtain ⟨_, _, hm, -⟩ := hm; exact g hm (s6 (by decide))
    case spop k n => cases n with
      | none => exact hc.elim
      | some n => obtain ⟨_, hm, -⟩ := hm; exact g hm (s8 (by decide) (.inr rfl))
    case srandmember k n => cases n with
      | none => exact hc.elim
      | some n => obtain ⟨_, hm, -⟩ := hm; exact g hm (s8 (by decide) (.inr rfl))
    all_goals first
      | exact g hm (s6 (by decide))
      | exact g hm.2 (s6 (by decide))

/-- What one request does, in outline. -/
theorem handle_outline {env : Env} {st : State} {a : DB} (objs : List Resp) (h : Abs st a) (ho : env.ord.Fair) :
    (Fatal a objs ∧ handle env st objs = .panic) ∨
    (¬ Fatal a objs ∧ ∃ st' a' r, handle env st objs = .ok (st', r) ∧ Abs st' a' ∧
      (∀ k, ¬ Writes .str objs k → a'.strs k = a.strs k) ∧ (∀ k, ¬ Writes .list objs k → a'.lists k = a.lists k) ∧
      (∀ k, ¬ Writes .hash objs k → a'.hashes k = a.hashes k) ∧ (∀ k, ¬ Writes .set objs k → a'.sets k = a.sets k) ∧
      (((∃ t, r = .error t) ∧ (a' = a ∨ BareHset objs)) ∨ ((∀ t, r ≠ .error t) ∧ ∃ name os, Calls objs name os ∧ Shape name os.length r))) := by
  rcases handle_cases objs h ho with ⟨c, hc, hcs⟩ | ⟨hb, t, e⟩
  · have hv := requestCommand_valid (means_command hc)
    have hfc : FatalC a c → Fatal a objs := fun hf => fatal_iff.2 ⟨c, hc, hf⟩
    have hfn : ¬ FatalC a c → ¬ Fatal a objs := by
      intro hf hF
      obtain ⟨d, hd, hf'⟩ := fatal_iff.1 hF
      rw [means_unique hd hc] at hf'
      exact hf hf'
    have fr : ∀ {a'}, SameBut c a a' → (∀ k, ¬ Writes .str objs k → a'.strs k = a.strs k) ∧
        (∀ k, ¬ Writes .list objs k → a'.lists k = a.lists k) ∧
        (∀ k, ¬ Writes .hash objs k → a'.hashes k = a.hashes k) ∧ (∀ k, ¬ Writes .set objs k → a'.sets k = a.sets k) := by
      intro a' hs
      exact ⟨fun k hk => hs.1 k fun h => hk (strKeys_writes hc h), fun k hk => hs.2.1 k fun h => hk (listKeys_writes hc h),
        fun k hk => hs.2.2.1 k fun h => hk (hashKeys_writes hc h), fun k hk => hs.2.2.2 k fun h => hk (setKeys_writes hc h)⟩
    rcases hcs with ⟨hs, e⟩ | ⟨a', r, st', hs, e, ha⟩ | ⟨a', e', r, st', hs, her, e, ha⟩
    · cases step_outline hv hs with
      | crash hf => exact .inl ⟨hfc hf, e⟩
    · cases hol : step_outline hv hs with
      | done hf hsb hsh =>
        refine .inr ⟨hfn hf, st', a', r, e, ha, (fr hsb).1, (fr hsb).2.1, (fr hsb).2.2.1, (fr hsb).2.2.2, .inr ⟨?_, shape_of hc hsh⟩⟩
        intro t ht; subst ht; cases hsh
    · have hr : ∃ t, r = .error t := by
        cases e' <;> first | exact ⟨_, her⟩ | (obtain ⟨m, hm⟩ := her; exact ⟨_, hm⟩)
      generalize ho' : (fails a' e') = out at hs
      cases step_outline hv hs with
      | done => simp [fails, done] at ho'
      | fails hf =>
        simp [fails] at ho'
        obtain ⟨rfl, rfl⟩ := ho'
        exact .inr ⟨hfn hf, st', a', r, e, ha, fun _ _ => rfl, fun _ _ => rfl, fun _ _ => rfl, fun _ _ => rfl, .inl ⟨hr, .inl rfl⟩⟩
      | bare hck hk =>
        rename_i k
        simp [fails] at ho'
        obtain ⟨rfl, rfl⟩ := ho'
        have hsb : SameBut c a (a.setHash k (a.hashAt k)) := by subst hck; exact sameBut_setHash (by simp [hashKeys])
        refine .inr ⟨hfn (by subst hck; exact hk), st', _, r, e, ha, (fr hsb).1, (fr hsb).2.1, (fr hsb).2.2.1, (fr hsb).2.2.2, .inl ⟨hr, .inr ⟨k, hk, ?_⟩⟩⟩
        subst hck
        exact hc.2
      | crash => simp [fails] at ho'
  · refine .inr ⟨?_, st, a, _, e, h, fun _ _ => rfl, fun _ _ => rfl, fun _ _ => rfl, fun _ _ => rfl, .inl ⟨⟨t, rfl⟩, .inl rfl⟩⟩
    intro hf
    obtain ⟨c, hc, -⟩ := fatal_iff.1 hf
    exact hb ⟨c, hc⟩

end Verif
