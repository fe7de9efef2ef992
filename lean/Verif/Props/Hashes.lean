import Verif.Lemmas.Frame
import Verif.Lemmas.Sample

/-! # C20, C21 – hash keys -/

namespace Verif.Props

open Verif Spec

variable {env env' : Env} {st st' : State} {a : DB} {objs objs' : List Resp} {k f v : Bytes}

/-! ## C20

One thing a client may expect is false: a field with the empty name can be stored, but HGET, HEXISTS and HSTRLEN refuse to look at it. -/

theorem foldl_insert_lookup (ps : List (Bytes × Bytes)) (m : Hash) :
    (∀ pre post, ps = pre ++ (f, v) :: post → f ∉ post.map Prod.fst → (ps.foldl (fun m p => m.insert p.1 p.2) m).lookup f = some v) ∧
    (f ∉ ps.map Prod.fst → (ps.foldl (fun m p => m.insert p.1 p.2) m).lookup f = m.lookup f) := by
  have h2 : ∀ (ps : List (Bytes × Bytes)) (m : Hash), f ∉ ps.map Prod.fst →
      (ps.foldl (fun m p => m.insert p.1 p.2) m).lookup f = m.lookup f := by
    intro ps
    induction ps with
    | nil => intro m _; rfl
    | cons p ps ih =>
      intro m hn
      simp only [List.map_cons, List.mem_cons, not_or] at hn
      rw [List.foldl_cons, ih _ hn.2, Finmap.lookup_insert_of_ne _ hn.1]
  refine ⟨?_, h2 ps m⟩
  rintro pre post rfl hn
  rw [List.foldl_append, List.foldl_cons, h2 post _ hn, Finmap.lookup_insert]

theorem foldl_erase_lookup (fs : List Bytes) (m : Hash) :
    (fs.foldl (fun m g => m.erase g) m).lookup f = if f ∈ fs then none else m.lookup f := by
  induction fs generalizing m with
  | nil => simp
  | cons g fs ih =>
    rw [List.foldl_cons, ih]
    by_cases h1 : f ∈ fs
    · simp [h1]
    · by_cases h2 : f = g
      · subst h2; simp [h1, Finmap.lookup_erase]
      · simp [h1, h2, Finmap.lookup_erase_ne h2]

theorem card_enumerates {s : Finset Bytes} {P : Bytes → Prop} (h : ∀ x, x ∈ s ↔ P x) : ∃ l, Enumerates l P ∧ l.length = s.card :=
  ⟨s.toList, ⟨s.nodup_toList, fun x => by rw [Finset.mem_toList, h]⟩, by simp⟩

theorem lookup_none_keys {m : Hash} : f ∉ m.keys ↔ m.lookup f = none := by
  rw [Finmap.mem_keys, Finmap.lookup_eq_none]

theorem lookup_some_keys {m : Hash} : f ∈ m.keys ↔ ∃ v, m.lookup f = some v := by
  rw [Finmap.mem_keys, Finmap.mem_iff]

/-- C20 (HSET): afterwards every named field has the value it was given last, all other fields are as before; the reply is the number of
different named fields that did not exist before. -/
theorem C20_hset {fs vs : List Bytes} (h : Abs st a) (ho : env.ord.Fair) (hk : k ≠ []) (hl : fs.length = vs.length) (hne : fs ≠ [])
    (hr : Request objs b!"hset" (k :: weave fs vs)) :
    ∃ m new, Answers env st objs (a.setHash k m) (.int (List.length new)) ∧
      Enumerates new (fun f => f ∈ fs ∧ (a.hashAt k).lookup f = none) ∧
      (∀ f v pre post, fs.zip vs = pre ++ (f, v) :: post → f ∉ post.map Prod.fst → m.lookup f = some v) ∧
      (∀ f, f ∉ fs → m.lookup f = (a.hashAt k).lookup f) := by
  obtain ⟨out, hs, hob⟩ := handle_refines h ho (c := .hset k fs vs) ⟨hl, hr⟩
  simp only [Step] at hs
  rw [if_neg hk, if_neg hne] at hs; subst hs
  obtain ⟨new, hn, hc⟩ := card_enumerates (s := fs.toFinset \ (a.hashAt k).keys) (P := fun f => f ∈ fs ∧ (a.hashAt k).lookup f = none)
    (by intro x; rw [Finset.mem_sdiff, List.mem_toFinset, lookup_none_keys])
  refine ⟨_, new, by rw [hc]; exact hob, hn, fun f v pre post e hp => (foldl_insert_lookup _ _).1 pre post e hp, fun f hf => ?_⟩
  refine (foldl_insert_lookup (v := []) _ _).2 ?_
  rw [List.map_fst_zip (by omega)]
  exact hf

/-- C20 (HDEL): exactly the named fields are gone; the reply is the number of different named fields that existed. A missing key replies 0. -/
theorem C20_hdel {fs : List Bytes} (h : Abs st a) (ho : env.ord.Fair) (hne : fs ≠ []) (hr : Request objs b!"hdel" (k :: fs)) :
    (∀ m, a.hashes k = some m → ∃ m' old, Answers env st objs (a.setHash k m') (.int (List.length old)) ∧
      Enumerates old (fun f => f ∈ fs ∧ ∃ v, m.lookup f = some v) ∧
      ∀ f, m'.lookup f = if f ∈ fs then none else m.lookup f) ∧
    (a.hashes k = none → Answers env st objs a (.int 0)) := by
  obtain ⟨out, hs, hob⟩ := handle_refines h ho (c := .hdel k fs) ⟨hne, hr⟩
  simp only [Step] at hs
  refine ⟨fun m e => ?_, fun e => ?_⟩
  · rw [e] at hs
    simp only at hs; subst hs
    obtain ⟨old, hn, hc⟩ := card_enumerates (s := fs.toFinset ∩ m.keys) (P := fun f => f ∈ fs ∧ ∃ v, m.lookup f = some v)
      (by intro x; rw [Finset.mem_inter, List.mem_toFinset, lookup_some_keys])
    exact ⟨_, old, by rw [hc]; exact hob, hn, fun f => foldl_erase_lookup fs m⟩
  · rw [e] at hs
    simp only at hs; subst hs
    exact hob

/-- C20 (reads, partial: the field name is not empty): HGET replies the value or null, HEXISTS 1 or 0, HSTRLEN the length of the value or 0. A missing
key has no fields. Nothing changes. -/
theorem C20_reads_partial (h : Abs st a) (ho : env.ord.Fair) (hf : f ≠ []) :
    (Request objs b!"hget" [k, f] → Answers env st objs a (match (a.hashAt k).lookup f with | some v => .bulk v | none => .nullBulk)) ∧
    (Request objs b!"hexists" [k, f] → Answers env st objs a (match (a.hashAt k).lookup f with | some _ => .int 1 | none => .int 0)) ∧
    (Request objs b!"hstrlen" [k, f] → Answers env st objs a (match (a.hashAt k).lookup f with | some v => .int v.length | none => .int 0)) := by
  refine ⟨fun hr => ?_, fun hr => ?_, fun hr => ?_⟩
  · obtain ⟨out, hs, hob⟩ := handle_refines h ho (c := .hget k f) hr
    simp only [Step] at hs
    unfold DB.hashAt
    cases e : a.hashes k with
    | none => rw [e] at hs; simp only at hs; subst hs; simpa [Finmap.lookup_empty, Answers, Observes, done] using hob
    | some m =>
      rw [e] at hs; simp only at hs; rw [if_neg hf] at hs; subst hs
      simp only [Option.getD_some]
      cases e2 : m.lookup f <;> rw [e2] at hob <;> exact hob
  · obtain ⟨out, hs, hob⟩ := handle_refines h ho (c := .hexists k f) hr
    simp only [Step] at hs
    unfold DB.hashAt
    cases e : a.hashes k with
    | none => rw [e] at hs; simp only at hs; subst hs; simpa [Finmap.lookup_empty, Answers, Observes, done] using hob
    | some m =>
      rw [e] at hs; simp only at hs; rw [if_neg hf] at hs; subst hs
      simp only [Option.getD_some]
      cases e2 : m.lookup f with
      | none => rw [if_neg (by rw [Finmap.lookup_eq_none] at e2; exact e2)] at hob; exact hob
      | some v => rw [if_pos (Finmap.mem_of_lookup_eq_some e2)] at hob; exact hob
  · obtain ⟨out, hs, hob⟩ := handle_refines h ho (c := .hstrlen k f) hr
    simp only [Step] at hs
    unfold DB.hashAt
    cases e : a.hashes k with
    | none => rw [e] at hs; simp only at hs; subst hs; simpa [Finmap.lookup_empty, Answers, Observes, done] using hob
    | some m =>
      rw [e] at hs; simp only at hs; rw [if_neg hf] at hs; subst hs
      simp only [Option.getD_some]
      cases e2 : m.lookup f <;> rw [e2] at hob <;> exact hob

/-- C20 (HMGET): position by position the value or null; any field names, any key. -/
theorem C20_hmget {fs : List Bytes} (h : Abs st a) (ho : env.ord.Fair) (hne : fs ≠ []) (hr : Request objs b!"hmget" (k :: fs)) :
    ∃ rs, Answers env st objs a (.array rs) ∧
      List.Forall₂ (fun f r => r = match (a.hashAt k).lookup f with | some v => .bulk v | none => .nullBulk) fs rs := by
  obtain ⟨out, hs, hob⟩ := handle_refines h ho (c := .hmget k fs) ⟨hne, hr⟩
  simp only [Step] at hs; subst hs
  refine ⟨_, hob, ?_⟩
  clear hob hr hne
  induction fs with
  | nil => exact .nil
  | cons f fs ih =>
    refine .cons ?_ ih
    change bulk? ((a.hashAt k).lookup f) = _
    cases (a.hashAt k).lookup f <;> rfl

/-- C20 (HLEN): the number of fields. -/
theorem C20_hlen (h : Abs st a) (ho : env.ord.Fair) (hr : Request objs b!"hlen" [k]) :
    ∃ fs, Enumerates fs (fun f => ∃ v, (a.hashAt k).lookup f = some v) ∧ Answers env st objs a (.int (List.length fs)) := by
  obtain ⟨out, hs, hob⟩ := handle_refines h ho (c := .hlen k) hr
  simp only [Step] at hs; subst hs
  obtain ⟨fs, hn, hc⟩ := card_enumerates (s := (a.hashAt k).keys) (P := fun f => ∃ v, (a.hashAt k).lookup f = some v)
    (fun x => lookup_some_keys)
  exact ⟨fs, hn, by rw [hc]; exact hob⟩

/-- C20 (`KeyLen`, which no command calls): the length of the value, or an error if there is no such field, also for the empty field name. -/
theorem C20_keyLen {c : HashC} (h : Abs st a) (hc : st.hashes.get k = some c) (f : Bytes) :
    HashC.keyLen c (Str.new f) = match (a.hashAt k).lookup f with | some v => some (v.length : Int) | none => none := by
  have := h.hashes k
  rw [hc] at this
  cases hm : a.hashes k with
  | none => rw [hm] at this; cases this
  | some m =>
    rw [hm] at this
    have r : HashRep c m := this
    simp only [HashC.keyLen, DB.hashAt, hm, Str.new_data, r.2 f, Option.getD_some]
    cases m.lookup f <;> rfl

/-- C20 (the empty field name): on an existing hash HGET, HEXISTS and HSTRLEN of the empty field name always reply an error. -/
theorem C20_empty_field {m : Hash} (h : Abs st a) (ho : env.ord.Fair) (hk : a.hashes k = some m)
    (hr : Request objs b!"hget" [k, []] ∨ Request objs b!"hexists" [k, []] ∨ Request objs b!"hstrlen" [k, []]) :
    Answers env st objs a (.error b!"ERR invalid argument") := by
  rcases hr with hr | hr | hr
  · obtain ⟨out, hs, hob⟩ := handle_refines h ho (c := .hget k []) hr
    simp only [Step, hk] at hs
    rw [if_pos trivial] at hs; subst hs
    obtain ⟨r, her, hb⟩ := hob
    cases her; exact hb
  · obtain ⟨out, hs, hob⟩ := handle_refines h ho (c := .hexists k []) hr
    simp only [Step, hk] at hs
    rw [if_pos trivial] at hs; subst hs
    obtain ⟨r, her, hb⟩ := hob
    cases her; exact hb
  · obtain ⟨out, hs, hob⟩ := handle_refines h ho (c := .hstrlen k []) hr
    simp only [Step, hk] at hs
    rw [if_pos trivial] at hs; subst hs
    obtain ⟨r, her, hb⟩ := hob
    cases her; exact hb

/-- C20 (counterexample): on a fresh server HSET h "" v is answered 1, and the HGET h "" that follows is answered by an error. -/
theorem C20_false : ∃ st', serve State.empty [(env0, req [b!"HSET", b!"h", b!"", b!"v"]), (env0, req [b!"HGET", b!"h", b!""])] =
    .ok (st', [.int 1, .error b!"ERR invalid argument"]) := by
  obtain ⟨m, new, ⟨st1, e1, a1⟩, hn, -, -⟩ := C20_hset abs_empty env0_fair (objs := req [b!"HSET", b!"h", b!"", b!"v"]) (k := b!"h")
    (fs := [b!""]) (vs := [b!"v"]) (by decide) rfl (by simp) (request_req _)
  have hlen : new = [b!""] := by
    have : ∀ x, x ∈ new ↔ x = b!"" := by
      intro x
      rw [hn.2 x]
      simp [DB.hashAt, DB.empty, Finmap.lookup_empty]
    have h1 := hn.1
    cases new with
    | nil => exact absurd ((this b!"").2 rfl) (by simp)
    | cons x xs =>
      have hx := (this x).1 (by simp)
      subst hx
      cases xs with
      | nil => rfl
      | cons y ys =>
        have hy := (this y).1 (by simp)
        subst hy
        simp at h1
  rw [hlen] at e1
  obtain ⟨st2, e2, -⟩ := C20_empty_field (k := b!"h") (m := m) (objs := req [b!"HGET", b!"h", b!""]) a1 env0_fair (by simp [DB.setHash])
    (.inl (request_req _))
  exact ⟨st2, by simp [serve, e1, e2]⟩

/-- The hypotheses can be met: a hash with two fields, an HSET with a repeated field, an HDEL of an existing and a missing field. -/
example : ∃ st, Reachable st ∧ Abs st sampleDB ∧
    Request (req [b!"hset", b!"h", b!"f", b!"1", b!"x", b!"2", b!"f", b!"3"]) b!"hset" (b!"h" :: weave [b!"f", b!"x", b!"f"] [b!"1", b!"2", b!"3"]) ∧
    Request (req [b!"hdel", b!"h", b!"f", b!"z"]) b!"hdel" (b!"h" :: [b!"f", b!"z"]) ∧ (sampleDB.hashAt b!"h").lookup b!"f" = some b!"v" ∧
    (sampleDB.hashAt b!"h").lookup b!"z" = none := by
  obtain ⟨st, hr, ha⟩ := sample_reachable
  exact ⟨st, hr, ha, request_req _, request_req _, rfl, rfl⟩

/-! ## C21 -/

/-- C21: whatever the iteration order of the runtime, on an existing hash there is an enumeration of the fields with their values, each field once, such that
HGETALL replies each field directly followed by its value; likewise HKEYS replies the fields, HVALS the values of such an
enumeration (so the values come with the right multiplicities). Nothing changes. -/
theorem C21_enumerate {m : Hash} (h : Abs st a) (ho : env.ord.Fair) (hk : a.hashes k = some m) :
    (Request objs b!"hgetall" [k] → ∃ ps, HashEntries ps m ∧ Answers env st objs a (.array (ps.flatMap fun p => [.bulk p.1, .bulk p.2]))) ∧
    (Request objs b!"hkeys" [k] → ∃ fs, Enumerates fs (fun f => ∃ v, m.lookup f = some v) ∧ Answers env st objs a (.array (fs.map .bulk))) ∧
    (Request objs b!"hvals" [k] → ∃ ps, HashEntries ps m ∧ Answers env st objs a (.array (ps.map fun p => .bulk p.2))) := by
  refine ⟨fun hr => ?_, fun hr => ?_, fun hr => ?_⟩
  · obtain ⟨out, hs, hob⟩ := handle_refines h ho (c := .hgetall k) hr
    simp only [Step, hk] at hs
    obtain ⟨ps, hp, rfl⟩ := hs
    exact ⟨ps, hp, hob⟩
  · obtain ⟨out, hs, hob⟩ := handle_refines h ho (c := .hkeys k) hr
    simp only [Step, hk] at hs
    obtain ⟨ps, hp, rfl⟩ := hs
    refine ⟨ps.map Prod.fst, ⟨hp.1, fun f => ?_⟩, by rw [List.map_map]; exact hob⟩
    rw [List.mem_map]
    constructor
    · rintro ⟨⟨g, v⟩, hm, rfl⟩
      exact ⟨v, (hp.2 g v).1 hm⟩
    · rintro ⟨v, hv⟩
      exact ⟨(f, v), (hp.2 f v).2 hv, rfl⟩
  · obtain ⟨out, hs, hob⟩ := handle_refines h ho (c := .hvals k) hr
    simp only [Step, hk] at hs
    obtain ⟨ps, hp, rfl⟩ := hs
    exact ⟨ps, hp, hob⟩

/-- C21 (missing key): a null array. -/
theorem C21_missing (h : Abs st a) (ho : env.ord.Fair) (hk : a.hashes k = none)
    (hr : Request objs b!"hgetall" [k] ∨ Request objs b!"hkeys" [k] ∨ Request objs b!"hvals" [k]) : Answers env st objs a .nullArray := by
  rcases hr with hr | hr | hr
  · obtain ⟨out, hs, hob⟩ := handle_refines h ho (c := .hgetall k) hr
    simp only [Step, hk] at hs; subst hs; exact hob
  · obtain ⟨out, hs, hob⟩ := handle_refines h ho (c := .hkeys k) hr
    simp only [Step, hk] at hs; subst hs; exact hob
  · obtain ⟨out, hs, hob⟩ := handle_refines h ho (c := .hvals k) hr
    simp only [Step, hk] at hs; subst hs; exact hob

/-- C21 (no choice beyond the order): any two enumerations of a hash are permutations of each other, so two HVALS replies differ by a
permutation only. -/
theorem C21_permutation {m : Hash} {ps qs : List (Bytes × Bytes)} (hp : HashEntries ps m) (hq : HashEntries qs m) : ps.Perm qs := by
  rw [List.perm_ext_iff_of_nodup hp.1.of_map hq.1.of_map]
  rintro ⟨f, v⟩
  rw [hp.2, hq.2]

/-- The hypotheses can be met, with a runtime that iterates backwards. -/
example : ∃ st, Reachable st ∧ Abs st sampleDB ∧ IterOrder.Fair (fun _ l => l.reverse) ∧
    Request (req [b!"HGETALL", b!"h"]) b!"hgetall" [b!"h"] ∧ (sampleDB.hashes b!"h").isSome := by
  obtain ⟨st, hr, ha⟩ := sample_reachable
  exact ⟨st, hr, ha, fun _ l => l.reverse_perm, request_req _, rfl⟩

end Verif.Props
